import Verif.Props.PropInit

/-!
# C87: what the constructors of the library hand on
-/

namespace Normalize.PropInit

open Spec Traits

variable {V : Type} {I : Inits V} {r : Reg} {L : Lib V}

/-- The type is that of the library. -/
structure StockAt (I : Inits V) (r : Reg) (L : Lib V) (c : Nat) : Prop where
  type : r.types[c]? = stock.types[c]?
  made : I.made c = none
  pass : I.pass c = stockPass L c

theorem not_received {log : List (Nat × Kws V)} {c : Nat} {own : Kws V} {a : String} {v : V} (h : c ≠ 0) : Received ((c, own) :: log) 0 a v ↔ Received log 0 a v := by
  unfold Received
  constructor
  · rintro ⟨o, ho, hv⟩
    rcases List.mem_cons.1 ho with he | ho
    · cases he; exact absurd rfl h
    · exact ⟨o, ho, hv⟩
  · rintro ⟨o, ho, hv⟩
    exact ⟨o, List.mem_cons_of_mem _ ho, hv⟩

theorem inits_cons {c : Nat} {cs : List Nat} {kw : Kws V} {log : List (Nat × Kws V)} {t : PType} (ht : r.types[c]? = some t) (hi : t.own.contains "__init__" = true)
    (hm : I.made c = none) (h0 : c ≠ 0) (h : inits I r (c :: cs) kw = .ok log) :
    ∃ kw' log', I.pass c (ownKw t.args kw) (restKw t.args kw) = .ok kw' ∧ inits I r cs kw' = .ok log' ∧ log = (c, ownKw t.args kw) :: log' := by
  simp only [inits, ht, hi, if_true, hm, if_neg h0] at h
  cases hp : I.pass c (ownKw t.args kw) (restKw t.args kw) with
  | error e => simp [hp] at h
  | ok kw' =>
    simp only [hp] at h
    cases hl : inits I r cs kw' with
    | error e => simp [hl] at h
    | ok log' =>
      simp only [hl, Except.ok.injEq] at h
      exact ⟨kw', log', rfl, hl, h.symm⟩

/-- What `Property` gets, from types that hand it on and have no default for it. -/
theorem property_gets {a : String} (h0 : TakesArg I r 0 a) {pre post : List Nat} (hn : (pre ++ 0 :: post).Nodup) (ht : ∀ d ∈ pre, ¬ TakesArg I r d a) (hh : HandsOn I pre a)
    (hd : ∀ d ∈ pre, ∀ w, ¬ HasDefault I r d a w) {kw : Kws V} {log : List (Nat × Kws V)} (h : inits I r (pre ++ 0 :: post) kw = .ok log) (v : V) :
    Received log 0 a v ↔ alookup kw a = some v := by
  have hp : 0 ∉ pre := by
    intro hp
    exact (List.nodup_append.1 hn).2.2 0 hp 0 (by simp) rfl
  rw [inits_recv h0 h hn hp ht hh v]
  cases hf : firstDef I r a pre with
  | none => simp
  | some w =>
    exfalso
    obtain ⟨p, c, q, he, hc, _⟩ := firstDef_iff.1 hf
    exact hd c (by simp [he]) w hc

/-- C87: a `V1Property` hands on the default, unless it is `None` and no `v1_none` is given. -/
theorem C87_v1 (hs : StockAt I r L 6) (h0 : TakesArg I r 0 "default") {pre post : List Nat} (hn : (pre ++ 0 :: post).Nodup) (ht : ∀ d ∈ pre, ¬ TakesArg I r d "default")
    (hh : HandsOn I pre "default") (hd : ∀ d ∈ pre, ∀ w, ¬ HasDefault I r d "default" w) {kw : Kws V} {log : List (Nat × Kws V)}
    (h : inits I r (6 :: (pre ++ 0 :: post)) kw = .ok log) (v : V) :
    Received log 0 "default" v ↔ alookup kw "default" = some v ∧ ((∃ w, alookup kw "v1_none" = some w) ∨ L.kind v ≠ .v1none) := by
  have hty : stock.types[6]? = some (stock.types[6]'(by decide +kernel)) := by simp
  have hargs : (stock.types[6]'(by decide +kernel)).args = ["self", "v1_none"] := by decide +kernel
  obtain ⟨kw', log', hp, hl, rfl⟩ := inits_cons (hs.type.trans hty) (by decide +kernel) hs.made (by decide) h
  rw [not_received (by decide), property_gets h0 hn ht hh hd hl]
  rw [hs.pass, hargs] at hp
  simp only [stockPass, passV1] at hp
  rw [alookup_ownKw (by simp), alookup_restKw (by decide)] at hp
  have hr : alookup (restKw ["self", "v1_none"] kw) "default" = alookup kw "default" := alookup_restKw (by decide) kw
  cases hv : alookup kw "v1_none" with
  | some w =>
    simp only [hv] at hp
    split at hp
    · cases hp
    · cases hp
      rw [hr]
      simp
  | none =>
    simp only [hv] at hp
    cases hdf : alookup kw "default" with
    | none =>
      simp only [hdf] at hp
      cases hp
      rw [hr, hdf]
      simp
    | some d =>
      simp only [hdf] at hp
      split at hp
      · rename_i hk
        cases hp
        rw [alookup_aerase]
        simp only [if_true, Option.some.injEq]
        constructor
        · intro h; cases h
        · rintro ⟨rfl, ⟨w, hw⟩ | h⟩
          · cases hw
          · exact absurd hk h
      · rename_i hk
        cases hp
        rw [hr, hdf]
        simp only [Option.some.injEq]
        constructor
        · rintro rfl; exact ⟨rfl, .inr hk⟩
        · exact (·.1)

/-- The type of the items that is given: under its own name, or else as `of`. -/
def ItemGiven (L : Lib V) (arg : String) (kw : Kws V) (t : V) : Prop :=
  (alookup kw arg = some t ∧ L.isNone t = false) ∨ ((∀ t', alookup kw arg = some t' → L.isNone t' = true) ∧ alookup kw "of" = some t)

theorem popOf_spec {arg : String} {own rest rest' kw : Kws V} {t : V} (ho : alookup own arg = alookup kw arg) (hr : alookup rest "of" = alookup kw "of")
    (h : popOf L arg own rest = (some t, rest')) : ItemGiven L arg kw t ∧ ∀ a, a ≠ "of" → alookup rest' a = alookup rest a := by
  simp only [popOf] at h
  cases hk : alookup own arg with
  | none =>
    simp only [hk, Prod.mk.injEq] at h
    obtain ⟨h1, rfl⟩ := h
    refine ⟨.inr ⟨fun t' h' => ?_, hr ▸ h1⟩, fun a ha => ?_⟩
    · rw [← ho, hk] at h'; cases h'
    · rw [alookup_aerase, if_neg (Ne.symm ha)]
  | some w =>
    simp only [hk] at h
    split at h
    · rename_i hw
      simp only [Prod.mk.injEq] at h
      obtain ⟨h1, rfl⟩ := h
      refine ⟨.inr ⟨fun t' h' => ?_, hr ▸ h1⟩, fun a ha => ?_⟩
      · rw [← ho, hk] at h'; cases h'; exact hw
      · rw [alookup_aerase, if_neg (Ne.symm ha)]
    · rename_i hw
      simp only [Prod.mk.injEq, Option.some.injEq] at h
      obtain ⟨rfl, rfl⟩ := h
      exact ⟨.inl ⟨ho ▸ hk, by simpa using hw⟩, fun a _ => rfl⟩

theorem passOf_spec {arg : String} {dflt : V} {good : V → Bool} {kw out : Kws V} (ha : arg ≠ "of" ∧ arg ≠ "coll" ∧ arg ≠ "isa")
    (h : passOf L arg dflt good (ownKw ["self", arg] kw) (restKw ["self", arg] kw) = .ok out) :
    ∃ t, ItemGiven L arg kw t ∧ good ((alookup kw "coll").getD dflt) = true ∧
      alookup out "of" = some t ∧ alookup out "coll" = some ((alookup kw "coll").getD dflt) ∧ alookup out "isa" = alookup kw "isa" := by
  have hr : ∀ a, a ≠ "self" → a ≠ arg → alookup (restKw ["self", arg] kw) a = alookup kw a := fun a h1 h2 => alookup_restKw (by simp [h1, h2]) kw
  have hof := hr "of" (by decide) (Ne.symm ha.1)
  have hco := hr "coll" (by decide) (Ne.symm ha.2.1)
  have his := hr "isa" (by decide) (Ne.symm ha.2.2)
  simp only [passOf] at h
  cases hp : popOf L arg (ownKw ["self", arg] kw) (restKw ["self", arg] kw) with
  | mk t rest' =>
    cases t with
    | none => simp [hp] at h
    | some t =>
      simp only [hp] at h
      obtain ⟨h1, h2⟩ := popOf_spec (kw := kw) (alookup_ownKw (by simp) kw) hof hp
      have hc' : alookup rest' "coll" = alookup kw "coll" := (h2 _ (by decide)).trans hco
      split at h
      · cases h
      · split at h
        · rename_i hg
          split at h
          · cases h
          · cases h
            rw [hc'] at hg ⊢
            refine ⟨t, h1, hg, ?_, ?_, ?_⟩
            · rw [alookup_aset, if_neg (by decide), alookup_aset, if_pos rfl]
            · rw [alookup_aset, if_pos rfl]
            · rw [alookup_aset, if_neg (by decide), alookup_aset, if_neg (by decide), alookup_aerase, if_neg (by decide), h2 _ (by decide), his]
        · cases h

theorem coll_gets (hs : StockAt I r L 8) (h0 : TakesArg I r 0 "isa") {pre post : List Nat} (hn : (pre ++ 0 :: post).Nodup) (ht : ∀ d ∈ pre, ¬ TakesArg I r d "isa")
    (hh : HandsOn I pre "isa") (hd : ∀ d ∈ pre, ∀ w, ¬ HasDefault I r d "isa" w) {kw : Kws V} {log : List (Nat × Kws V)}
    (h : inits I r (8 :: (pre ++ 0 :: post)) kw = .ok log) (v : V) :
    Received log 0 "isa" v ↔ L.collection (alookup kw "of") (alookup kw "coll") (alookup kw "isa") = some v := by
  have hty : stock.types[8]? = some (stock.types[8]'(by decide +kernel)) := by simp
  have hargs : (stock.types[8]'(by decide +kernel)).args = ["self", "of", "coll", "isa"] := by decide +kernel
  obtain ⟨kw', log', hp, hl, rfl⟩ := inits_cons (hs.type.trans hty) (by decide +kernel) hs.made (by decide) h
  rw [not_received (by decide), property_gets h0 hn ht hh hd hl]
  rw [hs.pass, hargs] at hp
  simp only [stockPass, passColl] at hp
  rw [alookup_ownKw (by simp), alookup_ownKw (by simp), alookup_ownKw (by simp)] at hp
  cases hc : L.collection (alookup kw "of") (alookup kw "coll") (alookup kw "isa") with
  | none => simp [hc] at hp
  | some t =>
    simp only [hc] at hp
    split at hp
    · cases hp
    · cases hp
      rw [alookup_aset, if_pos rfl]

/-- C87: a `CollectionProperty` gives `Property` the collection type that its arguments make. -/
theorem C87_coll (hs : StockAt I r L 8) (h0 : TakesArg I r 0 "isa") {pre post : List Nat} (hn : (pre ++ 0 :: post).Nodup) (ht : ∀ d ∈ pre, ¬ TakesArg I r d "isa")
    (hh : HandsOn I pre "isa") (hd : ∀ d ∈ pre, ∀ w, ¬ HasDefault I r d "isa" w) {kw : Kws V} {log : List (Nat × Kws V)}
    (h : inits I r (8 :: (pre ++ 0 :: post)) kw = .ok log) : ∃ v, L.collection (alookup kw "of") (alookup kw "coll") (alookup kw "isa") = some v ∧
      ∀ w, Received log 0 "isa" w ↔ w = v := by
  have hty : stock.types[8]? = some (stock.types[8]'(by decide +kernel)) := by simp
  have hargs : (stock.types[8]'(by decide +kernel)).args = ["self", "of", "coll", "isa"] := by decide +kernel
  obtain ⟨kw', log', hp, hl, he⟩ := inits_cons (hs.type.trans hty) (by decide +kernel) hs.made (by decide) h
  rw [hs.pass, hargs] at hp
  simp only [stockPass, passColl] at hp
  rw [alookup_ownKw (by simp), alookup_ownKw (by simp), alookup_ownKw (by simp)] at hp
  have := coll_gets hs h0 hn ht hh hd h
  cases hc : L.collection (alookup kw "of") (alookup kw "coll") (alookup kw "isa") with
  | none => simp [hc] at hp
  | some t =>
    rw [hc] at this
    exact ⟨t, rfl, fun w => by rw [this w]; simp [eq_comm]⟩

/-- C87: so does a `ListProperty`, for the item type given and a kind of list: that given, or its own. -/
theorem C87_list (hs : StockAt I r L 8) (hs' : StockAt I r L 10) (h0 : TakesArg I r 0 "isa") {pre post : List Nat} (hn : (pre ++ 0 :: post).Nodup)
    (ht : ∀ d ∈ pre, ¬ TakesArg I r d "isa") (hh : HandsOn I pre "isa") (hd : ∀ d ∈ pre, ∀ w, ¬ HasDefault I r d "isa" w) {kw : Kws V} {log : List (Nat × Kws V)}
    (h : inits I r (10 :: 8 :: (pre ++ 0 :: post)) kw = .ok log) :
    ∃ t v, ItemGiven L "list_of" kw t ∧ L.isList ((alookup kw "coll").getD L.listType) = true ∧
      L.collection (some t) (some ((alookup kw "coll").getD L.listType)) (alookup kw "isa") = some v ∧ ∀ w, Received log 0 "isa" w ↔ w = v := by
  have hty : stock.types[10]? = some (stock.types[10]'(by decide +kernel)) := by simp
  have hargs : (stock.types[10]'(by decide +kernel)).args = ["self", "list_of"] := by decide +kernel
  obtain ⟨kw', log', hp, hl, rfl⟩ := inits_cons (hs'.type.trans hty) (by decide +kernel) hs'.made (by decide) h
  rw [hs'.pass, hargs] at hp
  obtain ⟨t, h1, h2, h3, h4, h5⟩ := passOf_spec (by decide) hp
  obtain ⟨v, hv, hw⟩ := C87_coll hs h0 hn ht hh hd hl
  rw [h3, h4, h5] at hv
  exact ⟨t, v, h1, h2, hv, fun w => by rw [not_received (by decide), hw]⟩

/-- C87: and a `DictProperty`. -/
theorem C87_dict (hs : StockAt I r L 8) (hs' : StockAt I r L 11) (h0 : TakesArg I r 0 "isa") {pre post : List Nat} (hn : (pre ++ 0 :: post).Nodup)
    (ht : ∀ d ∈ pre, ¬ TakesArg I r d "isa") (hh : HandsOn I pre "isa") (hd : ∀ d ∈ pre, ∀ w, ¬ HasDefault I r d "isa" w) {kw : Kws V} {log : List (Nat × Kws V)}
    (h : inits I r (11 :: 8 :: (pre ++ 0 :: post)) kw = .ok log) :
    ∃ t v, ItemGiven L "dict_of" kw t ∧ L.isDict ((alookup kw "coll").getD L.dictType) = true ∧
      L.collection (some t) (some ((alookup kw "coll").getD L.dictType)) (alookup kw "isa") = some v ∧ ∀ w, Received log 0 "isa" w ↔ w = v := by
  have hty : stock.types[11]? = some (stock.types[11]'(by decide +kernel)) := by simp
  have hargs : (stock.types[11]'(by decide +kernel)).args = ["self", "dict_of"] := by decide +kernel
  obtain ⟨kw', log', hp, hl, rfl⟩ := inits_cons (hs'.type.trans hty) (by decide +kernel) hs'.made (by decide) h
  rw [hs'.pass, hargs] at hp
  obtain ⟨t, h1, h2, h3, h4, h5⟩ := passOf_spec (by decide) hp
  obtain ⟨v, hv, hw⟩ := C87_coll hs h0 hn ht hh hd hl
  rw [h3, h4, h5] at hv
  exact ⟨t, v, h1, h2, hv, fun w => by rw [not_received (by decide), hw]⟩

/-! ## Cases -/

/-- The library alone. -/
def libInits : Inits String := ⟨fun _ => .other, fun _ => none, stockPass demoLib⟩

theorem lib_stock (c : Nat) : StockAt libInits stock demoLib c := ⟨rfl, rfl, rfl⟩

theorem lib_takes : TakesArg libInits stock 0 "isa" := ⟨stock.types[0]'(by decide +kernel), by unfold TypeAt; simp, by decide +kernel, rfl, by decide +kernel⟩

example : inits libInits stock [10, 8, 0] [("list_of", "Dog"), ("required", "x")] =
    .ok [(10, [("list_of", "Dog")]), (8, [("of", "Dog"), ("coll", "ListCollection")]), (0, [("required", "x"), ("isa", "ListCollection of Dog")])] := by decide +kernel

-- `C87_list` applies to it
example : ∃ t v, ItemGiven demoLib "list_of" [("list_of", "Dog"), ("required", "x")] t ∧ demoLib.collection (some t) (some "ListCollection") none = some v ∧
    ∀ w, Received [(10, [("list_of", "Dog")]), (8, [("of", "Dog"), ("coll", "ListCollection")]), (0, [("required", "x"), ("isa", "ListCollection of Dog")])] 0 "isa" w ↔ w = v := by
  obtain ⟨t, v, h1, _, h3, h4⟩ := C87_list (L := demoLib) (pre := []) (post := []) (kw := [("list_of", "Dog"), ("required", "x")]) (lib_stock 8) (lib_stock 10) lib_takes (by simp) (by simp)
    (fun c hc => by cases hc) (by simp)
    (show inits libInits stock [10, 8, 0] [("list_of", "Dog"), ("required", "x")] =
      .ok [(10, [("list_of", "Dog")]), (8, [("of", "Dog"), ("coll", "ListCollection")]), (0, [("required", "x"), ("isa", "ListCollection of Dog")])] by decide +kernel)
  exact ⟨t, v, h1, h3, h4⟩

-- `V1Property(default=None)`, and with `v1_none`
def v1Lib : Lib String := { demoLib with kind := fun s => if s = "None" then .v1none else .other }

def v1Inits : Inits String := ⟨v1Lib.kind, fun _ => none, stockPass v1Lib⟩

example : inits v1Inits stock [6, 4, 0] [("default", "None")] = .ok [(6, ([] : List (String × String))), (0, [])] := by decide +kernel

example : inits v1Inits stock [6, 4, 0] [("v1_none", ""), ("default", "None")] = .ok [(6, [("v1_none", "")]), (0, [("default", "None")])] := by decide +kernel

example : inits v1Inits stock [6, 4, 0] [("default", "x")] = .ok [(6, ([] : List (String × String))), (0, [("default", "x")])] := by decide +kernel

end Normalize.PropInit
