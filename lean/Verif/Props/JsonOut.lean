import Verif.Lemmas.JsonOut

/-!
# C50, C52: JSON output
-/

namespace Normalize.Json
open Ident (IProp Sub)
open Spec (IsJson GoodConverters SafeConverters Writable Named Converts Selected readInt)

variable {J : Setup} {e : Bool}

/-! ## C50: which keys are written -/

/-- C50 as stated: a key is written for a property iff it is set, has a JSON name and is selected. -/
def C50_statement : Prop :=
  ∀ (J : Setup) (e : Bool) (c : String) (s : List (String × Val)) (d : List (Comp × Val)),
    toJson J e (.rcd c s) = .ok (.dict d) → ∀ k, (alookup d k).isSome = true ↔
      ∃ p ∈ (J.S.cls c).props, ∃ nm, k = .str nm ∧ Selected e p ∧ Named J c p (some nm) ∧
        (alookup s p.name).isSome = true

theorem toJson_rcd {c : String} {s : List (String × Val)} {d : List (Comp × Val)}
    (h : toJson J e (.rcd c s) = .ok (.dict d)) : recordOut J e c (outs J e s) = .ok d := by
  simp only [toJson] at h
  cases hr : recordOut J e c (outs J e s) with
  | error x => rw [hr] at h; cases h
  | ok d' => rw [hr] at h; simp [Except.map] at h; rw [h]

/-- C50, corrected: a key is written iff some selected property has it as its JSON name and the conversion of its
value gives one.  What is missing from the full statement: a set property whose conversion raises `AttributeError`
is left out without a word, and an unset lazy property is written. -/
theorem C50_partial {c : String} {s : List (String × Val)} {d : List (Comp × Val)}
    (h : toJson J e (.rcd c s) = .ok (.dict d)) (k : Comp) : (alookup d k).isSome = true ↔
      ∃ p ∈ (J.S.cls c).props, ∃ nm, k = .str nm ∧ Selected e p ∧ Named J c p (some nm) ∧
        ∃ j, Converts J e c s p (.ok j) := by
  rw [(writeProps_lookup _ _ _ (toJson_rcd h)).1]
  simp only [alookup, Option.isSome_none, Bool.false_eq_true, false_or]
  constructor
  · rintro ⟨p, hp, j, h1, nm, h2, h3, h4⟩; exact ⟨p, hp, nm, h2, h1, h3, j, h4⟩
  · rintro ⟨p, hp, nm, h2, h1, h3, j, h4⟩; exact ⟨p, hp, j, h1, nm, h2, h3, h4⟩

/-- C50: the value written is that of a property with this name. -/
theorem C50_value {c : String} {s : List (String × Val)} {d : List (Comp × Val)}
    (h : toJson J e (.rcd c s) = .ok (.dict d)) {k : Comp} {j : Val} (hk : alookup d k = some j) :
    ∃ p ∈ (J.S.cls c).props, ∃ nm, k = .str nm ∧ Selected e p ∧ Named J c p (some nm) ∧
      Converts J e c s p (.ok j) := by
  rcases (writeProps_lookup _ _ _ (toJson_rcd h)).2 j hk with h | ⟨p, hp, h1, nm, h2, h3, h4⟩
  · cases h
  · exact ⟨p, hp, nm, h2, h1, h3, h4⟩

/-- C50: a property that is extraneous (and extraneous ones are not asked for) or has `json_name=None` is never
written: the output is the same whatever its slot holds. -/
theorem C50_invisible {c : String} {s s' : List (String × Val)}
    (hs : ∀ p ∈ (J.S.cls c).props, Selected e p → ¬ Named J c p none → alookup s p.name = alookup s' p.name)
    (hr : ∀ nm x, (J.info c nm).empty ≠ .raises x) :
    toJson J e (.rcd c s) = toJson J e (.rcd c s') := by
  have key : ∀ (ps : List IProp), (∀ p ∈ ps, p ∈ (J.S.cls c).props) → ∀ rv,
      writeProps J e c (outs J e s) ps rv = writeProps J e c (outs J e s') ps rv := by
    intro ps
    induction ps with
    | nil => intro _ rv; rfl
    | cons p ps ih =>
      intro hps rv
      have hp : writeProp J e c (outs J e s) rv p = writeProp J e c (outs J e s') rv p := by
        unfold writeProp
        split
        · rfl
        · next hsel =>
          have hsel : Selected e p := by
            simp only [Bool.and_eq_true, Bool.not_eq_true', not_and, Bool.not_eq_true] at hsel
            cases he : e with
            | true => exact .inr rfl
            | false => exact .inl (hsel he)
          have hno : ∀ t, slotRaises J c (outs J e t) p = none := by
            intro t
            unfold slotRaises
            split
            · next x _ hx => exact absurd hx (hr _ _)
            · rfl
          rw [hno, hno]
          cases hn : jsonName J c p with
          | none => rfl
          | some nm =>
            have : alookup s p.name = alookup s' p.name := by
              refine hs p (hps p List.mem_cons_self) hsel ?_
              rw [named_iff, hn]; simp
            simp only [slotOut, outs_lookup, this]
      simp only [writeProps, hp]
      cases writeProp J e c (outs J e s') rv p with
      | error x => rfl
      | ok rv' => exact ih (fun q hq => hps q (List.mem_cons_of_mem _ hq)) rv'
  simp only [toJson, recordOut, key _ (fun p hp => hp)]

/-! ### A class to try things on -/

/-- Only the classes matter. -/
def exSchema (cls : String → Ident.ICls) : Ident.Schema :=
  { cls := cls
    atomEq := fun a b => decide (a = b)
    atomHash := fun _ => some 0
    falsy := fun a => decide (a = .none ∨ a = .str "" ∨ a = .int 0 ∨ a = .bool false)
    tupleHash := fun _ => 0
    mixL := fun _ _ _ => .ok false
    mixD := fun _ _ _ => .ok false }

/-- A user: `name` is written as `userName`, `since` by a converter, `secret` never, `seen` only if extraneous
properties are asked for; `bad`'s converter raises `AttributeError`. -/
def exCls : String → Ident.ICls
  | "User" => { props := [⟨"unknown_json_keys", true, [], none⟩, ⟨"name", false, [], none⟩,
      ⟨"since", false, [], none⟩, ⟨"secret", false, [], none⟩, ⟨"seen", true, [], none⟩, ⟨"bad", false, [], none⟩,
      ⟨"friend", false, [.cls "User"], none⟩] }
  | _ => {}

def exInfo : String → String → JInfo
  | _, "unknown_json_keys" => { json := some { jsonName := some none } }
  | _, "name" => { json := some { jsonName := some (some "userName") } }
  | _, "since" => { json := some { jout := some (fun _ => .ok (.str "2015")) } }
  | _, "secret" => { json := some { jsonName := some none } }
  | _, "bad" => { json := some { jout := some (fun _ => .error .attributeError) } }
  | _, _ => {}

def exJ : Setup :=
  { S := exSchema exCls, info := exInfo, isJson := fun c => c == "User", isa := fun _ _ => false
    make := fun _ _ => .error .typeError, loads := fun _ => .error .valueCheck }

def exUser : Val := .rcd "User" [("name", .str "ann"), ("since", .atom (.opq 7)), ("secret", .str "x"),
  ("seen", .int (2 ^ 60)), ("bad", .int 1),
  ("friend", .rcd "User" [("name", .str "bob"), ("unknown_json_keys", .dict [(.str "age", .int 8)])])]

example : toJson exJ true exUser = .ok (.dict [(.str "userName", .str "ann"), (.str "since", .str "2015"),
    (.str "seen", .str "1152921504606846976"),
    (.str "friend", .dict [(.str "userName", .str "bob"), (.str "age", .int 8)])]) := by decide +kernel

example : toJson exJ false exUser = .ok (.dict [(.str "userName", .str "ann"), (.str "since", .str "2015"),
    (.str "friend", .dict [(.str "userName", .str "bob")])]) := by decide +kernel

/-- C50 is violated: `bad` is set and selected, but left out. -/
theorem C50_violated : ¬ C50_statement := by
  intro h
  have := (h exJ true "User" [("bad", .int 1)] [] (by decide +kernel) (.str "bad")).mpr
    ⟨⟨"bad", false, [], none⟩, by decide +kernel, "bad", rfl, .inl rfl,
      .default (o := { jout := some (fun _ => .error .attributeError) }) rfl rfl, by decide +kernel⟩
  cases this

/-! ## C52: only JSON comes out -/

theorem isJson_list {xs js : List Val} (ih : ∀ x ∈ xs, ∀ j, jsonData J e x = .ok j → IsJson J j)
    (h : mapE (jsonData J e) xs = .ok js) : IsJson J (.list js) := by
  refine .list (fun j hj => ?_)
  obtain ⟨x, hx, hxj⟩ := mapE_ok_right h j hj
  exact ih x hx j hxj

theorem isJson_dict {xs js : List (Comp × Val)} (ih : ∀ x ∈ xs, ∀ j, jsonData J e x.2 = .ok j → IsJson J j)
    (h : mapE (dataE J e) xs = .ok js) : IsJson J (.dict js) := by
  refine .dict (fun j hj => ?_)
  obtain ⟨x, hx, hxj⟩ := mapE_ok_right h j hj
  simp only [dataE] at hxj
  cases hd : jsonData J e x.2 with
  | error y => rw [hd] at hxj; cases hxj
  | ok y => rw [hd] at hxj; cases hxj; exact ih x hx y hd

theorem isJson_atom {a : Atom} {j : Val} (h : atomJson J a = .ok j) : IsJson J j := by
  cases a with
  | none => simp [atomJson] at h; subst h; exact .none
  | bool b => simp [atomJson] at h; subst h; exact .bool
  | str s => simp [atomJson] at h; subst h; exact .str
  | int i =>
    simp only [atomJson] at h
    split at h
    · simp at h; subst h; exact .str
    · next hi => simp at h; subst h; exact .int (by omega) (by omega)
  | opq t =>
    simp only [atomJson] at h
    split at h
    · next ht => simp at h; subst h; exact .number ht
    · cases h

theorem aset_mem {α β : Type} [DecidableEq α] {l : List (α × β)} {k : α} {v : β} {x : α × β}
    (h : x ∈ aset l k v) : x ∈ l ∨ x.2 = v := by
  induction l with
  | nil => simp [aset] at h; exact .inr (by rw [h])
  | cons y l ih =>
    obtain ⟨a, b⟩ := y
    simp only [aset] at h
    split at h
    · simp only [List.mem_cons] at h
      rcases h with h | h
      · exact .inr (by rw [h])
      · exact .inl (List.mem_cons_of_mem _ h)
    · simp only [List.mem_cons] at h
      rcases h with h | h
      · exact .inl (by rw [h]; exact List.mem_cons_self)
      · rcases ih h with h | h
        · exact .inl (List.mem_cons_of_mem _ h)
        · exact .inr h

theorem isJson_aset {d : List (Comp × Val)} {k : Comp} {j : Val} (hd : IsJson J (.dict d)) (hj : IsJson J j) :
    IsJson J (.dict (aset d k j)) := by
  refine .dict (fun x hx => ?_)
  rcases aset_mem hx with h | h
  · cases hd with | dict hd => exact hd x h
  · rw [h]; exact hj

theorem isJson_record (G : GoodConverters J) {c : String} {s : List (String × Val)} {d : List (Comp × Val)}
    (ih : ∀ x ∈ s, ∀ j, jsonData J e x.2 = .ok j → IsJson J j)
    (h : recordOut J e c (outs J e s) = .ok d) : IsJson J (.dict d) := by
  refine writeProps_ind (P := fun d => IsJson J (.dict d)) ?_ _ (fun p hp => hp) [] d (.dict (by simp)) h
  rintro rv p k j hrv _ ⟨_, nm, _, _, hc⟩
  refine isJson_aset hrv ?_
  generalize hr : Except.ok (ε := Exc) j = r at hc
  cases hc with
  | own _ h2 h3 => exact G.out _ _ _ _ _ _ h2 h3 hr.symm
  | auto h1 _ _ => exact ih _ (Mfs.alookup_mem h1) j hr.symm
  | plain h1 _ => exact ih _ (Mfs.alookup_mem h1) j hr.symm
  | computed h1 h2 => rw [← hr] at h2; exact G.empty _ _ _ h2

theorem isJson_merge : ∀ (us : List (Comp × Except Exc Val)) (jd d : List (Comp × Val)),
    (∀ x ∈ us, ∀ j, x.2 = .ok j → IsJson J j) → IsJson J (.dict jd) → mergeUnknown us jd = .ok d →
    IsJson J (.dict d) := by
  intro us
  induction us with
  | nil => intro jd d _ hj h; simp [mergeUnknown] at h; subst h; exact hj
  | cons x us ih =>
    obtain ⟨k, r⟩ := x
    intro jd d hu hj h
    have hu' := fun y hy => hu y (List.mem_cons_of_mem _ hy)
    simp only [mergeUnknown] at h
    split at h
    · exact ih jd d hu' hj h
    · cases r with
      | error x => cases h
      | ok j => exact ih _ d hu' (isJson_aset hj (hu (k, .ok j) List.mem_cons_self j rfl)) h

theorem toJson_dict {c : String} {s : List (String × Val)} {j : Val} (h : toJson J e (.rcd c s) = .ok j) :
    ∃ d, j = .dict d ∧ recordOut J e c (outs J e s) = .ok d := by
  simp only [toJson] at h
  cases hr : recordOut J e c (outs J e s) with
  | error x => rw [hr] at h; cases h
  | ok d' => rw [hr] at h; simp [Except.map] at h; exact ⟨d', h.symm, rfl⟩

theorem map_ok {α β : Type} {r : Except Exc α} {f : α → β} {b : β} (h : r.map f = .ok b) :
    ∃ a, r = .ok a ∧ b = f a := by
  cases r with
  | error x => cases h
  | ok a => simp [Except.map] at h; exact ⟨a, rfl, h.symm⟩

theorem isJson_both (G : GoodConverters J) : ∀ v, (∀ j, toJson J e v = .ok j → IsJson J j) ∧
    (∀ j, jsonData J e v = .ok j → IsJson J j) ∧
    (∀ us, entriesOf J e v = .ok us → ∀ x ∈ us, ∀ j, x.2 = .ok j → IsJson J j) := by
  refine Val.ind ?_ ?_ ?_ ?_ ?_ ?_
  · intro a
    refine ⟨fun j h => isJson_atom (by simpa [toJson] using h),
      fun j h => isJson_atom (by simpa [jsonData] using h), fun us h => ?_⟩
    simp [entriesOf] at h
  · intro xs ih
    refine ⟨fun j h => ?_, fun j h => ?_, fun us h => ?_⟩
    · simp only [toJson] at h
      obtain ⟨a, ha, rfl⟩ := map_ok h
      exact isJson_list (fun x hx => (ih x hx).2.1) (by rw [← dataL_eq]; exact ha)
    · simp only [jsonData] at h
      obtain ⟨a, ha, rfl⟩ := map_ok h
      exact isJson_list (fun x hx => (ih x hx).2.1) (by rw [← dataL_eq]; exact ha)
    · simp [entriesOf] at h
  · intro xs ih
    refine ⟨fun j h => ?_, fun j h => ?_, fun us h => ?_⟩
    · simp only [toJson] at h
      obtain ⟨a, ha, rfl⟩ := map_ok h
      exact isJson_dict (fun x hx => (ih x hx).2.1) (by rw [← dataC_eq]; exact ha)
    · simp only [jsonData] at h
      obtain ⟨a, ha, rfl⟩ := map_ok h
      exact isJson_dict (fun x hx => (ih x hx).2.1) (by rw [← dataC_eq]; exact ha)
    · simp [entriesOf, eachEntry_eq] at h
      subst h
      intro x hx j hj
      rw [List.mem_map] at hx
      obtain ⟨y, hy, rfl⟩ := hx
      exact (ih y hy).1 j hj
  · intro c s ih
    have hrec : ∀ d, recordOut J e c (outs J e s) = .ok d → IsJson J (.dict d) :=
      fun d hd => isJson_record G (fun x hx => (ih x hx).2.1) hd
    refine ⟨fun j h => ?_, fun j h => ?_, fun us h => ?_⟩
    · obtain ⟨d, rfl, hd⟩ := toJson_dict h
      exact hrec d hd
    · simp only [jsonData] at h
      obtain ⟨d, hd, rfl⟩ := map_ok h
      unfold dataOut at hd
      split at hd
      · cases hd
      · next jd hjd =>
        split at hd
        · unfold addUnknown at hd
          split at hd
          · simp at hd; subst hd; exact hrec jd hjd
          · next o ho =>
            split at hd
            · split at hd
              · cases hd
              · next us hus =>
                rw [outs_lookup] at ho
                cases hs : alookup s unknownKeys with
                | none => rw [hs] at ho; cases ho
                | some u =>
                  rw [hs] at ho
                  simp [outOf] at ho
                  subst ho
                  exact isJson_merge us jd d ((ih _ (Mfs.alookup_mem hs)).2.2 us hus) (hrec jd hjd) hd
            · simp at hd; subst hd; exact hrec jd hjd
        · simp at hd; subst hd; exact hrec jd hjd
    · simp [entriesOf] at h
  · intro c xs ih
    refine ⟨fun j h => ?_, fun j h => ?_, fun us h => ?_⟩
    · simp only [toJson] at h
      obtain ⟨a, ha, rfl⟩ := map_ok h
      exact isJson_list (fun x hx => (ih x hx).2.1) (by rw [← dataL_eq]; exact ha)
    · simp only [jsonData] at h
      obtain ⟨a, ha, rfl⟩ := map_ok h
      exact isJson_list (fun x hx => (ih x hx).2.1) (by rw [← dataL_eq]; exact ha)
    · simp [entriesOf] at h
  · intro c xs ih
    refine ⟨fun j h => ?_, fun j h => ?_, fun us h => ?_⟩
    · simp only [toJson] at h
      obtain ⟨a, ha, rfl⟩ := map_ok h
      exact isJson_dict (fun x hx => (ih x hx).2.1) (by rw [← dataC_eq]; exact ha)
    · simp only [jsonData] at h
      obtain ⟨a, ha, rfl⟩ := map_ok h
      exact isJson_dict (fun x hx => (ih x hx).2.1) (by rw [← dataC_eq]; exact ha)
    · simp [entriesOf, eachEntry_eq] at h
      subst h
      intro x hx j hj
      rw [List.mem_map] at hx
      obtain ⟨y, hy, rfl⟩ := hx
      exact (ih y hy).1 j hj

/-- C52: what `to_json` and `json_data` return is made of JSON types only, and its integers are within ±2**50. -/
theorem C52_is_json (G : GoodConverters J) (v j : Val) (h : toJson J e v = .ok j ∨ jsonData J e v = .ok j) :
    IsJson J j := by
  rcases h with h | h
  · exact (isJson_both G v).1 j h
  · exact (isJson_both G v).2.1 j h

theorem readInt_toString (i : Int) : readInt (toString i).toList = i := by
  cases i with
  | ofNat n =>
    have : (toString (Int.ofNat n)).toList = Nat.toDigits 10 n := Nat.toList_repr
    rw [this]
    have hd : ∀ ds, Nat.toDigits 10 n ≠ '-' :: ds := by
      intro ds hds
      have : Char.isDigit '-' = true :=
        Nat.isDigit_of_mem_toDigits (b := 10) (n := n) (by decide) (by decide) (by rw [hds]; exact List.mem_cons_self)
      exact absurd this (by decide)
    have : readInt (Nat.toDigits 10 n) = (Nat.ofDigitChars 10 (Nat.toDigits 10 n) 0 : Nat) := by
      unfold readInt
      split
      · next ds hds => exact absurd hds (hd ds)
      · rfl
    rw [this, Nat.ofDigitChars_toDigits (by decide) (by decide)]
    rfl
  | negSucc n =>
    have : (toString (Int.negSucc n)).toList = '-' :: Nat.toDigits 10 (n + 1) := by
      show ("-" ++ Nat.repr (n + 1)).toList = _
      rw [String.toList_append, Nat.toList_repr]
      rfl
    rw [this]
    show -((Nat.ofDigitChars 10 (Nat.toDigits 10 (n + 1)) 0 : Nat) : Int) = _
    rw [Nat.ofDigitChars_toDigits (by decide) (by decide)]
    rfl

/-- C52: an integer within ±2**50 is written as it is, a larger one as a decimal numeral of the same number. -/
theorem C52_int (i : Int) :
    (-(2 ^ 50) ≤ i ∧ i ≤ 2 ^ 50 → toJson J e (.int i) = .ok (.int i)) ∧
    (¬ (-(2 ^ 50) ≤ i ∧ i ≤ 2 ^ 50) → ∃ s : String, toJson J e (.int i) = .ok (.str s) ∧ readInt s.toList = i) := by
  constructor
  · intro h
    have : ¬ 2 ^ 50 < i.natAbs := by omega
    simp [Val.int, toJson, atomJson, this]
  · intro h
    have : 2 ^ 50 < i.natAbs := by omega
    exact ⟨toString i, by simp [Val.int, toJson, atomJson, this], readInt_toString i⟩

/-! ### Nothing is refused -/

theorem mapE_total {α β : Type} {f : α → Except Exc β} {xs : List α} (h : ∀ x ∈ xs, ∃ b, f x = .ok b) :
    ∃ bs, mapE f xs = .ok bs := by
  induction xs with
  | nil => exact ⟨[], rfl⟩
  | cons x xs ih =>
    obtain ⟨b, hb⟩ := h x List.mem_cons_self
    obtain ⟨bs, hbs⟩ := ih (fun y hy => h y (List.mem_cons_of_mem _ hy))
    exact ⟨b :: bs, by simp [mapE, hb, hbs]⟩

theorem writeProps_total (F : SafeConverters J) {c : String} {s : List (String × Val)}
    (ih : ∀ x ∈ s, ∃ j, jsonData J e x.2 = .ok j) : ∀ (ps : List IProp) rv,
    ∃ d, writeProps J e c (outs J e s) ps rv = .ok d := by
  intro ps
  induction ps with
  | nil => intro rv; exact ⟨rv, rfl⟩
  | cons p ps ihp =>
    intro rv
    have : ∃ rv', writeProp J e c (outs J e s) rv p = .ok rv' := by
      unfold writeProp
      split
      · exact ⟨_, rfl⟩
      · have hno : slotRaises J c (outs J e s) p = none := by
          unfold slotRaises
          split
          · next x _ hx => exact absurd hx (F.slot _ _ _)
          · rfl
        rw [hno]
        cases hn : jsonName J c p with
        | none => exact ⟨_, rfl⟩
        | some nm =>
          simp only []
          cases ho : slotOut J c (outs J e s) p with
          | none => exact ⟨_, rfl⟩
          | some r =>
            cases r with
            | ok j => exact ⟨_, rfl⟩
            | error x =>
              have hx : x.isAttribute = true := by
                have := converts_of hno ho
                generalize hr : Except.error (α := Val) x = r at this
                cases this with
                | own _ h2 h3 => exact F.out _ _ _ _ _ _ h2 h3 hr.symm
                | auto h1 _ _ => obtain ⟨j, hj⟩ := ih _ (Mfs.alookup_mem h1); simp [hj] at hr
                | plain h1 _ => obtain ⟨j, hj⟩ := ih _ (Mfs.alookup_mem h1); simp [hj] at hr
                | computed h1 h2 => rw [← hr] at h2; exact F.empty _ _ _ h2
              exact ⟨rv, by simp [writeKey, hx]⟩
    obtain ⟨rv', hrv'⟩ := this
    obtain ⟨d, hd⟩ := ihp rv'
    exact ⟨d, by simp [writeProps, hrv', hd]⟩

theorem merge_total : ∀ (us : List (Comp × Except Exc Val)) (jd : List (Comp × Val)),
    (∀ x ∈ us, ∃ j, x.2 = .ok j) → ∃ d, mergeUnknown us jd = .ok d := by
  intro us
  induction us with
  | nil => intro jd _; exact ⟨jd, rfl⟩
  | cons x us ih =>
    obtain ⟨k, r⟩ := x
    intro jd h
    obtain ⟨j, hj⟩ := h (k, r) List.mem_cons_self
    simp only at hj
    subst hj
    have h' := fun y hy => h y (List.mem_cons_of_mem _ hy)
    simp only [mergeUnknown]
    split
    · exact ih jd h'
    · exact ih _ h'

theorem total_both (F : SafeConverters J) : ∀ v, Writable J v →
    (∃ j, toJson J e v = .ok j) ∧ (∃ j, jsonData J e v = .ok j) ∧
    (∀ us, entriesOf J e v = .ok us → ∀ x ∈ us, ∃ j, x.2 = .ok j) := by
  refine Val.ind ?_ ?_ ?_ ?_ ?_ ?_
  · intro a hw
    have : ∃ j, atomJson J a = .ok j := by
      cases a with
      | none => exact ⟨_, rfl⟩
      | bool b => exact ⟨_, rfl⟩
      | str s => exact ⟨_, rfl⟩
      | int i => simp only [atomJson]; split <;> exact ⟨_, rfl⟩
      | opq t => exact ⟨.atom (.opq t), by simp only [atomJson, hw.atom t (.self _), if_true]⟩
    exact ⟨by simpa [toJson] using this, by simpa [jsonData] using this, fun us h => by simp [entriesOf] at h⟩
  · intro xs ih hw
    have hp : ∀ x ∈ xs, Writable J x := fun x hx =>
      ⟨fun t ht => hw.atom t (.list hx ht), fun c s u hs => hw.unknown c s u (.list hx hs)⟩
    obtain ⟨js, hjs⟩ := mapE_total (f := jsonData J e) (xs := xs) (fun x hx => (ih x hx (hp x hx)).2.1)
    exact ⟨⟨.list js, by simp [toJson, dataL_eq, hjs, Except.map]⟩,
      ⟨.list js, by simp [jsonData, dataL_eq, hjs, Except.map]⟩, fun us h => by simp [entriesOf] at h⟩
  · intro xs ih hw
    have hp : ∀ x ∈ xs, Writable J x.2 := fun x hx =>
      ⟨fun t ht => hw.atom t (.dict (k := x.1) hx ht), fun c s u hs => hw.unknown c s u (.dict (k := x.1) hx hs)⟩
    obtain ⟨js, hjs⟩ := mapE_total (f := dataE J e) (xs := xs) (fun x hx => by
      obtain ⟨j, hj⟩ := (ih x hx (hp x hx)).2.1
      exact ⟨(x.1, j), by simp [dataE, hj]⟩)
    refine ⟨⟨.dict js, by simp [toJson, dataC_eq, hjs, Except.map]⟩,
      ⟨.dict js, by simp [jsonData, dataC_eq, hjs, Except.map]⟩, fun us h => ?_⟩
    simp [entriesOf, eachEntry_eq] at h
    subst h
    intro x hx
    rw [List.mem_map] at hx
    obtain ⟨y, hy, rfl⟩ := hx
    exact (ih y hy (hp y hy)).1
  · intro c s ih hw
    have hp : ∀ x ∈ s, Writable J x.2 := fun x hx =>
      ⟨fun t ht => hw.atom t (.rcd (k := x.1) hx ht), fun c s u hs => hw.unknown c s u (.rcd (k := x.1) hx hs)⟩
    obtain ⟨d, hd⟩ := writeProps_total F (e := e) (c := c) (s := s) (fun x hx => (ih x hx (hp x hx)).2.1)
      (J.S.cls c).props []
    have hd' : recordOut J e c (outs J e s) = .ok d := hd
    refine ⟨⟨.dict d, by simp [toJson, hd', Except.map]⟩, ?_, fun us h => by simp [entriesOf] at h⟩
    have : ∃ d', dataOut J e c (outs J e s) = .ok d' := by
      unfold dataOut
      rw [hd']
      simp only []
      split
      · unfold addUnknown
        rw [outs_lookup]
        cases hs : alookup s unknownKeys with
        | none => exact ⟨_, rfl⟩
        | some u =>
          simp only [Option.map, outOf]
          split
          · have hent : ∃ us, entriesOf J e u = .ok us := by
              obtain ⟨xs, rfl | ⟨_, rfl⟩⟩ := hw.unknown c s u (.self _) hs
              · exact ⟨_, rfl⟩
              · exact ⟨_, rfl⟩
            obtain ⟨us, hus⟩ := hent
            rw [hus]
            exact merge_total us d ((ih _ (Mfs.alookup_mem hs) (hp _ (Mfs.alookup_mem hs))).2.2 us hus)
          · exact ⟨_, rfl⟩
      · exact ⟨_, rfl⟩
    obtain ⟨d', hd''⟩ := this
    exact ⟨.dict d', by simp [jsonData, hd'', Except.map]⟩
  · intro c xs ih hw
    have hp : ∀ x ∈ xs, Writable J x := fun x hx =>
      ⟨fun t ht => hw.atom t (.lcoll hx ht), fun c s u hs => hw.unknown c s u (.lcoll hx hs)⟩
    obtain ⟨js, hjs⟩ := mapE_total (f := jsonData J e) (xs := xs) (fun x hx => (ih x hx (hp x hx)).2.1)
    exact ⟨⟨.list js, by simp [toJson, dataL_eq, hjs, Except.map]⟩,
      ⟨.list js, by simp [jsonData, dataL_eq, hjs, Except.map]⟩, fun us h => by simp [entriesOf] at h⟩
  · intro c xs ih hw
    have hp : ∀ x ∈ xs, Writable J x.2 := fun x hx =>
      ⟨fun t ht => hw.atom t (.dcoll (k := x.1) hx ht), fun c s u hs => hw.unknown c s u (.dcoll (k := x.1) hx hs)⟩
    obtain ⟨js, hjs⟩ := mapE_total (f := dataE J e) (xs := xs) (fun x hx => by
      obtain ⟨j, hj⟩ := (ih x hx (hp x hx)).2.1
      exact ⟨(x.1, j), by simp [dataE, hj]⟩)
    refine ⟨⟨.dict js, by simp [toJson, dataC_eq, hjs, Except.map]⟩,
      ⟨.dict js, by simp [jsonData, dataC_eq, hjs, Except.map]⟩, fun us h => ?_⟩
    simp [entriesOf, eachEntry_eq] at h
    subst h
    intro x hx
    rw [List.mem_map] at hx
    obtain ⟨y, hy, rfl⟩ := hx
    exact (ih y hy (hp y hy)).1

/-- C52: every tree of records, collections, lists, dicts and known scalars is converted: `to_json` raises nothing,
if the classes' own conversions do not. -/
theorem C52_total (F : SafeConverters J) (v : Val) (h : Writable J v) :
    (∃ j, toJson J e v = .ok j) ∧ ∃ j, jsonData J e v = .ok j :=
  ⟨(total_both F v h).1, (total_both F v h).2.1⟩

-- a record with converters, a nested record with unknown keys and a large integer meets the conditions
example : GoodConverters exJ ∧ SafeConverters exJ := by
  refine ⟨⟨?_, ?_⟩, ?_, ?_, ?_⟩
  · intro c nm o f v j h1 h2 h3
    simp only [exJ] at h1
    unfold exInfo at h1
    split at h1 <;> simp at h1 <;> subst h1 <;> simp at h2 <;> subst h2 <;> simp at h3
    subst h3; exact .str
  · intro c nm j h
    simp only [exJ] at h
    unfold exInfo at h
    split at h <;> simp at h
  · intro c nm o f v j h1 h2 h3
    simp only [exJ] at h1
    unfold exInfo at h1
    split at h1 <;> simp at h1 <;> subst h1 <;> simp at h2 <;> subst h2 <;> simp at h3
    subst h3; rfl
  · intro c nm j h
    simp only [exJ] at h
    unfold exInfo at h
    split at h <;> simp at h
  · intro c nm j h
    simp only [exJ] at h
    unfold exInfo at h
    split at h <;> simp at h

theorem exWritable : Writable exJ (.rcd "User" [("name", .str "bob"), ("friend", .lcoll "L" [.int (2 ^ 60)]),
    ("unknown_json_keys", .dict [(.str "age", .int 8)])]) := by
  constructor
  · intro t h
    cases h with
    | rcd hx h =>
      simp at hx
      rcases hx with ⟨_, rfl⟩ | ⟨_, rfl⟩ | ⟨_, rfl⟩
      · cases h
      · cases h with
        | lcoll hx h => simp at hx; subst hx; cases h
      · cases h with
        | dict hx h => simp at hx; obtain ⟨_, rfl⟩ := hx; cases h
  · intro c s u h hu
    cases h with
    | self => exact ⟨[(.str "age", .int 8)], .inl (by simpa [alookup] using hu.symm)⟩
    | rcd hx h =>
      simp at hx
      rcases hx with ⟨_, rfl⟩ | ⟨_, rfl⟩ | ⟨_, rfl⟩
      · cases h
      · cases h with
        | lcoll hx h => simp at hx; subst hx; cases h
      · cases h with
        | dict hx h => simp at hx; obtain ⟨_, rfl⟩ := hx; cases h

end Normalize.Json
