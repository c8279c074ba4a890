import Verif.Lemmas.JsonIn
import Verif.Spec.JsonIn
import Verif.Props.JsonOut

/-!
# C49, C50: unknown keys and hidden properties on input
-/

namespace Normalize.Json
open Ident (IProp Sub)
open Spec (Claimed KeepsUnknown IsJson Named)

variable {J : Setup} {c : String} {js : List (Comp × Val)} {n : Nat}

theorem claimed_iff {k : Comp} : Claimed J c k ↔ ∃ p ∈ (J.S.cls c).props, ∃ nm, jsonName J c p = some nm ∧ k = .str nm := by
  simp only [Claimed, named_iff]

theorem withUnknown_nodup {w : Kw} (h : (w.args.map (·.1)).Nodup) : ((withUnknown js w).map (·.1)).Nodup := by
  unfold withUnknown
  split
  · exact h
  · generalize Val.dict _ = v
    generalize hl : w.args = l at h
    clear hl
    induction l with
    | nil => simp [aset]
    | cons x l ih =>
      obtain ⟨a, b⟩ := x
      simp only [List.map_cons, List.nodup_cons] at h
      simp only [aset]
      split
      · next he => subst he; simp [h]
      · next he =>
        simp only [List.map_cons, List.nodup_cons]
        refine ⟨?_, ih h.2⟩
        rw [← alookup_none_iff] at h ⊢
        rw [alookup_aset, h.1]
        have : ¬ unknownKeys = a := fun h => he h.symm
        simp [this]

/-- Reading a JSON object into a record. -/
theorem initKwargs_ok {mk : Mk} {kw : List (String × Val)} (h : initKwargs J mk c (.dict js) [] = .ok kw)
    (hn : (js.map (·.1)).Nodup) :
    ∃ w, kwProps J mk c js (J.S.cls c).props ⟨[], js.map (·.1)⟩ = .ok w ∧ kw = withUnknown js w ∧
      (kw.map (·.1)).Nodup ∧ ∀ k, k ∈ w.unknown ↔ (alookup js k).isSome = true ∧ ¬ Claimed J c k := by
  unfold initKwargs at h
  simp only [structOf] at h
  split at h
  · cases h
  · next w hw =>
    simp at h
    refine ⟨w, hw, h.symm, ?_, fun k => ?_⟩
    · rw [← h]; exact withUnknown_nodup (kwProps_nodup _ _ _ hw (by simp))
    · rw [(kwProps_unknown _ _ _ hw hn (fun k hk => alookup_isSome_iff.mpr hk)).2 k, claimed_iff, alookup_isSome_iff]

theorem withUnknown_lookup {w : Kw} :
    alookup (withUnknown js w) unknownKeys =
      if w.unknown = [] then alookup w.args unknownKeys
      else some (.dict (js.filter (fun e => decide (e.1 ∈ w.unknown)))) := by
  unfold withUnknown
  cases hu : w.unknown with
  | nil => simp
  | cons k us => simp [alookup_aset]

theorem withUnknown_other {w : Kw} {nm : String} (h : nm ≠ unknownKeys) :
    alookup (withUnknown js w) nm = alookup w.args nm := by
  unfold withUnknown
  split
  · rfl
  · rw [alookup_aset, if_neg (fun h' => h h'.symm)]

/-- The hidden property for unknown keys gets no argument from the loop. -/
theorem hidden_arg {mk : Mk} {w : Kw} (hnd : ((J.S.cls c).props.map (·.name)).Nodup)
    (hw : kwProps J mk c js (J.S.cls c).props ⟨[], js.map (·.1)⟩ = .ok w) {nm : String}
    (h : ∀ p ∈ (J.S.cls c).props, p.name = nm → Named J c p none) : alookup w.args nm = none := by
  by_cases hex : ∃ p ∈ (J.S.cls c).props, p.name = nm
  · obtain ⟨p, hp, rfl⟩ := hex
    rcases kwProps_args _ _ _ hw hnd p hp rfl with ⟨_, h2⟩ | ⟨k, _, _, hk, _⟩
    · exact h2
    · have := h p hp rfl
      rw [named_iff, hk] at this
      cases this
  · rw [kwProps_other _ _ _ hw nm (fun p hp he => hex ⟨p, hp, he⟩)]
    rfl

theorem decode_dict : decode J (.dict js) = .ok (.dict js) := rfl

theorem fromJson_json (hc : J.isJson c = true) (hk : (J.S.cls c).coll = none) {v : Val}
    (h : fromJson J n c (.dict js) = .ok v) : ∃ m kw, initKwargs J (make J m) c (.dict js) [] = .ok kw ∧
      initRecord J (make J m) c kw = .ok v := by
  simp only [fromJson, fromJsonWith, decode_dict, hc, if_true] at h
  cases n with
  | zero => cases h
  | succ m =>
    simp only [make, construct, hk, hc, if_true, mkJson, decode_dict] at h
    split at h
    · cases h
    · next kw hkw => exact ⟨m, kw, hkw, h⟩

/-- C49: a `JsonRecord` read from a JSON object keeps exactly the entries whose key no property claims. -/
theorem C49_kept (hc : J.isJson c = true) (hk : (J.S.cls c).coll = none) (hu : KeepsUnknown J c)
    (hn : (js.map (·.1)).Nodup) {s : List (String × Val)} (h : fromJson J n c (.dict js) = .ok (.rcd c s)) :
    (∀ k v, alookup js k = some v → ¬ Claimed J c k →
      ∃ us, alookup s "unknown_json_keys" = some (.dict us) ∧ alookup us k = some v) ∧
    (∀ u, alookup s "unknown_json_keys" = some u → ∃ us, u = .dict us ∧ (us.map (·.1)).Nodup ∧
      ∀ k v, alookup us k = some v → alookup js k = some v ∧ ¬ Claimed J c k) := by
  obtain ⟨m, kw, h1, h2⟩ := fromJson_json hc hk h
  obtain ⟨w, hw, rfl, hnd, hun⟩ := initKwargs_ok h1 hn
  have hslots := initRecord_slots h2 hnd unknownKeys
  have hno : alookup w.args unknownKeys = none := hidden_arg hu.only hw hu.hidden
  rw [withUnknown_lookup] at hslots
  cases hus : w.unknown with
  | nil =>
    have hnone : alookup s unknownKeys = none := by
      refine hslots.2 (by simp [hus, hno]) (fun p _ hp => ?_)
      have h1 := hu.required
      have h2 := hu.default
      simp only [eager, hp, unknownKeys, h1, h2]
      simp
    constructor
    · intro k v hkv hcl
      have : k ∈ w.unknown := (hun k).mpr ⟨by rw [hkv]; rfl, hcl⟩
      rw [hus] at this
      simp at this
    · intro u hu'
      rw [show alookup s "unknown_json_keys" = alookup s unknownKeys from rfl, hnone] at hu'
      cases hu'
  | cons a as =>
    have hne : w.unknown ≠ [] := by simp [hus]
    obtain ⟨p, r, hp, hr, hl⟩ := hslots.1 (.dict (js.filter (fun e => decide (e.1 ∈ w.unknown)))) (by simp [hne])
    obtain ⟨hpm, hpn⟩ := findProp_name hp
    obtain ⟨q, hq, hqn, _, hqt⟩ := hu.has
    have hpq : p = q := by
      have := findProp_of_mem hu.only hq
      rw [hqn] at this
      have h' : findProp J c unknownKeys = some q := this
      rw [hp] at h'
      exact Option.some.inj h'
    subst hpq
    have hval : r = some (.dict (js.filter (fun e => decide (e.1 ∈ w.unknown)))) := by
      have hc' := hu.check
      have hn' := hu.required
      rw [show (J.info c p.name) = J.info c "unknown_json_keys" by rw [hqn]] at hr
      simp [typeSafe, hqt, hn', runCheck, hc'] at hr
      exact hr.symm
    rw [hval] at hl
    have hlook : ∀ k, alookup (js.filter (fun e => decide (e.1 ∈ w.unknown))) k =
        if decide (k ∈ w.unknown) then alookup js k else none := fun k =>
      alookup_filter js (fun a => decide (a ∈ w.unknown)) k
    constructor
    · intro k v hkv hcl
      refine ⟨_, hl, ?_⟩
      have : k ∈ w.unknown := (hun k).mpr ⟨by rw [hkv]; rfl, hcl⟩
      rw [hlook]
      simp [this, hkv]
    · intro u hu'
      rw [show alookup s "unknown_json_keys" = alookup s unknownKeys from rfl, hl] at hu'
      cases hu'
      refine ⟨_, rfl, ?_, ?_⟩
      · exact List.Nodup.sublist (List.Sublist.map _ List.filter_sublist) hn
      · intro k v hkv
        rw [hlook] at hkv
        by_cases hm : k ∈ w.unknown
        · simp [hm] at hkv
          exact ⟨hkv, ((hun k).mp hm).2⟩
        · simp [hm] at hkv

/-! ## Writing them back -/

theorem mergeUnknown_lookup : ∀ (us : List (Comp × Except Exc Val)) (jd d : List (Comp × Val)),
    mergeUnknown us jd = .ok d → (us.map (·.1)).Nodup → ∀ k,
    alookup d k = match alookup jd k with
      | some j => some j
      | none => match alookup us k with
        | some (.ok j) => some j
        | _ => none := by
  intro us
  induction us with
  | nil =>
    intro jd d h _ k
    simp [mergeUnknown] at h; subst h
    cases alookup jd k <;> simp [alookup]
  | cons x us ih =>
    obtain ⟨k0, r⟩ := x
    intro jd d h hn k
    simp only [List.map_cons, List.nodup_cons] at hn
    simp only [mergeUnknown] at h
    split at h
    · next hs =>
      rw [ih _ _ h hn.2 k]
      by_cases hk : k0 = k
      · subst hk
        cases hj : alookup jd k0 with
        | none => rw [hj] at hs; cases hs
        | some j => rfl
      · simp [alookup, hk]
    · next hs =>
      have hs : alookup jd k0 = none := by simpa using hs
      cases r with
      | error x => cases h
      | ok j =>
        simp only at h
        rw [ih _ _ h hn.2 k, alookup_aset]
        by_cases hk : k0 = k
        · subst hk
          simp [hs, alookup]
        · simp [alookup, hk]

theorem written_claimed {e : Bool} {s : List (String × Val)} {d : List (Comp × Val)}
    (h : recordOut J e c (outs J e s) = .ok d) {k : Comp} (hk : (alookup d k).isSome = true) : Claimed J c k := by
  rcases (writeProps_lookup _ _ _ h).1.mp hk with h | ⟨p, hp, j, _, nm, rfl, hnm, _⟩
  · cases h
  · exact ⟨p, hp, nm, hnm, rfl⟩

/-- `json_data(extraneous=True)` of a `JsonRecord` with unknown keys. -/
theorem jsonData_unknown (hc : J.isJson c = true) {s : List (String × Val)} {us d : List (Comp × Val)}
    (hs : alookup s unknownKeys = some (.dict us)) (hn : (us.map (·.1)).Nodup)
    (h : jsonData J true (.rcd c s) = .ok (.dict d)) {k : Comp} {v : Val} (hk : alookup us k = some v)
    (hcl : ¬ Claimed J c k) : ∃ j, toJson J true v = .ok j ∧ alookup d k = some j := by
  simp only [jsonData] at h
  obtain ⟨d', hd, he⟩ := map_ok h
  simp at he; subst he
  unfold dataOut at hd
  split at hd
  · cases hd
  · next jd hjd =>
    have hno : alookup jd k = none := by
      cases hj : alookup jd k with
      | none => rfl
      | some j => exact absurd (written_claimed hjd (by rw [hj]; rfl)) hcl
    simp only [hc, if_true, addUnknown, outs_lookup, hs, Option.map, outOf, Bool.true_or, entriesOf] at hd
    have hl := mergeUnknown_lookup _ _ _ hd (by simpa [eachEntry_eq, List.map_map, Function.comp_def] using hn) k
    rw [hno] at hl
    simp only [eachEntry_eq] at hl
    rw [Ident.alookup_map (fun x => toJson J true x), hk] at hl
    cases ht : toJson J true v with
    | ok j => simp only [Option.map, ht] at hl; exact ⟨j, rfl, hl⟩
    | error x =>
      exfalso
      clear hl
      have : ∀ (vs : List (Comp × Val)) (jd d : List (Comp × Val)), alookup vs k = some v → alookup jd k = none →
          mergeUnknown (eachEntry J true vs) jd = .ok d → False := by
        intro vs
        induction vs with
        | nil => intro jd d h; cases h
        | cons y vs ih =>
          obtain ⟨k0, v0⟩ := y
          intro jd d h1 h2 h3
          simp only [eachEntry, mergeUnknown] at h3
          simp only [alookup] at h1
          by_cases hk0 : k0 = k
          · subst hk0
            simp at h1; subst h1
            simp [h2, ht] at h3
          · simp only [hk0, if_false] at h1
            split at h3
            · exact ih _ _ h1 h2 h3
            · cases ht0 : toJson J true v0 with
              | error x => rw [ht0] at h3; cases h3
              | ok j0 =>
                rw [ht0] at h3
                refine ih _ _ h1 ?_ h3
                rw [alookup_aset, if_neg hk0]
                exact h2
      exact this us jd d hk hno hd

/-- JSON with integers within ±2**50 is written as it is. -/
theorem isJson_fixed {e : Bool} {v : Val} (h : IsJson J v) : toJson J e v = .ok v ∧ jsonData J e v = .ok v := by
  induction h with
  | none => exact ⟨rfl, rfl⟩
  | bool => exact ⟨rfl, rfl⟩
  | str => exact ⟨rfl, rfl⟩
  | @int i h1 h2 =>
    have : ¬ 2 ^ 50 < i.natAbs := by omega
    constructor
    · simp [Val.int, toJson, atomJson, this]
    · simp [Val.int, jsonData, atomJson, this]
  | number h => simp [toJson, jsonData, atomJson, h]
  | @list xs _ ih =>
    have : mapE (jsonData J e) xs = .ok xs := by
      clear * - ih
      induction xs with
      | nil => rfl
      | cons x xs ihx =>
        simp [mapE, (ih x List.mem_cons_self).2, ihx (fun y hy => ih y (List.mem_cons_of_mem _ hy))]
    exact ⟨by simp [toJson, dataL_eq, this, Except.map], by simp [jsonData, dataL_eq, this, Except.map]⟩
  | @dict xs _ ih =>
    have : mapE (dataE J e) xs = .ok xs := by
      clear * - ih
      induction xs with
      | nil => rfl
      | cons x xs ihx =>
        simp [mapE, dataE, (ih x List.mem_cons_self).2, ihx (fun y hy => ih y (List.mem_cons_of_mem _ hy))]
    exact ⟨by simp [toJson, dataC_eq, this, Except.map], by simp [jsonData, dataC_eq, this, Except.map]⟩

/-- C49 as stated: unknown keys are written back unchanged. -/
def C49_statement : Prop :=
  ∀ (J : Setup) (n : Nat) (c : String) (js : List (Comp × Val)) (s : List (String × Val)) (d : List (Comp × Val)),
    J.isJson c = true → (J.S.cls c).coll = none → KeepsUnknown J c → (js.map (·.1)).Nodup →
    fromJson J n c (.dict js) = .ok (.rcd c s) → jsonData J true (.rcd c s) = .ok (.dict d) →
    ∀ k v, alookup js k = some v → ¬ Claimed J c k → alookup d k = some v

/-- C49: an unknown key is written back as `to_json` writes its value. -/
theorem C49_written (hc : J.isJson c = true) (hk : (J.S.cls c).coll = none) (hu : KeepsUnknown J c)
    (hn : (js.map (·.1)).Nodup) {s : List (String × Val)} {d : List (Comp × Val)}
    (h : fromJson J n c (.dict js) = .ok (.rcd c s)) (hd : jsonData J true (.rcd c s) = .ok (.dict d))
    {k : Comp} {v : Val} (hv : alookup js k = some v) (hcl : ¬ Claimed J c k) :
    ∃ j, toJson J true v = .ok j ∧ alookup d k = some j := by
  obtain ⟨h1, h2⟩ := C49_kept hc hk hu hn h
  obtain ⟨us, hs, hl⟩ := h1 k v hv hcl
  obtain ⟨us', he, hnd, _⟩ := h2 _ hs
  cases he
  exact jsonData_unknown hc hs hnd hd hl hcl

/-- C49, corrected: an unknown key is written back unchanged if the integers in its value are within ±2**50.  What
is missing from the full statement: larger integers come back as strings. -/
theorem C49_partial (hc : J.isJson c = true) (hk : (J.S.cls c).coll = none) (hu : KeepsUnknown J c)
    (hn : (js.map (·.1)).Nodup) {s : List (String × Val)} {d : List (Comp × Val)}
    (h : fromJson J n c (.dict js) = .ok (.rcd c s)) (hd : jsonData J true (.rcd c s) = .ok (.dict d))
    {k : Comp} {v : Val} (hv : alookup js k = some v) (hcl : ¬ Claimed J c k) (hj : IsJson J v) :
    alookup d k = some v := by
  obtain ⟨j, h1, h2⟩ := C49_written hc hk hu hn h hd hv hcl
  rw [(isJson_fixed hj).1] at h1
  cases h1
  exact h2

theorem exKeeps : KeepsUnknown exJ "User" := by
  refine ⟨⟨⟨"unknown_json_keys", true, [], none⟩, by decide +kernel, rfl, rfl, rfl⟩, by decide +kernel, ?_, rfl, rfl, rfl⟩
  intro p hp hn
  rw [named_iff]
  unfold jsonName
  rw [hn]
  rfl

theorem exUnclaimed : ¬ Claimed exJ "User" (.str "age") := by
  rw [claimed_iff]
  rintro ⟨p, hp, nm, h1, h2⟩
  cases h2
  have : ∀ p ∈ (exJ.S.cls "User").props, ¬ jsonName exJ "User" p = some "age" := by decide +kernel
  exact this p hp h1

/-- C49 is violated: a large integer under an unknown key comes back as a string. -/
theorem C49_violated : ¬ C49_statement := by
  intro h
  have := h exJ 3 "User" [(.str "userName", .str "ann"), (.str "age", .int (2 ^ 60))]
    [("name", .str "ann"), ("unknown_json_keys", .dict [(.str "age", .int (2 ^ 60))])]
    [(.str "userName", .str "ann"), (.str "age", .str "1152921504606846976")]
    (by decide +kernel) (by decide +kernel) exKeeps (by decide +kernel) (by decide +kernel) (by decide +kernel)
    (.str "age") (.int (2 ^ 60)) (by decide +kernel) exUnclaimed
  have h2 : alookup [(Comp.str "userName", Val.str "ann"), (.str "age", .str "1152921504606846976")] (.str "age") =
      some (.str "1152921504606846976") := by decide +kernel
  rw [h2] at this
  simp [Val.int, Val.str] at this

-- the conditions of `C49_kept` are met, with a nested record and an unknown object
example : fromJson exJ 3 "User" (.dict [(.str "userName", .str "ann"), (.str "x", .dict [(.str "y", .int 1)]),
      (.str "friend", .dict [(.str "age", .int 4)])]) =
    .ok (.rcd "User" [("name", .str "ann"),
      ("friend", .rcd "User" [("unknown_json_keys", .dict [(.str "age", .int 4)])]),
      ("unknown_json_keys", .dict [(.str "x", .dict [(.str "y", .int 1)])])]) := by decide +kernel

/-- C49: building a plain record from JSON with an unknown key raises. -/
theorem C49_plain_rejects (hc : J.isJson c = false) (hu : ∀ p ∈ (J.S.cls c).props, p.name ≠ "unknown_json_keys")
    (hn : (js.map (·.1)).Nodup) {k : Comp} (hk : k ∈ js.map (·.1)) (hcl : ¬ Claimed J c k) :
    ∃ x, fromJson J n c (.dict js) = .error x := by
  cases h : fromJson J n c (.dict js) with
  | error x => exact ⟨x, rfl⟩
  | ok v =>
    exfalso
    simp only [fromJson, fromJsonWith, decode_dict, hc] at h
    simp only [Bool.false_eq_true, if_false, fromPlain] at h
    split at h
    · cases h
    · next kw hkw =>
      obtain ⟨w, hw, rfl, hnd, hun⟩ := initKwargs_ok hkw hn
      have hku : k ∈ w.unknown := (hun k).mpr ⟨alookup_isSome_iff.mpr hk, hcl⟩
      have hne : w.unknown ≠ [] := List.ne_nil_of_mem hku
      have hlk : ∃ u, alookup (withUnknown js w) unknownKeys = some u := by
        rw [withUnknown_lookup]; exact ⟨_, by simp [hne]; rfl⟩
      obtain ⟨u, hlk⟩ := hlk
      have hnemp : (withUnknown js w).isEmpty = false := by
        cases hwu : withUnknown js w with
        | nil => rw [hwu] at hlk; cases hlk
        | cons _ _ => rfl
      split at h
      · obtain ⟨s1, s2, h1, rfl, h3⟩ := initRecord_ok h
        obtain ⟨p, r, hp, _⟩ := (initRecord_slots h hnd unknownKeys).1 u hlk
        exact hu p (findProp_name hp).1 (findProp_name hp).2
      · simp [hnemp] at h
      · simp [hnemp] at h

-- a plain record with a property `name`
example : fromJson { exJ with isJson := fun _ => false, S := exSchema (fun _ => { props := [⟨"name", false, [], none⟩] }) }
    3 "Person" (.dict [(.str "userName", .str "ann"), (.str "age", .int 4)]) = .error (.raw .propertyNotKnown) := by
  decide +kernel

/-! ## C50 on input -/

/-- C50: a property with `json_name=None` is never read: whatever the JSON object, the new record has it unset, unless
it has a default (or is the property for unknown keys). -/
theorem C50_hidden_in (hc : J.isJson c = true) (hk : (J.S.cls c).coll = none)
    (hnd : ((J.S.cls c).props.map (·.name)).Nodup) (hn : (js.map (·.1)).Nodup) {s : List (String × Val)}
    (h : fromJson J n c (.dict js) = .ok (.rcd c s)) {p : IProp} (hp : p ∈ (J.S.cls c).props)
    (hh : Named J c p none) (hu : p.name ≠ "unknown_json_keys") (hr : (J.info c p.name).required = false)
    (hd : (J.info c p.name).default = none) : alookup s p.name = none := by
  obtain ⟨m, kw, h1, h2⟩ := fromJson_json hc hk h
  obtain ⟨w, hw, rfl, hndk, _⟩ := initKwargs_ok h1 hn
  refine (initRecord_slots h2 hndk p.name).2 ?_ ?_
  · rw [withUnknown_other hu]
    refine hidden_arg hnd hw (fun q hq he => ?_)
    rw [named_iff] at hh ⊢
    unfold jsonName at hh ⊢
    rw [he]
    exact hh
  · intro q hq he
    simp only [eager, he, hr, hd]
    simp

-- `secret` in the document is an unknown key, not the hidden property
example : fromJson exJ 3 "User" (.dict [(.str "secret", .int 1)]) =
    .ok (.rcd "User" [("unknown_json_keys", .dict [(.str "secret", .int 1)])]) := by decide +kernel

end Normalize.Json
