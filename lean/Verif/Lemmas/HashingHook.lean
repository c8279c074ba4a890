import Verif.Lemmas.Hashing

/-!
# Identities of normalised records
-/

namespace Normalize.Ident

open Normalize.Spec
open Normalize.Mfs (alookup_mem)

variable {S : Schema} {f : SlotHook}

/-- The hook changes nothing but objects without parts, into hashable ones. -/
def GentleHook (S : Schema) (f : SlotHook) : Prop :=
  ∀ v p o, ∃ w, f v p o = .ok w ∧ ((∃ a, v = .atom a ∧ (S.atomHash a).isSome = true) → ∃ b, w = .atom b ∧ (S.atomHash b).isSome = true) ∧
    ((∀ a, v ≠ .atom a) → w = v)

/-- Identified as a `c`, the object gets a key that can be hashed. -/
def KeyedBy (S : Schema) (f : SlotHook) (c : String) (v : Val) : Prop :=
  ∃ ks N, (∀ n, N ≤ n → rid S (some f) n (.cls c) none v = .ok (.tup ks)) ∧ KeyHashes S (.tup ks) ∧
    (ks = [] → EmptyColl v ∨ ∃ d s, v = .rcd d s)

/-- The key of one property of an object. -/
def SlotKeyedBy (S : Schema) (f : SlotHook) (o : Val) (p : IProp) : Prop :=
  ∃ k N, (∀ n, N ≤ n → slotKey S (some f) (fun c' s w => rid S (some f) n (.cls c') s w) (fun k => khash S n k) none o p
      = .ok k) ∧ KeyHashes S k

/-- A property whose value is an object without parts. -/
theorem by_atom (hf : GentleHook S f) {o : Val} {p : IProp} {a : Atom} (hh : (S.atomHash a).isSome = true)
    (hr : (readAttr S o p.name).getD .none = .atom a)
    (ht : a = .none ∨ ∀ t ∈ p.types, ∃ n, t = .other n) : SlotKeyedBy S f o p := by
  obtain ⟨w, hw, hw', -⟩ := hf (.atom a) p o
  obtain ⟨b, rfl, hb⟩ := hw' ⟨a, rfl, hh⟩
  obtain ⟨z, hz, -, -⟩ := hf .none p o
  obtain ⟨N, hN⟩ := checked_raw (KeyHashes.atom hb)
  refine ⟨.raw (.atom b), N, fun n hn => ?_, .atom hb⟩
  simp only [slotKey, runHook, hr, hw, hz, subSel]
  split
  · rename_i hne
    rcases ht with rfl | ht
    · exfalso
      have : f (.atom .none) p o = .ok z := hz
      rw [hw] at this
      cases this
      exact hne.1 rfl
    · rw [bestKey_other ht]
      exact hN n hn
  · rfl

/-- A property whose type is a record class, and whose value has parts. -/
theorem by_cls (ok : ClassesOk S) (hf : GentleHook S f) {o v : Val} {p : IProp} {c : String}
    (hr : (readAttr S o p.name).getD .none = v) (ha : ∀ a, v ≠ .atom a)
    (ht : p.types = [.cls c]) (hv : Keyed S v) (hk : KeyedBy S f c v) (he : ¬ EmptyColl v) :
    SlotKeyedBy S f o p := by
  obtain ⟨w, hw, -, hw'⟩ := hf v p o
  rw [hw' ha] at hw
  obtain ⟨z, hz, hz', -⟩ := hf .none p o
  obtain ⟨b, rfl, -⟩ := hz' ⟨_, rfl, ok.none⟩
  obtain ⟨ks, N, hN, hk, hks⟩ := hk
  have best : ∀ n, N ≤ n → bestKey (fun c => rid S (some f) n (.cls c) none v) p.types [] 0 = .ok ks := by
    intro n hn
    rw [ht]
    simp [bestKey, hN n hn, Key.members]
  by_cases h0 : ks = []
  · subst h0
    have hh : hashable S v = true := by
      rcases hks rfl with h | ⟨d, s, rfl⟩
      · exact absurd h he
      · rfl
    have hraw := hv.raw hh
    obtain ⟨M, hM⟩ := checked_raw hraw
    refine ⟨.raw v, max N M, fun n hmn => ?_, hraw⟩
    simp only [slotKey, runHook, hr, hw, hz, subSel]
    rw [best n (by omega), if_pos ⟨ha b, by simp [ht]⟩]
    exact hM n (by omega)
  · obtain ⟨M, hM⟩ := checked_tup (v := v) h0 hk
    refine ⟨.tup ks, max N M, fun n hmn => ?_, hk⟩
    simp only [slotKey, runHook, hr, hw, hz, subSel]
    rw [best n (by omega), if_pos ⟨ha b, by simp [ht]⟩]
    exact hM n (by omega)

/-- A property without type, or whose types are no record classes, with a record as value. -/
theorem by_raw (hf : GentleHook S f) {o v : Val} {p : IProp}
    (hr : (readAttr S o p.name).getD .none = v) (ha : ∀ a, v ≠ .atom a)
    (ht : ∀ t ∈ p.types, ∃ n, t = .other n) (hv : KeyHashes S (.raw v)) :
    SlotKeyedBy S f o p := by
  obtain ⟨w, hw, -, hw'⟩ := hf v p o
  rw [hw' ha] at hw
  obtain ⟨z, hz, -, -⟩ := hf .none p o
  obtain ⟨N, hN⟩ := checked_raw hv
  refine ⟨.raw v, N, fun n hn => ?_, hv⟩
  simp only [slotKey, runHook, hr, hw, hz, subSel]
  rw [bestKey_other ht]
  split
  · exact hN n hn
  · rfl

theorem keyedBy_props {c : String} {v : Val} (hc : (S.cls c).coll = none ∨ (S.cls c).pk ≠ [])
    (hs : ∀ p, Identifies S c p → SlotKeyedBy S f v p)
    (he : (S.cls c).pk = [] → ∃ d s, v = .rcd d s) : KeyedBy S f c v := by
  obtain ⟨ks, N, hN, hk, hl⟩ := mapE_stable (xs := idProps (S.cls c) none)
    (f := fun n p => slotKey S (some f) (fun c' s w => rid S (some f) n (.cls c') s w) (fun k => khash S n k) none v p)
    (P := KeyHashes S) (fun p hp => hs p (mem_idProps_none.1 hp))
  refine ⟨ks, N + 1, fun n hn => ?_, .tup hk, fun h0 => ?_⟩
  · obtain ⟨m, rfl⟩ : ∃ m, n = m + 1 := ⟨n - 1, by omega⟩
    have hm := hN m (by omega)
    simp only [rid, pkCols_all]
    rcases hc with hc | hc
    · simp only [hc]
      rw [hm]
      rfl
    · have hp : (S.cls c).pk.isEmpty = false := by simpa using hc
      rw [hp]
      split
      · simp_all
      · rw [hm]; rfl
  · by_cases hp : (S.cls c).pk = []
    · exact .inr (he hp)
    · exfalso
      subst h0
      simp only [idProps, pkCols_all, List.length_nil] at hl
      rw [if_neg (by simpa using hp)] at hl
      exact hp (List.length_eq_zero_iff.1 hl.symm)

theorem keyedBy_items {c : String} {v : Val} {k : CollKind} {it : ItemTy} {xs : List (Comp × Val)}
    (hc : (S.cls c).coll = some (k, it)) (hp : (S.cls c).pk = []) (ht : collTuples S k v = .ok xs)
    (hx : ∀ x ∈ xs, Keyed S x.2) (hy : ∀ x ∈ xs, ∀ c, IsInstance S (.cls c) x.2 → KeyedBy S f c x.2)
    (hi : ∀ x ∈ xs, IsItem S it x.2) (he : xs = [] → EmptyColl v) :
    KeyedBy S f c v := by
  have item : ∀ t v, Keyed S v → (∀ c, IsInstance S (.cls c) v → KeyedBy S f c v) → IsInstance S t v →
      ∃ k N, (∀ n, N ≤ n → rid S (some f) n t none v = .ok k) ∧ KeyHashes S k := by
    intro t v h h' ht
    match t, v, ht with
    | .other m, .atom a, _ =>
      refine ⟨.raw (.atom a), 1, fun n hn => ?_, .atom (h.atom a rfl)⟩
      obtain ⟨n, rfl⟩ : ∃ m, n = m + 1 := ⟨n - 1, by omega⟩
      simp [rid, hashable, h.atom a rfl]
    | .cls c, v, ht =>
      obtain ⟨ks, N, hN, hk, -⟩ := h' c ht
      exact ⟨_, N, hN, hk⟩
  obtain ⟨ks, N, hN, hk, hl⟩ := mapE_stable (xs := xs)
    (f := fun n x => rid S (some f) n (itemTy it x.2) none x.2)
    (P := KeyHashes S) (fun x hx' => by
      refine item _ _ (hx x hx') (hy x hx') ?_
      have := hi x hx'
      cases it with
      | one t => exact this
      | tup ts =>
        obtain ⟨t, -, ht⟩ := this
        show IsInstance S (typeOf x.2) x.2
        generalize x.2 = w at ht
        match t, w, ht with
        | .other m, .atom a, _ => exact trivial
        | .cls c, .rcd d _, _ => exact ExtendsClass.refl d
        | .cls c, .lcoll d _, _ => exact ExtendsClass.refl d
        | .cls c, .dcoll d _, _ => exact ExtendsClass.refl d)
  refine ⟨ks, N + 1, fun n hn => ?_, .tup hk, fun h0 => ?_⟩
  · obtain ⟨m, rfl⟩ : ∃ m, n = m + 1 := ⟨n - 1, by omega⟩
    have hm := hN m (by omega)
    simp only [rid, pkCols_all, hc, hp, List.isEmpty_nil, ht, filter_passes, subSel]
    rw [hm]
    rfl
  · subst h0
    exact .inl (he (List.length_eq_zero_iff.1 hl.symm))

/-- Objects of declared types have an identity, also with normalisation. -/
theorem OfDeclared.keyedBy {v : Val} (ok : ClassesOk S) (hu : NoRecordUnions S) (hf : GentleHook S f)
    (h : OfDeclared S v) : NoEmptyColls S v → ∀ c, IsInstance S (.cls c) v → KeyedBy S f c v := by
  induction h with
  | @atom a ha =>
    intro _ c hc
    exact (nomatch hc)
  | @rcd d s hd hs ht ih =>
    intro hne c hc
    have hc : ExtendsClass S d c := hc
    refine keyedBy_props (.inl (hc.2 ▸ hd)) (fun p hp => ?_) (fun _ => ⟨d, s, rfl⟩)
    have hpd : p ∈ (S.cls d).props := hc.1 p (hp.mem ok)
    cases hl : alookup s p.name with
    | none =>
      have hr : readAttr S (.rcd d s) p.name = p.unset.map Val.atom := by
        simp [readAttr, hl, unsetOf, propOf, find_name (ok.names d) hpd]
      cases hun : p.unset with
      | none => exact by_atom (a := .none) hf ok.none (by rw [hr, hun]; rfl) (.inl rfl)
      | some a =>
        rcases ok.unset d p hpd a hun with rfl | ⟨ha, hty⟩
        · exact by_atom (a := .none) hf ok.none (by rw [hr, hun]; rfl) (.inl rfl)
        · exact by_atom (a := a) hf ha (by rw [hr, hun]; rfl) (.inr hty)
    | some w =>
      have hr : (readAttr S (.rcd d s) p.name).getD .none = w := by simp [readAttr, hl]
      have hmem := alookup_mem hl
      have hne' : NoEmptyColls S w := fun d' s' hsub => hne d' s' (.rcd hmem hsub)
      have hw : Keyed S w := OfDeclared.keyed ok hu (hs _ hmem) hne'
      rcases ht p hpd w hl with rfl | ⟨h0, hh⟩ | ⟨t, htm, hti⟩
      · exact by_atom (a := .none) hf ok.none hr (.inl rfl)
      · by_cases ha : ∃ a, w = .atom a
        · obtain ⟨a, rfl⟩ := ha
          exact by_atom hf (hw.atom a rfl) hr (.inr (by simp [h0]))
        · exact by_raw hf hr (fun a e => ha ⟨a, e⟩) (by simp [h0]) (hw.raw hh)
      · rcases hu d p hpd with hall | ⟨c', hc'⟩
        · obtain ⟨m, rfl⟩ := hall t htm
          match w, hti, hr, hw with
          | .atom a, _, hr, hw => exact by_atom hf (hw.atom a rfl) hr (.inr hall)
        · rw [hc', List.mem_singleton] at htm
          subst htm
          refine by_cls ok hf hr ?_ hc' hw (ih _ hmem hne' c' hti) (hne d s (.self _) c hc p hp w hl)
          rintro a rfl
          exact (nomatch hti)
  | @lcoll d k it xs hd hx hi ih =>
    intro hne c hc
    have hc : ExtendsClass S d c := hc
    by_cases hp : (S.cls c).pk = []
    · exact keyedBy_items (hc.2 ▸ hd) hp (by simp [collTuples])
        (fun x hx' => OfDeclared.keyed ok hu (hx _ (enum_snd hx')) (fun d' s' hsub => hne d' s' (.lcoll (enum_snd hx') hsub)))
        (fun x hx' => ih _ (enum_snd hx') (fun d' s' hsub => hne d' s' (.lcoll (enum_snd hx') hsub)))
        (fun x hx' => hi _ (enum_snd hx'))
        (fun h0 => .inl ⟨d, by simp [enum] at h0; rw [h0]⟩)
    · exact keyedBy_props (.inr hp) (fun p _ => by_atom (a := .none) hf ok.none (by simp [readAttr, Val.none]) (.inl rfl)) (fun h => absurd h hp)
  | @dcoll d k it xs hd hx hi ih =>
    intro hne c hc
    have hc : ExtendsClass S d c := hc
    by_cases hp : (S.cls c).pk = []
    · exact keyedBy_items (hc.2 ▸ hd) hp (by simp [collTuples])
        (fun x hx' => OfDeclared.keyed ok hu (hx _ hx') (fun d' s' hsub => hne d' s' (.dcoll (k := x.1) hx' hsub)))
        (fun x hx' => ih x hx' (fun d' s' hsub => hne d' s' (.dcoll (k := x.1) hx' hsub)))
        hi (fun h0 => .inr ⟨d, by rw [h0]⟩)
    · exact keyedBy_props (.inr hp) (fun p _ => by_atom (a := .none) hf ok.none (by simp [readAttr, Val.none]) (.inl rfl)) (fun h => absurd h hp)

end Normalize.Ident
