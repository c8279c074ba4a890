import Verif.Spec.DiffTrans
import Verif.Props.DiffAgree
import Verif.Props.DiffMirror
import Verif.Props.DiffFuzzy
import Verif.Lemmas.DiffRecurse

/-!
# C116: having no differences is an equivalence
-/

namespace Normalize.Diff
open Ident (IProp Schema readAttr veq Sub AtomLaws)
open Spec (Real PlainSlots Items Members nth Agree AgreeAt places Closed Compared OneType TypedOnly OneClassPerItem NoDiffs)

variable {o : Opts}

/-- C116: if there are no differences between `x` and `y`, and none between `y` and `z`, then there are none between
`x` and `z`. -/
def C116_statement : Prop :=
  ∀ (D : Setup) (o : Opts) (n : Nat) (x y z : Val), (∀ p, D.compareAs p = none) → OrdOK D.hooks → AtomLaws D.S →
    o.duckType = false → o.compareFilter = none → Real D.S x → Real D.S y → Real D.S z →
    tagOf x ≠ none → tagOf x = tagOf y → tagOf y = tagOf z →
    NoDiffs (diff D.hooks o n x y) → NoDiffs (diff D.hooks o n y z) → (diff D.hooks o n x z).exc = none →
    NoDiffs (diff D.hooks o n x z)

/-- The objects in the option are in the family. -/
def InO (T : Val → Prop) (v : Option Val) : Prop := ∀ w, v = some w → T w

theorem tag_items {E F : Type} {H : Hooks E F} {x : Val} {la : List (Option F × (Comp × Val))} (h : Items H o x la) :
    tagOf x ≠ none := by
  obtain ⟨xs, hxs, _⟩ := h
  cases x <;> simp [tuplesOf] at hxs <;> simp [tagOf]

theorem tag_cls {x : Val} {c : String} (h : clsOf x = some c) : tagOf x = some (.cls c) := by
  cases x <;> simp [clsOf] at h <;> simp [tagOf, h]

theorem items_rcd {E F : Type} {H : Hooks E F} {c : String} {s : List (String × Val)}
    {la : List (Option F × (Comp × Val))} : ¬ Items H o (.rcd c s) la := by
  rintro ⟨xs, hxs, _⟩
  simp [tuplesOf] at hxs

theorem members_rcd {E F : Type} {H : Hooks E F} {c : String} {s : List (String × Val)}
    {la : List (Id E × (Comp × Val))} : ¬ Members H o (.rcd c s) la := by
  rintro ⟨xs, hxs, _⟩
  simp [tuplesOf] at hxs

theorem nth_perm {J α β : Type} [DecidableEq J] {l : List (J × α)} {l' : List (J × β)} {j : J} {m : Nat} {u : α}
    (hp : (l.map (·.1)).Perm (l'.map (·.1))) (h : nth l j m = some u) : ∃ w, nth l' j m = some w := by
  cases hn : nth l' j m with
  | some w => exact ⟨w, rfl⟩
  | none =>
    rw [nth_none, ← hp.count_eq, ← nth_none, h] at hn
    simp at hn

theorem agree_trans (D : Setup) (L : AtomLaws D.S) {T : Val → Prop} (hT : Closed D.hooks T) (h1 : OneType D.S T)
    (hi : o.ignoreEmptySlots = false) {a b : Option Val} (h : Agree D.hooks o a b) :
    ∀ c, InO T a → InO T b → InO T c → Agree D.hooks o b c → Agree D.hooks o a c := by
  induction h with
  | unset => intro c _ _ _ h'; exact h'
  | blankL he => rw [hi] at he; exact absurd he (by simp)
  | blankR he => rw [hi] at he; exact absurd he (by simp)
  | @equal x y ht he =>
    intro c ha hb hc h'
    have he : veq D.S x y = .ok true := he
    have hxy := h1 x y (ha x rfl) (hb y rfl) he
    have hx : tagOf x = none := ht.resolve_right (fun h => h hxy)
    have hy : tagOf y = none := hxy ▸ hx
    cases h' with
    | blankL he => rw [hi] at he; exact absurd he (by simp)
    | @equal _ z ht' he' =>
      refine .equal (.inl hx) ?_
      show veq D.S x z = .ok true
      have he' : veq D.S y z = .ok true := he'
      cases x <;> simp [tagOf] at hx
      obtain ⟨b, rfl, hb'⟩ := Ident.veq_atom_left he
      obtain ⟨c, rfl, hc'⟩ := Ident.veq_atom_left he'
      rw [Ident.veq_atom, L.trans _ _ _ hb' hc']
    | record => simp [tagOf] at hy
    | simple _ _ hy' => exact absurd hy (tag_items hy')
    | records hy' => rw [tag_cls hy'] at hy; simp at hy
  | @record k s t va vb ha hb hab ih =>
    intro c hTa hTb hTc h'
    cases h' with
    | blankL he => rw [hi] at he; exact absurd he (by simp)
    | @equal _ z ht' he' =>
      have := h1 _ z (hTb _ rfl) (hTc z rfl) he'
      exact absurd this (ht'.resolve_left (by simp [tagOf]))
    | @record _ _ u vb' vc hb' hc' hbc =>
      refine .record va vc ha hc' fun p hp hcm => ?_
      have : vb p = vb' p := by
        have := (hb p hp hcm).symm.trans (hb' p hp hcm)
        simpa using this
      refine ih p hp hcm _ ?_ ?_ ?_ (this ▸ hbc p hp hcm)
      · intro w hw; exact hT.slot _ p w (hTa _ rfl) (by rw [← hw]; exact ha p hp hcm)
      · intro w hw; exact hT.slot _ p w (hTb _ rfl) (by rw [← hw]; exact hb p hp hcm)
      · intro w hw; exact hT.slot _ p w (hTc _ rfl) (by rw [← hw]; exact hc' p hp hcm)
    | simple _ _ hy' => exact absurd hy' items_rcd
    | records _ _ _ hy' => exact absurd hy' members_rcd
  | @simple x y la lb ht hk hla hlb hp =>
    intro c hTa hTb hTc h'
    cases h' with
    | blankL he => rw [hi] at he; exact absurd he (by simp)
    | @equal _ z ht' he' =>
      have := h1 _ z (hTb _ rfl) (hTc z rfl) he'
      exact absurd this (ht'.resolve_left (tag_items hlb))
    | record => exact absurd hlb items_rcd
    | simple ht' hk' hlb' hlc hp' =>
      rw [items_unique hlb hlb'] at hp
      exact .simple (ht.trans ht') hk hla hlc (hp.trans hp')
    | records hy' _ hcoll =>
      obtain ⟨kd, t, h2⟩ := hk _ ((clsOf_tag ht).trans hy')
      rw [h2] at hcoll
      simp at hcoll
  | @records x y k kd nm la lb hx hy hcoll hla hlb hp htag hab ih =>
    intro c hTa hTb hTc h'
    cases h' with
    | blankL he => rw [hi] at he; exact absurd he (by simp)
    | @equal _ z ht' he' =>
      have := h1 _ z (hTb _ rfl) (hTc z rfl) he'
      exact absurd this (ht'.resolve_left (by rw [tag_cls hy]; simp))
    | record => exact absurd hlb members_rcd
    | simple _ hk' =>
      obtain ⟨kd, t, h2⟩ := hk' _ hy
      rw [h2] at hcoll
      simp at hcoll
    | @records _ z k' kd' nm' lb' lc hy' hz' hcoll' hlb' hlc hp' htag' hbc =>
      rw [hy] at hy'
      simp only [Option.some.injEq] at hy'
      subst hy'
      rw [members_unique hlb' hlb] at hp' htag' hbc
      have hmem : ∀ {v : Val} {l : List (Id Ident.Key × (Comp × Val))} {j m u}, T v → Members D.hooks o v l →
          nth l j m = some u → T u.2 := by
        intro v l j m u hv hl hu
        obtain ⟨xs, g1, g2, _⟩ := members_mem hl (nth_mem hu)
        exact hT.member v xs _ _ hv g1 g2
      refine .records hx hz' hcoll hla hlc (hp.trans hp') ?_ ?_
      · intro j m u w hu hw
        obtain ⟨v, hv⟩ := nth_perm hp hu
        exact (htag j m u v hu hv).trans (htag' j m v w hv hw)
      · intro j m u w hu hw
        obtain ⟨v, hv⟩ := nth_perm hp hu
        refine ih j m u v hu hv _ ?_ ?_ ?_ (hbc j m v w hv hw)
        · rintro _ ⟨⟩; exact hmem (hTa _ rfl) hla hu
        · rintro _ ⟨⟩; exact hmem (hTb _ rfl) hlb hv
        · rintro _ ⟨⟩; exact hmem (hTc _ rfl) hlc hw

theorem agree_symm (D : Setup) (hc : Spec.CompareFlat D) (L : AtomLaws D.S) {a b : Option Val}
    (h : Agree D.hooks o a b) : InO (Real D.S) a → InO (Real D.S) b → Agree D.hooks o b a := by
  have hT := closed_default D hc
  induction h with
  | unset => intro _ _; exact .unset
  | blankL he hb => intro _ _; exact .blankR he hb
  | blankR he hb => intro _ _; exact .blankL he hb
  | @equal x y ht he =>
    intro ha hb
    have he : veq D.S x y = .ok true := he
    refine .equal ?_ (Ident.veq_symm L x (ha x rfl).1 y (hb y rfl).1 he)
    by_cases hy : tagOf y = none
    · exact .inl hy
    · refine .inr fun h => ?_
      rcases ht with ht | ht
      · rw [ht] at h; exact hy h
      · exact ht h.symm
  | @record k s t va vb ha hb hab ih =>
    intro hTa hTb
    refine .record vb va hb ha fun p hp hcm => ih p hp hcm ?_ ?_
    · intro w hw; exact hT.slot _ p w (hTa _ rfl) (by rw [← hw]; exact ha p hp hcm)
    · intro w hw; exact hT.slot _ p w (hTb _ rfl) (by rw [← hw]; exact hb p hp hcm)
  | @simple x y la lb ht hk hla hlb hp =>
    intro _ _
    exact .simple ht.symm (fun c hy => hk c ((clsOf_tag ht).trans hy)) hlb hla hp.symm
  | @records x y k kd nm la lb hx hy hcoll hla hlb hp htag hab ih =>
    intro hTa hTb
    have hmem : ∀ {v : Val} {l : List (Id Ident.Key × (Comp × Val))} {j m u}, Real D.S v → Members D.hooks o v l →
        nth l j m = some u → Real D.S u.2 := by
      intro v l j m u hv hl hu
      obtain ⟨xs, g1, g2, _⟩ := members_mem hl (nth_mem hu)
      exact hT.member v xs _ _ hv g1 g2
    refine .records hy hx hcoll hlb hla hp.symm (fun j m u w hu hw => (htag j m w u hw hu).symm) fun j m u w hu hw => ?_
    refine ih j m w u hw hu ?_ ?_
    · rintro _ ⟨⟩; exact hmem (hTa _ rfl) hla hw
    · rintro _ ⟨⟩; exact hmem (hTb _ rfl) hlb hu

theorem agree_trans_at (D : Setup) (L : AtomLaws D.S) {T : Val → Prop} (hT : Closed D.hooks T) (h1 : OneType D.S T)
    (hi : o.ignoreEmptySlots = false) {a b : Option Val} (h : AgreeAt D.hooks o a b) :
    ∀ c, InO T a → InO T b → InO T c → AgreeAt D.hooks o b c → AgreeAt D.hooks o a c := by
  induction h with
  | unset => intro c _ _ _ h'; exact h'
  | blankL he => rw [hi] at he; exact absurd he (by simp)
  | blankR he => rw [hi] at he; exact absurd he (by simp)
  | @equal x y ht he =>
    intro c ha hb hc h'
    have he : veq D.S x y = .ok true := he
    have hxy := h1 x y (ha x rfl) (hb y rfl) he
    have hx : tagOf x = none := ht.resolve_right (fun h => h hxy)
    have hy : tagOf y = none := hxy ▸ hx
    cases h' with
    | blankL he => rw [hi] at he; exact absurd he (by simp)
    | @equal _ z ht' he' =>
      refine .equal (.inl hx) ?_
      show veq D.S x z = .ok true
      have he' : veq D.S y z = .ok true := he'
      cases x <;> simp [tagOf] at hx
      obtain ⟨b, rfl, hb'⟩ := Ident.veq_atom_left he
      obtain ⟨c, rfl, hc'⟩ := Ident.veq_atom_left he'
      rw [Ident.veq_atom, L.trans _ _ _ hb' hc']
    | record => simp [tagOf] at hy
    | simple _ _ hy' => exact absurd hy (tag_items hy')
    | records hy' => rw [tag_cls hy'] at hy; simp at hy
  | @record k s t va vb ha hb hab ih =>
    intro c hTa hTb hTc h'
    cases h' with
    | blankL he => rw [hi] at he; exact absurd he (by simp)
    | @equal _ z ht' he' =>
      have := h1 _ z (hTb _ rfl) (hTc z rfl) he'
      exact absurd this (ht'.resolve_left (by simp [tagOf]))
    | @record _ _ u vb' vc hb' hc' hbc =>
      refine .record va vc ha hc' fun p hp hcm => ?_
      have : vb p = vb' p := by
        have := (hb p hp hcm).symm.trans (hb' p hp hcm)
        simpa using this
      refine ih p hp hcm _ ?_ ?_ ?_ (this ▸ hbc p hp hcm)
      · intro w hw; exact hT.slot _ p w (hTa _ rfl) (by rw [← hw]; exact ha p hp hcm)
      · intro w hw; exact hT.slot _ p w (hTb _ rfl) (by rw [← hw]; exact hb p hp hcm)
      · intro w hw; exact hT.slot _ p w (hTc _ rfl) (by rw [← hw]; exact hc' p hp hcm)
    | simple _ _ hy' => exact absurd hy' items_rcd
    | records _ _ _ hy' => exact absurd hy' members_rcd
  | @simple x y la lb ht hk hla hlb hp =>
    intro c hTa hTb hTc h'
    cases h' with
    | blankL he => rw [hi] at he; exact absurd he (by simp)
    | @equal _ z ht' he' =>
      have := h1 _ z (hTb _ rfl) (hTc z rfl) he'
      exact absurd this (ht'.resolve_left (tag_items hlb))
    | record => exact absurd hlb items_rcd
    | simple ht' hk' hlb' hlc hp' =>
      rw [items_unique hlb hlb'] at hp
      exact .simple (ht.trans ht') hk hla hlc (hp.trans hp')
    | records hy' _ hcoll =>
      obtain ⟨kd, t, h2⟩ := hk _ ((clsOf_tag ht).trans hy')
      rw [h2] at hcoll
      simp at hcoll
  | @records x y k kd nm la lb hx hy hcoll hla hlb hp htag hab ih =>
    intro c hTa hTb hTc h'
    cases h' with
    | blankL he => rw [hi] at he; exact absurd he (by simp)
    | @equal _ z ht' he' =>
      have := h1 _ z (hTb _ rfl) (hTc z rfl) he'
      exact absurd this (ht'.resolve_left (by rw [tag_cls hy]; simp))
    | record => exact absurd hlb members_rcd
    | simple _ hk' =>
      obtain ⟨kd, t, h2⟩ := hk' _ hy
      rw [h2] at hcoll
      simp at hcoll
    | @records _ z k' kd' nm' lb' lc hy' hz' hcoll' hlb' hlc hp' htag' hbc =>
      rw [hy] at hy'
      simp only [Option.some.injEq] at hy'
      subst hy'
      rw [members_unique hlb' hlb] at hp' htag' hbc
      have hmem : ∀ {v : Val} {l : List (Id Ident.Key × (Comp × Val))} {u}, T v → Members D.hooks o v l →
          u ∈ l → T u.2.2 := by
        intro v l u hv hl hu
        obtain ⟨xs, g1, g2, _⟩ := members_mem hl hu
        exact hT.member v xs _ _ hv g1 g2
      have hmid : ∀ u ∈ la, ∃ v ∈ lb, u.2.1 = v.2.1 := by
        intro u hu
        obtain ⟨v, hv, hk⟩ := List.mem_map.1 ((hp _).1 (List.mem_map_of_mem hu))
        exact ⟨v, hv, hk.symm⟩
      refine .records hx hz' hcoll hla hlc (fun k => (hp k).trans (hp' k)) ?_ ?_
      · intro u hu w hw hk
        obtain ⟨v, hv, hkv⟩ := hmid u hu
        exact (htag u hu v hv hkv).trans (htag' v hv w hw (hkv.symm.trans hk))
      · intro u hu w hw hk
        obtain ⟨v, hv, hkv⟩ := hmid u hu
        refine ih u hu v hv hkv _ ?_ ?_ ?_ (hbc v hv w hw (hkv.symm.trans hk))
        · rintro _ ⟨⟩; exact hmem (hTa _ rfl) hla hu
        · rintro _ ⟨⟩; exact hmem (hTb _ rfl) hlb hv
        · rintro _ ⟨⟩; exact hmem (hTc _ rfl) hlc hw

theorem agree_symm_at (D : Setup) (hc : Spec.CompareFlat D) (L : AtomLaws D.S) {a b : Option Val}
    (h : AgreeAt D.hooks o a b) : InO (Real D.S) a → InO (Real D.S) b → AgreeAt D.hooks o b a := by
  have hT := closed_default D hc
  induction h with
  | unset => intro _ _; exact .unset
  | blankL he hb => intro _ _; exact .blankR he hb
  | blankR he hb => intro _ _; exact .blankL he hb
  | @equal x y ht he =>
    intro ha hb
    have he : veq D.S x y = .ok true := he
    refine .equal ?_ (Ident.veq_symm L x (ha x rfl).1 y (hb y rfl).1 he)
    by_cases hy : tagOf y = none
    · exact .inl hy
    · refine .inr fun h => ?_
      rcases ht with ht | ht
      · rw [ht] at h; exact hy h
      · exact ht h.symm
  | @record k s t va vb ha hb hab ih =>
    intro hTa hTb
    refine .record vb va hb ha fun p hp hcm => ih p hp hcm ?_ ?_
    · intro w hw; exact hT.slot _ p w (hTa _ rfl) (by rw [← hw]; exact ha p hp hcm)
    · intro w hw; exact hT.slot _ p w (hTb _ rfl) (by rw [← hw]; exact hb p hp hcm)
  | @simple x y la lb ht hk hla hlb hp =>
    intro _ _
    exact .simple ht.symm (fun c hy => hk c ((clsOf_tag ht).trans hy)) hlb hla hp.symm
  | @records x y k kd nm la lb hx hy hcoll hla hlb hp htag hab ih =>
    intro hTa hTb
    have hmem : ∀ {v : Val} {l : List (Id Ident.Key × (Comp × Val))} {u}, Real D.S v → Members D.hooks o v l →
        u ∈ l → Real D.S u.2.2 := by
      intro v l u hv hl hu
      obtain ⟨xs, g1, g2, _⟩ := members_mem hl hu
      exact hT.member v xs _ _ hv g1 g2
    refine .records hy hx hcoll hlb hla (fun k => (hp k).symm) (fun u hu w hw hk => (htag w hw u hu hk.symm).symm)
      fun u hu w hw hk => ?_
    refine ih w hw u hu hk.symm ?_ ?_
    · rintro _ ⟨⟩; exact hmem (hTa _ rfl) hla hw
    · rintro _ ⟨⟩; exact hmem (hTb _ rfl) hlb hu

/-- The default methods of DiffOptions meet the assumptions that do not depend on `recurse`. -/
theorem basic_default (D : Setup) (hc : Spec.CompareFlat D) (ho : OrdOK D.hooks) (hd : o.duckType = false)
    (hf : o.compareFilter = none) : Basic D.hooks o where
  ord := ho
  closed := closed_default D hc
  tup := tupIds_default D
  plain := plain_default D hc
  duck := hd
  filter := hf

/-- The default methods of DiffOptions meet the assumptions. -/
theorem deep_default (D : Setup) (hc : Spec.CompareFlat D) (ho : OrdOK D.hooks) (hd : o.duckType = false)
    (hf : o.compareFilter = none) (hr : o.recurse = true) : Deep D.hooks o where
  ord := ho
  closed := closed_default D hc
  tup := tupIds_default D
  plain := plain_default D hc
  duck := hd
  filter := hf
  recurse := hr

/-- What it means that there are no differences: the objects agree, place by place with `recurse`. -/
theorem noDiffs_iff (D : Setup) (hc : Spec.CompareFlat D) (ho : OrdOK D.hooks) (hd : o.duckType = false)
    (hf : o.compareFilter = none) (n : Nat) (x y : Val) (hx : Real D.S x) (hy : Real D.S y) (hcx : tagOf x ≠ none)
    (hxy : tagOf x = tagOf y) :
    (o.recurse = true ∨ o.fuzzyMatch = false → NoDiffs (diff D.hooks o n x y) →
      if o.recurse then AgreeAt D.hooks o (some x) (some y) else Agree D.hooks o (some x) (some y)) ∧
    ((if o.recurse then AgreeAt D.hooks o (some x) (some y) else Agree D.hooks o (some x) (some y)) →
      ∀ d ∈ (diff D.hooks o n x y).out, d.kind = .noChange ∨ d.kind = .moved) := by
  have hcx' : comparable x = true := by
    cases h : tagOf x with
    | none => exact absurd h hcx
    | some g => simp [comparable, h]
  cases hr : o.recurse with
  | false =>
    have hs := std_default D hc ho hd hf hr
    simp only [Bool.false_eq_true, false_or, if_false]
    exact ⟨fun hz h => (C39_iff hs (.inl hz) n x y hx hy hcx hxy h.1).1 h.2, C39_sound hs n x y hx hy hcx hxy⟩
  | true =>
    have hs := deep_default D hc ho hd hf hr
    simp only [if_true]
    exact ⟨fun _ h => agree_of_still_at hs n x y [] [] hx hy hcx' hxy ⟨h.1, h.2⟩,
      fun h => (calm_of_agree_at hs h n [] [] (onO_some hx) (onO_some hy)).2
        (by intro u w hu hw; simp at hu hw; subst hu hw; exact ⟨hcx', hxy⟩) rfl rfl⟩

/-- If there are no differences between `x` and `y`, there are none between `y` and `x`. -/
theorem C116_symm (D : Setup) (hc : Spec.CompareFlat D) (ho : OrdOK D.hooks) (L : AtomLaws D.S)
    (hd : o.duckType = false) (hf : o.compareFilter = none) (hz : o.recurse = true ∨ o.fuzzyMatch = false)
    (m n : Nat) (x y : Val) (hx : Real D.S x) (hy : Real D.S y) (hcx : tagOf x ≠ none) (hxy : tagOf x = tagOf y)
    (h : NoDiffs (diff D.hooks o m x y)) :
    ∀ d ∈ (diff D.hooks o n y x).out, d.kind = .noChange ∨ d.kind = .moved := by
  have a1 := (noDiffs_iff D hc ho hd hf m x y hx hy hcx hxy).1 hz h
  refine (noDiffs_iff D hc ho hd hf n y x hy hx (hxy ▸ hcx) hxy.symm).2 ?_
  split at a1
  · rename_i hr
    rw [if_pos hr]
    exact agree_symm_at D hc L a1 (by rintro _ ⟨⟩; exact hx) (by rintro _ ⟨⟩; exact hy)
  · rename_i hr
    rw [if_neg hr]
    exact agree_symm D hc L a1 (by rintro _ ⟨⟩; exact hx) (by rintro _ ⟨⟩; exact hy)

/-- **C116 (what holds).** Transitivity for the default methods, without `ignore_empty_slots`, and without fuzzy
matching or with `recurse`, if equal objects are of one type. -/
theorem C116_partial (D : Setup) (hc : Spec.CompareFlat D) (ho : OrdOK D.hooks) (L : AtomLaws D.S)
    (hd : o.duckType = false) (hf : o.compareFilter = none) (hz : o.recurse = true ∨ o.fuzzyMatch = false)
    (hi : o.ignoreEmptySlots = false) (T : Val → Prop) (hT : Closed D.hooks T) (h1 : OneType D.S T) (m n k : Nat)
    (x y z : Val) (hx : Real D.S x) (hy : Real D.S y) (hzr : Real D.S z) (tx : T x) (ty : T y) (tz : T z)
    (hcx : tagOf x ≠ none) (hxy : tagOf x = tagOf y) (hyz : tagOf y = tagOf z)
    (h : NoDiffs (diff D.hooks o m x y)) (h' : NoDiffs (diff D.hooks o n y z)) :
    ∀ d ∈ (diff D.hooks o k x z).out, d.kind = .noChange ∨ d.kind = .moved := by
  have a1 := (noDiffs_iff D hc ho hd hf m x y hx hy hcx hxy).1 hz h
  have a2 := (noDiffs_iff D hc ho hd hf n y z hy hzr (hxy ▸ hcx) hyz).1 hz h'
  refine (noDiffs_iff D hc ho hd hf k x z hx hzr hcx (hxy.trans hyz)).2 ?_
  split at a1
  · rename_i hr
    rw [if_pos hr] at a2 ⊢
    exact agree_trans_at D L hT h1 hi a1 _ (by rintro _ ⟨⟩; exact tx) (by rintro _ ⟨⟩; exact ty)
      (by rintro _ ⟨⟩; exact tz) a2
  · rename_i hr
    rw [if_neg hr] at a2 ⊢
    exact agree_trans D L hT h1 hi a1 _ (by rintro _ ⟨⟩; exact tx) (by rintro _ ⟨⟩; exact ty)
      (by rintro _ ⟨⟩; exact tz) a2

theorem sub_readAttr {S : Schema} {x v : Val} {nm : String} (h : readAttr S x nm = some v)
    (hv : tagOf v ≠ none) : ∀ u, Sub u v → Sub u x := by
  intro u hu
  cases x with
  | rcd c s =>
    simp only [readAttr] at h
    split at h
    · rename_i w hw
      simp at h
      subst h
      exact .rcd (alookup_mem' hw) hu
    · cases hu : Ident.unsetOf S c nm with
      | none => simp [hu] at h
      | some a =>
        simp [hu] at h
        subst h
        simp [tagOf] at hv
  | _ => simp [readAttr] at h

/-- Objects whose containers are typed collections, made by `list_of` and `dict_of`, are closed under comparisons. -/
theorem C116_typed (D : Setup) (hc : Spec.CompareFlat D) (h1 : OneClassPerItem D.S) :
    Closed D.hooks (fun v => Real D.S v ∧ TypedOnly v) ∧ OneType D.S (fun v => Real D.S v ∧ TypedOnly v) := by
  have hcl := closed_default D hc
  refine ⟨⟨fun x p v hx h => ⟨hcl.slot x p v hx.1 h, ?_⟩, fun p v h => ⟨hcl.unset p v h, ?_⟩,
    fun x xs k v hx h hm => ⟨hcl.member x xs k v hx.1 h hm, fun w hw => hx.2 w (sub_member h hm w hw)⟩⟩, ?_⟩
  · cases hr : readAttr D.S x p.name with
    | none =>
      have h' : D.hooks.normSlot (readAttr D.S x p.name) p (some x) = .ok (some v) := h
      rw [hr] at h'
      have h2 : (Except.ok none : Except Exc (Option Val)) = .ok (some v) := h'
      simp at h2
    | some w =>
      have h' : D.hooks.normSlot (readAttr D.S x p.name) p (some x) = .ok (some v) := h
      rw [hr] at h'
      have hv := normSlot_flat hc h'
      have hatom : ∀ a, TypedOnly (.atom a) := by
        intro a u hu
        cases hu
        simp
      cases w with
      | atom a =>
        have : ∃ b, v = .atom b := by
          rcases hv with hv | hv
          · rw [hv]
            cases a <;> exact ⟨_, rfl⟩
          · exact hv.2
        obtain ⟨b, rfl⟩ := this
        exact hatom b
      | _ =>
        have hv : v = _ := hv.resolve_right (by rintro ⟨⟨_, h⟩, _⟩; simp at h)
        subst hv
        exact fun u hu => hx.2 u (sub_readAttr hr (by simp [tagOf]) u hu)
  · have h2 : (Except.ok none : Except Exc (Option Val)) = .ok (some v) := h
    simp at h2
  · intro u w hu hw h
    have hl := hu.2 u (.self u)
    have hl' := hw.2 w (.self w)
    have hitem : ∀ {c d : String}, (∃ k it, (D.S.cls c).coll = some (k, it)) → Ident.itemOf D.S c = Ident.itemOf D.S d →
        c = d := by
      rintro c d ⟨k, it, hcoll⟩ he
      simp only [Ident.itemOf, hcoll, Option.map_some] at he
      obtain ⟨p, hp, rfl⟩ := Option.map_eq_some_iff.1 he.symm
      exact h1 c d p.2 ⟨k, hcoll⟩ ⟨p.1, hp⟩
    cases u with
    | atom a =>
      obtain ⟨b, rfl, _⟩ := Ident.veq_atom_left h
      rfl
    | list xs => exact absurd rfl (hl.1 xs)
    | dict xs => exact absurd rfl (hl.2 xs)
    | rcd c s =>
      cases w <;> simp only [veq, Except.ok.injEq, Bool.false_eq_true] at h
      split at h
      · rename_i he; rw [he]; rfl
      · simp at h
    | lcoll c xs =>
      cases w with
      | list ys => exact absurd rfl (hl'.1 ys)
      | lcoll d ys =>
        simp only [veq] at h
        split at h
        · rename_i he
          obtain ⟨it, hc'⟩ := (hu.1.2 _ (.self _)).1
          rw [hitem ⟨_, it, hc'⟩ he]
          rfl
        · simp at h
      | _ => simp [veq] at h
    | dcoll c xs =>
      cases w with
      | dict ys => exact absurd rfl (hl'.2 ys)
      | dcoll d ys =>
        simp only [veq] at h
        split at h
        · rename_i he
          obtain ⟨it, hc'⟩ := (hu.1.2 _ (.self _)).1
          rw [hitem ⟨_, it, hc'⟩ he]
          rfl
        · simp at h
      | _ => simp [veq] at h

/-! ## What does not hold -/

namespace Ex

/-- A document with these words only. -/
def docWords (l : List Val) : Val := .rcd "Doc" [("words", .lcoll "Words" l)]

theorem real_docWords {l : List Val} (h : ∀ x ∈ l, ∃ i n, x = word i n) : Real schema (docWords l) := by
  refine .rcd (by simp [Ident.Proper, schema, cls]) (by simp [schema, cls]) ?_
  intro x hx
  simp only [List.mem_cons, List.not_mem_nil, or_false] at hx
  subst hx
  exact real_words h

theorem real_empty : Real schema (.rcd "Doc" []) :=
  .rcd (by simp [Ident.Proper]) (by simp [schema, cls]) (by simp)

end Ex

/-- **C116 does not hold** with `ignore_empty_slots`: a list with an empty word counts as unset, and so does an empty
list; but the two differ. -/
theorem C116_violated : ¬ C116_statement := by
  intro h
  have := h (Ex.setup { ignoreEmptySlots := true }) { ignoreEmptySlots := true } 9 (Ex.docWords [Ex.word "" ""])
    (.rcd "Doc" []) (Ex.docWords []) (fun _ => rfl) (Ex.ordOK _) Ex.laws rfl rfl
    (Ex.real_docWords (by simp)) Ex.real_empty (Ex.real_docWords (by simp)) (by simp [Ex.docWords, tagOf]) rfl rfl
    ⟨by decide +kernel, by decide +kernel⟩ ⟨by decide +kernel, by decide +kernel⟩ (by decide +kernel)
  exact absurd this.2 (by decide +kernel)

/-- C116 with the default options but without fuzzy matching. -/
def C116_plain_statement : Prop :=
  ∀ (D : Setup) (n : Nat) (x y z : Val), (∀ p, D.compareAs p = none) → OrdOK D.hooks → AtomLaws D.S →
    Real D.S x → Real D.S y → Real D.S z → tagOf x ≠ none → tagOf x = tagOf y → tagOf y = tagOf z →
    NoDiffs (diff D.hooks { fuzzyMatch := false } n x y) → NoDiffs (diff D.hooks { fuzzyMatch := false } n y z) →
    (diff D.hooks { fuzzyMatch := false } n x z).exc = none → NoDiffs (diff D.hooks { fuzzyMatch := false } n x z)

namespace Ex

/-- Two classes of lists of strings. -/
def clsTwo (c : String) : Ident.ICls := if c = "Labels" then { coll := some (.list, .one (.other 1)) } else cls c

/-- The schema with both. -/
def schemaTwo : Schema := { schema with cls := clsTwo }

/-- The default methods. -/
def setupTwo : Setup := { setup {} with S := schemaTwo }

/-- A document with these tags only. -/
def docTags (c : String) (l : List String) : Val := .rcd "Doc" [("tags", .lcoll c (l.map Val.str))]

theorem real_docTags {c : String} (hc : c = "Labels" ∨ c = "Names") (l : List String) : Real schemaTwo (docTags c l) := by
  refine .rcd (by simp [Ident.Proper, schemaTwo, clsTwo, cls]) (by simp [schemaTwo, clsTwo, cls]) ?_
  intro x hx
  simp only [List.mem_cons, List.not_mem_nil, or_false] at hx
  subst hx
  refine .lcoll ⟨?_, ?_⟩ ?_
  · rcases hc with rfl | rfl <;> exact ⟨_, rfl⟩
  · intro kd n h
    rcases hc with rfl | rfl <;> simp [schemaTwo, clsTwo, cls] at h
  · intro x hx
    obtain ⟨s, _, rfl⟩ := List.mem_map.1 hx
    exact .atom _

end Ex

/-- This is false too: lists of different classes in one place are compared in order, lists of one class are not. -/
theorem C116_types_violated : ¬ C116_plain_statement := by
  intro h
  have := h Ex.setupTwo 9 (Ex.docTags "Names" ["a", "b"]) (Ex.docTags "Labels" ["a", "b"]) (Ex.docTags "Labels" ["b", "a"])
    (fun _ => rfl) (fun _ _ => List.Perm.refl _) ⟨Ex.laws.refl, Ex.laws.symm, Ex.laws.trans⟩
    (Ex.real_docTags (.inr rfl) _) (Ex.real_docTags (.inl rfl) _)
    (Ex.real_docTags (.inl rfl) _) (by simp [Ex.docTags, tagOf]) rfl rfl
    ⟨by decide +kernel, by decide +kernel⟩ ⟨by decide +kernel, by decide +kernel⟩ (by decide +kernel)
  exact absurd this.2 (by decide +kernel)

/-- C116 with the default options. -/
def C116_default_statement : Prop :=
  ∀ (D : Setup) (T : Val → Prop) (n : Nat) (x y z : Val), (∀ p, D.compareAs p = none) → OrdOK D.hooks → AtomLaws D.S →
    Closed D.hooks T → OneType D.S T → Real D.S x → Real D.S y → Real D.S z → T x → T y → T z →
    tagOf x ≠ none → tagOf x = tagOf y → tagOf y = tagOf z →
    NoDiffs (diff D.hooks {} n x y) → NoDiffs (diff D.hooks {} n y z) → (diff D.hooks {} n x z).exc = none →
    NoDiffs (diff D.hooks {} n x z)

namespace Ex

/-- Entries with two lists of names. -/
def clsEntries (c : String) : Ident.ICls :=
  if c = "Entry" then { props := [{ name := "en", types := [.cls "Names"] }, { name := "de", types := [.cls "Names"] }] }
  else if c = "Entries" then { coll := some (.list, .one (.cls "Entry")) } else cls c

/-- The schema with both. -/
def schemaEntries : Schema := { schema with cls := clsEntries }

/-- The default methods. -/
def setupEntries : Setup := { setup {} with S := schemaEntries }

/-- A list of names. -/
def names (l : List String) : Val := .lcoll "Names" (l.map Val.str)

/-- A list with one entry. -/
def entries (l m : List String) : Val := .lcoll "Entries" [.rcd "Entry" [("en", names l), ("de", names m)]]

theorem real_names (l : List String) : Real schemaEntries (names l) :=
  .lcoll ⟨⟨_, rfl⟩, fun kd n h => by simp [schemaEntries, clsEntries, cls] at h⟩ (fun x hx => by
    obtain ⟨s, _, rfl⟩ := List.mem_map.1 hx
    exact .atom _)

theorem real_entries (l m : List String) : Real schemaEntries (entries l m) := by
  refine .lcoll ⟨⟨_, rfl⟩, fun kd n h x hx => ?_⟩ fun x hx => ?_
  · simp only [List.mem_singleton] at hx
    subst hx
    simp [clsOf]
  · simp only [List.mem_singleton] at hx
    subst hx
    refine .rcd (by simp [Ident.Proper, schemaEntries, clsEntries]) (by simp [schemaEntries, clsEntries]) ?_
    intro x hx
    simp only [List.mem_cons, List.not_mem_nil, or_false] at hx
    rcases hx with rfl | rfl <;> exact real_names _

theorem typed_entries (l m : List String) : TypedOnly (entries l m) := by
  have hn : ∀ {l : List String} {w : Val}, Sub w (names l) → (∀ xs, w ≠ .list xs) ∧ ∀ xs, w ≠ .dict xs := by
    intro l w hw
    cases hw with
    | self => simp [names]
    | lcoll hx hw =>
      obtain ⟨s, _, rfl⟩ := List.mem_map.1 hx
      cases hw
      simp [Val.str]
  intro w hw
  cases hw with
  | self => simp [entries]
  | lcoll hx hw =>
    simp only [List.mem_singleton] at hx
    subst hx
    cases hw with
    | self => simp
    | rcd hx hw =>
      simp only [List.mem_cons, List.not_mem_nil, or_false, Prod.mk.injEq] at hx
      rcases hx with ⟨_, rfl⟩ | ⟨_, rfl⟩ <;> exact hn hw

theorem oneClassEntries : OneClassPerItem schemaEntries := by
  have key : ∀ c k it, (schemaEntries.cls c).coll = some (k, it) → (c = "People" ∧ it = .one (.cls "Person")) ∨
      (c = "Words" ∧ it = .one (.cls "Word")) ∨ (c = "Names" ∧ it = .one (.other 1)) ∨
      (c = "Entries" ∧ it = .one (.cls "Entry")) := by
    intro c k it h
    have h : (clsEntries c).coll = some (k, it) := h
    unfold clsEntries at h
    split at h
    · simp at h
    · split at h
      · rename_i hc; simp at h; simp [hc, h.2]
      · unfold cls at h
        split at h <;> simp at h <;> simp [h.2]
  rintro c d it ⟨k, hc⟩ ⟨l, hd⟩
  rcases key c k it hc with ⟨rfl, rfl⟩ | ⟨rfl, rfl⟩ | ⟨rfl, rfl⟩ | ⟨rfl, rfl⟩ <;>
    rcases key d l _ hd with ⟨rfl, h⟩ | ⟨rfl, h⟩ | ⟨rfl, h⟩ | ⟨rfl, h⟩ <;> simp_all

end Ex

/-- With the default options it is false as well.  Records whose lists are in another order have other identities and
are only compared if fuzzy matching pairs them, for which they must have one list in the same order. -/
theorem C116_default_violated : ¬ C116_default_statement := by
  intro h
  obtain ⟨hT, h1⟩ := C116_typed Ex.setupEntries (.none fun _ => rfl) Ex.oneClassEntries
  have := h Ex.setupEntries _ 9 (Ex.entries ["a", "b"] ["a", "b"]) (Ex.entries ["a", "b"] ["b", "a"])
    (Ex.entries ["b", "a"] ["b", "a"]) (fun _ => rfl) (fun _ _ => List.Perm.refl _)
    ⟨Ex.laws.refl, Ex.laws.symm, Ex.laws.trans⟩ hT h1 (Ex.real_entries _ _) (Ex.real_entries _ _)
    (Ex.real_entries _ _) ⟨Ex.real_entries _ _, Ex.typed_entries _ _⟩ ⟨Ex.real_entries _ _, Ex.typed_entries _ _⟩
    ⟨Ex.real_entries _ _, Ex.typed_entries _ _⟩ (by simp [Ex.entries, tagOf]) rfl rfl
    ⟨by decide +kernel, by decide +kernel⟩ ⟨by decide +kernel, by decide +kernel⟩ (by decide +kernel)
  exact absurd this.2 (by decide +kernel)

/-! ## Example -/

namespace Ex

theorem oneClass : OneClassPerItem schema := by
  have key : ∀ c k it, (schema.cls c).coll = some (k, it) → (c = "People" ∧ it = .one (.cls "Person")) ∨
      (c = "Words" ∧ it = .one (.cls "Word")) ∨ (c = "Names" ∧ it = .one (.other 1)) := by
    intro c k it h
    have h : (cls c).coll = some (k, it) := h
    unfold cls at h
    split at h <;> simp at h <;> simp [h.2]
  rintro c d it ⟨k, hc⟩ ⟨l, hd⟩
  rcases key c k it hc with ⟨rfl, rfl⟩ | ⟨rfl, rfl⟩ | ⟨rfl, rfl⟩ <;>
    rcases key d l _ hd with ⟨rfl, h⟩ | ⟨rfl, h⟩ | ⟨rfl, h⟩ <;> simp_all

/-- Three documents that meet the hypotheses of `C116_partial`, with the family of `C116_typed`. -/
example : NoDiffs (diff (hooks { ignoreCase := true }) { fuzzyMatch := false } 9
      (docWords [word "red" "en", word "rot" "de"]) (docWords [word "Rot" "de", word "Red" "en"])) ∧
    NoDiffs (diff (hooks { ignoreCase := true }) { fuzzyMatch := false } 9
      (docWords [word "Rot" "de", word "Red" "en"]) (docWords [word "RED" "EN", word "ROT" "DE"])) ∧
    Closed (hooks {}) (fun v => Real schema v ∧ TypedOnly v) ∧ OneType schema (fun v => Real schema v ∧ TypedOnly v) :=
  ⟨⟨by decide +kernel, by decide +kernel⟩, ⟨by decide +kernel, by decide +kernel⟩,
    (C116_typed (setup {}) (.none fun _ => rfl) oneClass).1, (C116_typed (setup {}) (.none fun _ => rfl) oneClass).2⟩

/-- The same with a `compare_as` function: names of people are compared by their length, so that Ann and Bob, who have
the same `id`, are not told apart, and Anna is. -/
example : Spec.CompareFlat setupLengths ∧
    NoDiffs (diff setupLengths.hooks { fuzzyMatch := false } 9 (person 1 "Ann") (person 1 "Bob")) ∧
    ¬ NoDiffs (diff setupLengths.hooks { fuzzyMatch := false } 9 (person 1 "Ann") (person 1 "Anna")) ∧
    Closed setupLengths.hooks (fun v => Real schema v ∧ TypedOnly v) :=
  ⟨flatLengths, ⟨by decide +kernel, by decide +kernel⟩, fun h => absurd h.2 (by decide +kernel),
    (C116_typed setupLengths flatLengths oneClass).1⟩

/-- With `recurse` the order of the words matters, and the rest is as before. -/
example : NoDiffs (diff (hooks { ignoreCase := true }) { recurse := true } 9
      (docWords [word "red" "en", word "rot" "de"]) (docWords [word "Red" "en", word "Rot" "de"])) ∧
    NoDiffs (diff (hooks { ignoreCase := true }) { recurse := true } 9
      (docWords [word "Red" "en", word "Rot" "de"]) (docWords [word "RED" "EN", word "ROT" "DE"])) ∧
    ¬ NoDiffs (diff (hooks { ignoreCase := true }) { recurse := true } 9
      (docWords [word "red" "en", word "rot" "de"]) (docWords [word "Rot" "de", word "Red" "en"])) :=
  ⟨⟨by decide +kernel, by decide +kernel⟩, ⟨by decide +kernel, by decide +kernel⟩,
    fun h => absurd h.2 (by decide +kernel)⟩

end Ex

end Normalize.Diff
