import Verif.Spec.DiffEqual
import Verif.Props.DiffTrans
import Verif.Lemmas.DiffRecurse
import Verif.Lemmas.IdentityHash

/-!
# C117: equal objects have no differences
-/

namespace Normalize.Diff
open Ident (IProp Schema readAttr veq Sub AtomLaws Unmixed SameShape SameRead)
open Spec (ComparePure Real PlainSlots Items Members Labels nth Agree Closed Compared NoDiffs ExactAtoms IdsFollow IsAtom FlatRecord
  FlatItems AgreeAt places)

variable {o : Opts}

/-- C117: objects that are equal (`==`) have no differences. -/
def C117_statement : Prop :=
  ∀ (D : Setup) (n : Nat) (x y : Val), (∀ p, D.compareAs p = none) → (∀ v, D.compareItemAs v = none) → OrdOK D.hooks →
    AtomLaws D.S → ExactAtoms D.S → Real D.S x → Real D.S y → tagOf x ≠ none → tagOf x = tagOf y →
    veq D.S x y = .ok true → (diff D.hooks {} n x y).exc = none → NoDiffs (diff D.hooks {} n x y)

/-- Two entries with the same key and equal values of the same shape. -/
structure Twins (S : Schema) (T : Val → Prop) (e f : Comp × Val) : Prop where
  key : e.1 = f.1
  eq : veq S e.2 f.2 = .ok true
  unmixed : Unmixed e.2 f.2
  shape : SameShape e.2 f.2
  left : T e.2
  right : T f.2

theorem forall₂_of_get {α β : Type} {R : α → β → Prop} : ∀ {xs : List α} {ys : List β}, xs.length = ys.length →
    (∀ (i : Nat) x y, xs[i]? = some x → ys[i]? = some y → R x y) → List.Forall₂ R xs ys
  | [], [], _, _ => .nil
  | x :: xs, y :: ys, hl, h => .cons (h 0 x y rfl rfl) (forall₂_of_get (by simpa using hl)
      (fun i a b ha hb => h (i + 1) a b (by simpa using ha) (by simpa using hb)))

theorem twins_list {S : Schema} {T : Val → Prop} {xs ys : List Val}
    (h : List.Forall₂ (fun x y => veq S x y = .ok true) xs ys)
    (hu : ∀ (i : Nat) x y, xs[i]? = some x → ys[i]? = some y → Unmixed x y ∧ SameShape x y)
    (hx : ∀ x ∈ xs, T x) (hy : ∀ y ∈ ys, T y) : List.Forall₂ (Twins S T) (Ident.enum xs) (Ident.enum ys) := by
  refine forall₂_of_get (by simp [Ident.enum, h.length_eq]) ?_
  intro i e f he hf
  simp only [Ident.enum, List.getElem?_map, List.getElem?_zipIdx, Option.map_eq_some_iff, Prod.exists] at he hf
  obtain ⟨x, j, ⟨_, h1, h2⟩, rfl⟩ := he
  obtain ⟨y, k, ⟨_, g1, g2⟩, rfl⟩ := hf
  simp only [Prod.mk.injEq] at h2 g2
  obtain ⟨rfl, rfl⟩ := h2
  obtain ⟨rfl, rfl⟩ := g2
  exact ⟨rfl, Ident.forall₂_get h h1 g1, (hu i _ _ h1 g1).1, (hu i _ _ h1 g1).2, hx _ (List.mem_of_getElem? h1),
    hy _ (List.mem_of_getElem? g1)⟩

theorem twins_dict {S : Schema} {T : Val → Prop} {xs ys : List (Comp × Val)} (h : Ident.DictEq S xs ys)
    (hk : xs.map (·.1) = ys.map (·.1)) (hn : (xs.map (·.1)).Nodup)
    (hu : ∀ k x y, alookup xs k = some x → alookup ys k = some y → Unmixed x y ∧ SameShape x y)
    (hx : ∀ x ∈ xs, T x.2) (hy : ∀ y ∈ ys, T y.2) : List.Forall₂ (Twins S T) xs ys := by
  refine forall₂_of_get h.1 ?_
  intro i e f he hf
  have hke : e.1 = f.1 := by
    have h1 : (xs.map (·.1))[i]? = some e.1 := by simp [he]
    have h2 : (ys.map (·.1))[i]? = some f.1 := by simp [hf]
    rw [hk, h2] at h1
    simpa using h1.symm
  have me := List.mem_of_getElem? he
  have mf := List.mem_of_getElem? hf
  have hn' := hk ▸ hn
  have ae := Ident.alookup_of_mem hn me
  have af := Ident.alookup_of_mem hn' mf
  have hu' := hu e.1 e.2 f.2 ae (hke ▸ af)
  exact ⟨hke, h.get hn' (k := e.1) me (hke ▸ mf), hu'.1, hu'.2, hx e me, hy f mf⟩

theorem labels_twins {α ι : Type} {R : α → α → Prop} {f g : α → Except Exc ι} {keep : ι → Bool} {xs ys : List α}
    (h : List.Forall₂ R xs ys) (hf : ∀ x ∈ xs, ∀ y ∈ ys, R x y → ∃ i, f x = .ok i ∧ g y = .ok i) :
    ∃ la lb, Labels f keep xs la ∧ Labels g keep ys lb ∧ List.Forall₂ (fun a b => a.1 = b.1 ∧ R a.2 b.2) la lb := by
  induction h with
  | nil => exact ⟨[], [], .nil, .nil, .nil⟩
  | @cons x y xs ys hxy _ ih =>
    obtain ⟨la, lb, h1, h2, h3⟩ := ih (fun a ha b hb => hf a (by simp [ha]) b (by simp [hb]))
    obtain ⟨i, g1, g2⟩ := hf x (by simp) y (by simp) hxy
    cases hk : keep i with
    | true => exact ⟨_, _, .keep g1 hk h1, .keep g2 hk h2, .cons ⟨rfl, hxy⟩ h3⟩
    | false => exact ⟨_, _, .skip g1 hk h1, .skip g2 hk h2, h3⟩

theorem labels_fst {ι α : Type} {R : α → α → Prop} {la lb : List (ι × α)}
    (h : List.Forall₂ (fun a b => a.1 = b.1 ∧ R a.2 b.2) la lb) : la.map (·.1) = lb.map (·.1) := by
  induction h with
  | nil => rfl
  | cons h _ ih => simp [h.1, ih]

theorem nth_twins {ι α : Type} [DecidableEq ι] {R : α → α → Prop} {la lb : List (ι × α)}
    (h : List.Forall₂ (fun a b => a.1 = b.1 ∧ R a.2 b.2) la lb) {j : ι} {m : Nat} {u w : α}
    (hu : nth la j m = some u) (hw : nth lb j m = some w) : R u w := by
  have : List.Forall₂ R ((la.filter (fun e => decide (e.1 = j))).map (·.2)) ((lb.filter (fun e => decide (e.1 = j))).map (·.2)) := by
    clear hu hw
    induction h with
    | nil => exact .nil
    | @cons a b la lb hab _ ih =>
      simp only [List.filter_cons, ← hab.1]
      split
      · exact .cons hab.2 ih
      · exact ih
  exact Ident.forall₂_get this hu hw

theorem tag_of_equal {S : Schema} {u w : Val} (h : veq S u w = .ok true) (hu : Unmixed u w) (hs : SameShape u w) :
    tagOf u = tagOf w := by
  have := Ident.typeOf_eq h hu hs
  cases u <;> cases w <;> simp_all [Ident.typeOf, tagOf, veq, Ident.atomVs]

/-- What is needed of the members of two containers for the containers to agree. -/
structure Paired (D : Setup) (x y : Val) (xs ys : List (Comp × Val)) (R : Comp × Val → Comp × Val → Prop) : Prop where
  kinds : ∀ c, clsOf x = some c → ∃ k t, (D.S.cls c).coll = some (k, .one t)
  records : ∀ c k n, clsOf x = some c → (D.S.cls c).coll = some (k, .one (.cls n)) → ∀ e ∈ xs, ∀ f ∈ ys, R e f →
    ∃ i, D.hooks.recId none none e.2 = .ok i ∧ D.hooks.recId none none f.2 = .ok i
  items : (∀ c, clsOf x = some c → ∃ kd t, (D.S.cls c).coll = some (kd, .one (.other t))) → ∀ e ∈ xs, ∀ f ∈ ys, R e f →
    ∃ i, D.hooks.itemId (some x) e.2 = .ok i ∧ D.hooks.itemId (some y) f.2 = .ok i
  key : ∀ e f, R e f → e.1 = f.1
  tag : ∀ e f, R e f → tagOf e.2 = tagOf f.2

/-- Containers with members that correspond agree. -/
theorem agree_rel (D : Setup) {x y : Val} {xs ys : List (Comp × Val)} {R : Comp × Val → Comp × Val → Prop}
    (hP : Paired D x y xs ys R) (htag : tagOf x = tagOf y) (hxs : tuplesOf (some x) = .ok xs)
    (hys : tuplesOf (some y) = .ok ys) (h : List.Forall₂ R xs ys)
    (ih : ∀ e ∈ xs, ∀ f ∈ ys, R e f → Agree D.hooks o (some e.2) (some f.2)) : Agree D.hooks o (some x) (some y) := by
  by_cases hrec : ∃ c k n, clsOf x = some c ∧ (D.S.cls c).coll = some (k, .one (.cls n))
  · obtain ⟨c, k, n, hc, hcoll⟩ := hrec
    obtain ⟨la, lb, h1, h2, h3⟩ := labels_twins (f := fun kv : Comp × Val => D.hooks.recId none none kv.2)
      (g := fun kv : Comp × Val => D.hooks.recId none none kv.2) (keep := fun i => !(o.ignoreEmptyItems && idEmpty D.hooks i)) h
      (hP.records c k n hc hcoll)
    refine .records hc ((clsOf_tag htag).symm.trans hc) hcoll ⟨xs, hxs, h1⟩ ⟨ys, hys, h2⟩ (by rw [labels_fst h3]) ?_ ?_
    · intro j m u w hu hw
      exact hP.tag _ _ (nth_twins h3 hu hw)
    · intro j m u w hu hw
      exact ih u (labels_mem h1 (nth_mem hu)).1 w (labels_mem h2 (nth_mem hw)).1 (nth_twins h3 hu hw)
  · have hk : ∀ c, clsOf x = some c → ∃ kd t, (D.S.cls c).coll = some (kd, .one (.other t)) := by
      intro c hc
      obtain ⟨k, t, hcoll⟩ := hP.kinds c hc
      cases t with
      | cls n => exact absurd ⟨c, k, n, hc, hcoll⟩ hrec
      | other t => exact ⟨k, t, hcoll⟩
    obtain ⟨la, lb, h1, h2, h3⟩ := labels_twins (f := fun kv : Comp × Val => D.hooks.itemId (some x) kv.2)
      (g := fun kv : Comp × Val => D.hooks.itemId (some y) kv.2) (keep := fun i => i.isSome || !o.ignoreEmptySlots) h
      (hP.items hk)
    exact .simple htag hk ⟨xs, hxs, h1⟩ ⟨ys, hys, h2⟩ (by rw [labels_fst h3])

/-- Containers with members that correspond agree place by place. -/
theorem agree_rel_at (D : Setup) {x y : Val} {xs ys : List (Comp × Val)} {R : Comp × Val → Comp × Val → Prop}
    (hx : Real D.S x) (hP : Paired D x y xs ys R) (htag : tagOf x = tagOf y) (hxs : tuplesOf (some x) = .ok xs)
    (hys : tuplesOf (some y) = .ok ys) (h : List.Forall₂ R xs ys)
    (ih : ∀ e ∈ xs, ∀ f ∈ ys, R e f → AgreeAt D.hooks o (some e.2) (some f.2)) :
    AgreeAt D.hooks o (some x) (some y) := by
  by_cases hrec : ∃ c k n, clsOf x = some c ∧ (D.S.cls c).coll = some (k, .one (.cls n))
  · obtain ⟨c, k, n, hc, hcoll⟩ := hrec
    obtain ⟨la, lb, h1, h2, h3⟩ := labels_twins (f := fun kv : Comp × Val => D.hooks.recId none none kv.2)
      (g := fun kv : Comp × Val => D.hooks.recId none none kv.2) (keep := fun i => !(o.ignoreEmptyItems && idEmpty D.hooks i)) h
      (hP.records c k n hc hcoll)
    have hpl : places la = places lb := by
      clear ih h1 h2
      induction h3 with
      | nil => rfl
      | cons h _ ih => simp only [places, List.map_cons, List.cons.injEq] at ih ⊢; exact ⟨hP.key _ _ h.2, ih⟩
    have hnd : (places la).Nodup := places_nodup (H := D.hooks) (o := o) hx ⟨xs, hxs, h1⟩
    have htw : ∀ u ∈ la, ∀ w ∈ lb, u.2.1 = w.2.1 → R u.2 w.2 := by
      clear ih h1 h2
      induction h3 with
      | nil => simp
      | @cons a b la lb hab hrest ihl =>
        simp only [places, List.map_cons, List.cons.injEq, List.nodup_cons] at hpl hnd
        intro u hu w hw hk
        simp only [List.mem_cons] at hu hw
        rcases hu with rfl | hu
        · rcases hw with rfl | hw
          · exact hab.2
          · exact absurd (hpl.2 ▸ hk ▸ List.mem_map_of_mem hw : u.2.1 ∈ la.map (·.2.1)) hnd.1
        · rcases hw with rfl | hw
          · exact absurd (hpl.1 ▸ hk ▸ List.mem_map_of_mem hu : a.2.1 ∈ la.map (·.2.1)) hnd.1
          · exact ihl hpl.2 hnd.2 u hu w hw hk
    refine .records hc ((clsOf_tag htag).symm.trans hc) hcoll ⟨xs, hxs, h1⟩ ⟨ys, hys, h2⟩ (by simp [hpl]) ?_ ?_
    · intro u hu w hw hk
      exact hP.tag _ _ (htw u hu w hw hk)
    · intro u hu w hw hk
      exact ih u.2 (labels_mem h1 hu).1 w.2 (labels_mem h2 hw).1 (htw u hu w hw hk)
  · have hk : ∀ c, clsOf x = some c → ∃ kd t, (D.S.cls c).coll = some (kd, .one (.other t)) := by
      intro c hc
      obtain ⟨k, t, hcoll⟩ := hP.kinds c hc
      cases t with
      | cls n => exact absurd ⟨c, k, n, hc, hcoll⟩ hrec
      | other t => exact ⟨k, t, hcoll⟩
    obtain ⟨la, lb, h1, h2, h3⟩ := labels_twins (f := fun kv : Comp × Val => D.hooks.itemId (some x) kv.2)
      (g := fun kv : Comp × Val => D.hooks.itemId (some y) kv.2) (keep := fun i => i.isSome || !o.ignoreEmptySlots) h
      (hP.items hk)
    exact .simple htag hk ⟨xs, hxs, h1⟩ ⟨ys, hys, h2⟩ (by rw [labels_fst h3])

theorem paired_twins (D : Setup) {T : Val → Prop} (hid : IdsFollow D.hooks T) {x y : Val} {xs ys : List (Comp × Val)}
    (tx : T x) (ty : T y) (hxs : tuplesOf (some x) = .ok xs) : Paired D x y xs ys (Twins D.S T) where
  kinds c hc := by
    rcases hid.kinds x c tx hc with ⟨s, rfl⟩ | h
    · simp [tuplesOf] at hxs
    · exact h
  records c k n hc hcoll e he f _ ht := hid.records x c k n e.2 f.2 tx hc hcoll ⟨e.1, xs, hxs, he⟩ ht.left ht.right ht.eq
  items hk e he f _ ht := hid.items x y e.2 f.2 tx ty ⟨e.1, xs, hxs, he⟩ hk ht.left ht.right ht.eq
  key _ _ h := h.key
  tag _ _ h := tag_of_equal h.eq h.unmixed h.shape

theorem normSlot_some (D : Setup) (hc : ∀ p, D.compareAs p = none) (v : Val) (p : IProp) (obj : Option Val) :
    D.hooks.normSlot (some v) p obj = .ok (normalizeVal D.U D.text (some v)) := by
  show normalizeObjectSlot D (some v) p obj = _
  simp [normalizeObjectSlot, hc p]

/-- What a value of this property is compared as, whatever record it is in. -/
def asValue (D : Setup) (p : IProp) (v : Val) : Option Val :=
  match D.hooks.normSlot (some v) p none with
  | .ok w => w
  | .error _ => none

theorem asValue_is (D : Setup) (hc : ComparePure D) (v : Val) (p : IProp) : ∃ w, asValue D p v = normalizeVal D.U D.text (some w) ∧
    (w = v ∨ ((∃ a, v = .atom a) ∧ ∃ a, w = .atom a)) ∧
    ∀ obj, D.hooks.normSlot (some v) p obj = .ok (normalizeVal D.U D.text (some w)) := by
  have hs : ∀ obj, D.hooks.normSlot (some v) p obj = normalizeObjectSlot D (some v) p obj := fun _ => rfl
  cases hf : D.compareAs p with
  | none => exact ⟨v, by simp [asValue, hs, normalizeObjectSlot, hf], .inl rfl, by simp [hs, normalizeObjectSlot, hf]⟩
  | some f =>
    obtain ⟨g, hg, hx⟩ := hc p f hf
    exact ⟨g v, by simp [asValue, hs, normalizeObjectSlot, hf, hg], hx v, by simp [hs, normalizeObjectSlot, hf, hg]⟩

theorem normSlot_pure (D : Setup) (hc : ComparePure D) (v : Val) (p : IProp) (obj : Option Val) :
    D.hooks.normSlot (some v) p obj = .ok (asValue D p v) := by
  obtain ⟨w, h1, _, h3⟩ := asValue_is D hc v p
  rw [h3, h1]

theorem normalizeVal_atom {U : Unicode} {t : TextOpts} {a : Atom} {w : Val}
    (h : normalizeVal U t (some (.atom a)) = some w) : ∃ b, w = .atom b := by
  simp only [normalizeVal] at h
  split at h
  · simp at h
  · simp only [Option.some.injEq] at h
    subst h
    cases a <;> exact ⟨_, rfl⟩

theorem asValue_atom (D : Setup) (hc : ComparePure D) {p : IProp} {a : Atom} {w : Val} (h : asValue D p (.atom a) = some w) :
    ∃ b, w = .atom b := by
  obtain ⟨u, h1, h2, _⟩ := asValue_is D hc (.atom a) p
  rw [h1] at h
  rcases h2 with rfl | ⟨_, b, rfl⟩
  · exact normalizeVal_atom h
  · exact normalizeVal_atom h

theorem agree_atom (D : Setup) (hc : ComparePure D) (L : AtomLaws D.S) {A : Option Val → Option Val → Prop} (hU : A none none)
    (hE : ∀ a y, veq D.S (.atom a) y = .ok true → A (some (.atom a)) (some y)) (p : IProp) (a : Atom) :
    A (asValue D p (.atom a)) (asValue D p (.atom a)) := by
  cases h : asValue D p (.atom a) with
  | none => exact hU
  | some w =>
    obtain ⟨b, rfl⟩ := asValue_atom D hc h
    refine hE b _ ?_
    rw [Ident.veq_atom, L.refl]

theorem normalizeVal_comparable {U : Unicode} {t : TextOpts} {v : Val} (h : tagOf v ≠ none) :
    normalizeVal U t (some v) = some v := by
  cases v <;> first | exact absurd rfl h | simp [normalizeVal, valueIsEmpty, scrub]

theorem asValue_comparable (D : Setup) (hc : ComparePure D) {p : IProp} {v : Val} (h : tagOf v ≠ none) :
    asValue D p v = some v := by
  obtain ⟨u, h1, h2, _⟩ := asValue_is D hc v p
  rcases h2 with rfl | ⟨⟨a, rfl⟩, _⟩
  · rw [h1, normalizeVal_comparable h]
  · exact absurd rfl h

/-- A read that is no object without parts is what the slot holds. -/
theorem readAttr_part {S : Schema} {c nm : String} {s : List (String × Val)} {v : Val}
    (h : readAttr S (.rcd c s) nm = some v) (hv : tagOf v ≠ none) : alookup s nm = some v := by
  simp only [readAttr] at h
  split at h
  · rename_i w hw
    simpa [hw] using h
  · cases hu : Ident.unsetOf S c nm with
    | none => simp [hu] at h
    | some a =>
      simp only [hu, Option.map_some, Option.some.injEq] at h
      subst h
      exact absurd rfl hv

/-- Equal objects are related by any relation that is closed under the comparison of records and of containers whose
members are equal. -/
theorem related_of_equal (D : Setup) (hc : ComparePure D) (L : AtomLaws D.S) (hx : ExactAtoms D.S)
    (he : o.extraneous = false) {T : Val → Prop} (hT : Closed D.hooks T) (hTR : ∀ v, T v → Real D.S v)
    {A : Option Val → Option Val → Prop} (hU : A none none)
    (hE : ∀ a y, veq D.S (.atom a) y = .ok true → A (some (.atom a)) (some y))
    (hR : ∀ c s t (va vb : IProp → Option Val),
      (∀ p ∈ (D.S.cls c).props, Compared o p →
        D.hooks.normSlot (readAttr D.S (.rcd c s) p.name) p (some (.rcd c s)) = .ok (va p)) →
      (∀ p ∈ (D.S.cls c).props, Compared o p →
        D.hooks.normSlot (readAttr D.S (.rcd c t) p.name) p (some (.rcd c t)) = .ok (vb p)) →
      (∀ p ∈ (D.S.cls c).props, Compared o p → A (va p) (vb p)) → A (some (.rcd c s)) (some (.rcd c t)))
    (hM : ∀ x y xs ys, T x → T y → tagOf x = tagOf y → tuplesOf (some x) = .ok xs → tuplesOf (some y) = .ok ys →
      List.Forall₂ (Twins D.S T) xs ys →
      (∀ e ∈ xs, ∀ w, T e.2 → T w → veq D.S e.2 w = .ok true → Unmixed e.2 w → SameShape e.2 w →
        A (some e.2) (some w)) → A (some x) (some y)) :
    ∀ x y, T x → T y → veq D.S x y = .ok true → Unmixed x y → SameShape x y → A (some x) (some y) := by
  refine Val.ind ?_ ?_ ?_ ?_ ?_ ?_
  · intro a y tx ty h _ _
    exact hE a y h
  · intro xs ih y tx ty h hu hs
    have htag := tag_of_equal h hu hs
    cases y <;> simp [tagOf] at htag
    rename_i ys
    refine hM _ _ _ _ tx ty rfl rfl rfl (twins_list (Ident.veq_list.1 h)
      (fun i x y h1 h2 => ⟨hu.list h1 h2, hs.list h1 h2⟩) (fun x hx => ?_) (fun y hy => ?_)) ?_
    · obtain ⟨k, hk⟩ := List.mem_iff_getElem?.1 hx
      exact hT.member _ _ _ x tx rfl (enum_mem hk)
    · obtain ⟨k, hk⟩ := List.mem_iff_getElem?.1 hy
      exact hT.member _ _ _ y ty rfl (enum_mem hk)
    · intro e he w t1 t2
      exact ih e.2 (enum_mem_list (k := e.1) he) w t1 t2
  · intro xs ih y tx ty h hu hs
    have htag := tag_of_equal h hu hs
    cases y <;> simp [tagOf] at htag
    rename_i ys
    refine hM _ _ _ _ tx ty rfl rfl rfl (twins_dict (Ident.veq_dict.1 h)
      (by_contra fun hk => hs (.here hk)) ((hTR _ tx).1 _ (.self _))
      (fun k x y h1 h2 => ⟨hu.dict h1 h2, hs.dict h1 h2⟩) (fun x hx => hT.member _ _ x.1 x.2 tx rfl hx)
      (fun y hy => hT.member _ _ y.1 y.2 ty rfl hy)) ?_
    intro e he w t1 t2
    exact ih e he w t1 t2
  · intro c s ih y tx ty h hu hs
    cases y with
    | rcd d t =>
      obtain ⟨rfl, hp⟩ := Ident.veq_rcd.1 h
      refine hR c s t (fun p => (readAttr D.S (.rcd c s) p.name).bind (fun v => asValue D p v))
        (fun p => (readAttr D.S (.rcd c t) p.name).bind (fun v => asValue D p v)) ?_ ?_ ?_
      · intro p _ _
        show D.hooks.normSlot (readAttr D.S _ _) _ _ = _
        cases readAttr D.S (.rcd c s) p.name with
        | none => rfl
        | some v => exact normSlot_pure D hc v p _
      · intro p _ _
        show D.hooks.normSlot (readAttr D.S _ _) _ _ = _
        cases readAttr D.S (.rcd c t) p.name with
        | none => rfl
        | some v => exact normSlot_pure D hc v p _
      · intro p hpm hcm
        have hsr := hp p hpm (hcm he)
        cases h1 : readAttr D.S (.rcd c s) p.name with
        | none =>
          cases h2 : readAttr D.S (.rcd c t) p.name with
          | none => exact hU
          | some w => rw [h1, h2] at hsr; exact hsr.elim
        | some v =>
          cases h2 : readAttr D.S (.rcd c t) p.name with
          | none => rw [h1, h2] at hsr; exact hsr.elim
          | some w =>
            rw [h1, h2] at hsr
            have hsr : veq D.S v w = .ok true := hsr
            by_cases hv : tagOf v = none
            · cases v <;> simp [tagOf] at hv
              obtain ⟨b, rfl, hb⟩ := Ident.veq_atom_left hsr
              rw [← hx _ _ hb]
              exact agree_atom D hc L hU hE p _
            · have hw : tagOf w ≠ none := by
                intro hw
                cases w <;> simp [tagOf] at hw
                obtain ⟨a, rfl, _⟩ := Ident.veq_atom_right hsr
                exact hv rfl
              have t1 : T v := hT.slot _ p v tx (by
                show D.hooks.normSlot (readAttr D.S _ _) _ _ = _
                rw [h1, normSlot_pure D hc, asValue_comparable D hc hv])
              have t2 : T w := hT.slot _ p w ty (by
                show D.hooks.normSlot (readAttr D.S _ _) _ _ = _
                rw [h2, normSlot_pure D hc, asValue_comparable D hc hw])
              have a1 := readAttr_part h1 hv
              have a2 := readAttr_part h2 hw
              have := ih _ (alookup_mem' a1) w t1 t2 hsr (hu.rcd a1 a2) (hs.rcd a1 a2)
              simpa [asValue_comparable D hc hv, asValue_comparable D hc hw] using this
    | _ => simp [veq] at h
  · intro c xs ih y tx ty h hu hs
    have htag := tag_of_equal h hu hs
    cases y with
    | lcoll d ys =>
      simp only [tagOf, Option.some.injEq, Tag.cls.injEq] at htag
      subst htag
      refine hM _ _ _ _ tx ty rfl rfl rfl (twins_list (Ident.veq_lcoll.1 h).2
        (fun i x y h1 h2 => ⟨hu.lcoll h1 h2, hs.lcoll h1 h2⟩) (fun x hx => ?_) (fun y hy => ?_)) ?_
      · obtain ⟨k, hk⟩ := List.mem_iff_getElem?.1 hx
        exact hT.member _ _ _ x tx rfl (enum_mem hk)
      · obtain ⟨k, hk⟩ := List.mem_iff_getElem?.1 hy
        exact hT.member _ _ _ y ty rfl (enum_mem hk)
      · intro e he w t1 t2
        exact ih e.2 (enum_mem_list (k := e.1) he) w t1 t2
    | list => exact absurd (.here trivial) hu
    | _ => simp [veq] at h
  · intro c xs ih y tx ty h hu hs
    have htag := tag_of_equal h hu hs
    cases y with
    | dcoll d ys =>
      simp only [tagOf, Option.some.injEq, Tag.cls.injEq] at htag
      subst htag
      refine hM _ _ _ _ tx ty rfl rfl rfl (twins_dict (Ident.veq_dcoll.1 h).2
        (by_contra fun hk => hs (.here (.inr hk))) ((hTR _ tx).1 _ (.self _))
        (fun k x y h1 h2 => ⟨hu.dcoll h1 h2, hs.dcoll h1 h2⟩) (fun x hx => hT.member _ _ x.1 x.2 tx rfl hx)
        (fun y hy => hT.member _ _ y.1 y.2 ty rfl hy)) ?_
      intro e he w t1 t2
      exact ih e he w t1 t2
    | dict => exact absurd (.here trivial) hu
    | _ => simp [veq] at h

theorem agree_of_equal (D : Setup) (hc : ComparePure D) (L : AtomLaws D.S) (hx : ExactAtoms D.S)
    (he : o.extraneous = false) {T : Val → Prop} (hT : Closed D.hooks T) (hTR : ∀ v, T v → Real D.S v)
    (hid : IdsFollow D.hooks T) : ∀ x y, T x → T y → veq D.S x y = .ok true → Unmixed x y → SameShape x y →
      Agree D.hooks o (some x) (some y) :=
  related_of_equal D hc L hx he hT hTR .unset (fun _ _ h => .equal (.inl rfl) h) (fun _ _ _ va vb h1 h2 h3 => .record va vb h1 h2 h3)
    (fun _ _ _ _ tx ty ht h1 h2 h ih => agree_rel D (paired_twins D hid tx ty h1) ht h1 h2 h
      (fun e he f _ h => ih e he f.2 h.left h.right h.eq h.unmixed h.shape))

/-- **C117 (what holds).** Equal objects have no differences if dicts have their keys in the same order and collections
the same class on both sides, no list or dict is next to a typed collection, and equal members have equal
identities (see `C117_flat`). -/
theorem C117_partial (D : Setup) (hc : ComparePure D) (ho : OrdOK D.hooks) (L : AtomLaws D.S)
    (ha : ExactAtoms D.S) (hd : o.duckType = false) (hf : o.compareFilter = none)
    (he : o.extraneous = false) (T : Val → Prop) (hT : Closed D.hooks T) (hTR : ∀ v, T v → Real D.S v)
    (hid : IdsFollow D.hooks T) (n : Nat) (x y : Val) (tx : T x) (ty : T y) (hcx : tagOf x ≠ none)
    (h : veq D.S x y = .ok true) (hu : Unmixed x y) (hs : SameShape x y) :
    ∀ d ∈ (diff D.hooks o n x y).out, d.kind = .noChange ∨ d.kind = .moved := by
  cases hr : o.recurse with
  | false =>
    exact C39_sound (std_default D hc.flat ho hd hf hr) n x y (hTR x tx) (hTR y ty) hcx (tag_of_equal h hu hs)
      (agree_of_equal D hc L ha he hT hTR hid x y tx ty h hu hs)
  | true =>
    have hcx' : comparable x = true := by
      cases h : tagOf x with
      | none => exact absurd h hcx
      | some g => simp [comparable, h]
    exact (calm_of_agree_at (deep_default D hc.flat ho hd hf hr) (related_of_equal D hc L ha he hT hTR .unset
      (fun _ _ h => .equal (.inl rfl) h) (fun _ _ _ va vb h1 h2 h3 => .record va vb h1 h2 h3)
      (fun _ _ _ _ tx ty ht h1 h2 h ih => agree_rel_at D (hTR _ tx) (paired_twins D hid tx ty h1) ht h1 h2 h
        (fun e he f _ h => ih e he f.2 h.left h.right h.eq h.unmixed h.shape)) x y tx ty h hu hs) n [] []
      (onO_some (hTR x tx)) (onO_some (hTR y ty))).2
      (by intro u w hu' hw; simp at hu' hw; subst hu' hw; exact ⟨hcx', tag_of_equal h hu hs⟩) rfl rfl

/-- A property of all parts of an object, if values without parts have it, is not left by comparisons. -/
theorem closed_parts (D : Setup) (hc : Spec.CompareFlat D) (P : Val → Prop) (hP : ∀ a, P (.atom a)) :
    Closed D.hooks (fun v => Real D.S v ∧ ∀ w, Sub w v → P w) := by
  have hcl := closed_default D hc
  refine ⟨fun x p v hx h => ⟨hcl.slot x p v hx.1 h, ?_⟩, fun p v h => ⟨hcl.unset p v h, ?_⟩,
    fun x xs k v hx h hm => ⟨hcl.member x xs k v hx.1 h hm, fun w hw => hx.2 w (sub_member h hm w hw)⟩⟩
  · cases hr : readAttr D.S x p.name with
    | none =>
      have h' : D.hooks.normSlot (readAttr D.S x p.name) p (some x) = .ok (some v) := h
      rw [hr] at h'
      have h2 : (Except.ok none : Except Exc (Option Val)) = .ok (some v) := h'
      simp at h2
    | some w =>
      have h' : D.hooks.normSlot (readAttr D.S x p.name) p (some x) = .ok (some v) := h
      rw [hr] at h'
      have hv := normSlot_flat hc h'
      cases w with
      | atom a =>
        have : ∃ b, v = .atom b := by
          rcases hv with hv | hv
          · rw [hv]
            cases a <;> exact ⟨_, rfl⟩
          · exact hv.2
        obtain ⟨b, rfl⟩ := this
        intro u hu
        cases hu
        exact hP b
      | _ =>
        have hv : v = _ := hv.resolve_right (by rintro ⟨⟨_, h⟩, _⟩; simp at h)
        subst hv
        exact fun u hu => hx.2 u (sub_readAttr hr (by simp [tagOf]) u hu)
  · have h2 : (Except.ok none : Except Exc (Option Val)) = .ok (some v) := h
    simp at h2

/-- The identity of a record depends only on what its identifying properties read as. -/
theorem rid_reads (D : Setup) (hc : ComparePure D) (n : Nat) (c : String) (a b : Val)
    (hcoll : (D.S.cls c).coll = none)
    (h : ∀ p, Ident.Identifies D.S c p → readAttr D.S a p.name = readAttr D.S b p.name) :
    Ident.rid D.S (some (slotHook D)) n (.cls c) none a = Ident.rid D.S (some (slotHook D)) n (.cls c) none b := by
  cases n with
  | zero => rfl
  | succ n =>
    have hk : ∀ v p obj, Ident.runHook (some (slotHook D)) v p obj =
        .ok ((asValue D p v).getD nothingVal) := by
      intro v p obj
      have : normalizeObjectSlot D (some v) p (some obj) = .ok (asValue D p v) := normSlot_pure D hc v p (some obj)
      simp [Ident.runHook, slotHook, this]
    simp only [Ident.rid, hcoll]
    congr 1
    refine mapE_congr (fun p hp => ?_)
    simp only [Ident.slotKey, hk, h p (Ident.idProps_identifies hp)]

theorem recId_flat (D : Setup) (hc : ComparePure D) (ha : ExactAtoms D.S) {u w : Val} (hu : FlatRecord D u)
    (h : veq D.S u w = .ok true) : ∃ i, D.hooks.recId none none u = .ok i ∧ D.hooks.recId none none w = .ok i := by
  obtain ⟨c, s, rfl, hcoll, hp, i, hi⟩ := hu
  cases w with
  | rcd d t =>
    obtain ⟨rfl, hr⟩ := Ident.veq_rcd.1 h
    refine ⟨i, hi, ?_⟩
    have := rid_reads D hc D.depth c (.rcd c s) (.rcd c t) hcoll (fun p hpi => by
      obtain ⟨h1, h2, h3⟩ := hp p hpi
      have := hr p h1 h2
      cases h4 : readAttr D.S (.rcd c s) p.name with
      | none =>
        cases h5 : readAttr D.S (.rcd c t) p.name with
        | none => rfl
        | some w => rw [h4, h5] at this; exact this.elim
      | some v =>
        cases h5 : readAttr D.S (.rcd c t) p.name with
        | none => rw [h4, h5] at this; exact this.elim
        | some w =>
          rw [h4, h5] at this
          obtain ⟨a, rfl⟩ := h3 v h4
          obtain ⟨b, rfl, hb⟩ := Ident.veq_atom_left this
          rw [ha _ _ hb])
    have hi : recordIdOf D none none (.rcd c s) = .ok i := hi
    show recordIdOf D none none (.rcd c t) = .ok i
    simpa [recordIdOf, Ident.typeOf, this] using hi
  | _ => simp [veq] at h

/-- Where items have no parts and records are identified by values without parts, identities follow equality. -/
theorem ids_flat (D : Setup) (hc : ComparePure D) (hi : ∀ v, D.compareItemAs v = none) (ha : ExactAtoms D.S) :
    IdsFollow D.hooks (fun v => Real D.S v ∧ ∀ w, Sub w v → FlatItems D w) := by
  refine ⟨?_, ?_, ?_⟩
  · intro v c hv hcv
    have := hv.2 v (.self v)
    cases v <;> simp [clsOf] at hcv <;> subst hcv
    · exact .inl ⟨_, rfl⟩
    · exact .inr this.1
    · exact .inr this.1
  · rintro x c kd n u w tx hcx hcoll ⟨k, xs, hxs, hm⟩ tu tw h
    refine recId_flat D hc ha ?_ h
    have := tx.2 x (.self x)
    cases x <;> simp [clsOf] at hcx <;> subst hcx
    · simp [tuplesOf] at hxs
    · simp only [tuplesOf, Except.ok.injEq] at hxs
      subst hxs
      exact this.2.2 ⟨kd, n, hcoll⟩ u (enum_mem_list (k := k) hm)
    · simp only [tuplesOf, Except.ok.injEq] at hxs
      subst hxs
      exact this.2.2 ⟨kd, n, hcoll⟩ _ hm
  · rintro x y u w tx ty ⟨k, xs, hxs, hm⟩ hk tu tw h
    have hu : IsAtom u := by
      have := tx.2 x (.self x)
      cases x with
      | atom a => simp [tuplesOf] at hxs
      | rcd c s => simp [tuplesOf] at hxs
      | list l =>
        simp only [tuplesOf, Except.ok.injEq] at hxs
        subst hxs
        exact this u (enum_mem_list (k := k) hm)
      | dict l =>
        simp only [tuplesOf, Except.ok.injEq] at hxs
        subst hxs
        exact this _ hm
      | lcoll c l =>
        simp only [tuplesOf, Except.ok.injEq] at hxs
        subst hxs
        obtain ⟨kd, t, hcoll⟩ := hk c rfl
        have hcoll : (D.S.cls c).coll = some (kd, .one (.other t)) := hcoll
        exact this.2.1 (by rw [hcoll]; simp) u (enum_mem_list (k := k) hm)
      | dcoll c l =>
        simp only [tuplesOf, Except.ok.injEq] at hxs
        subst hxs
        obtain ⟨kd, t, hcoll⟩ := hk c rfl
        have hcoll : (D.S.cls c).coll = some (kd, .one (.other t)) := hcoll
        exact this.2.1 (by rw [hcoll]; simp) _ hm
    obtain ⟨a, rfl⟩ := hu
    obtain ⟨b, rfl, hb⟩ := Ident.veq_atom_left h
    have hb : D.S.atomEq a b = true := hb
    rw [← ha _ _ hb]
    show ∃ i, normalizeItem D (some x) (.atom a) = .ok i ∧ normalizeItem D (some y) (.atom a) = .ok i
    simp [normalizeItem, compareItem, hi]

/-- C117 for records whose lists and dicts have items without parts, and whose collections have such items or records
identified by values without parts: equal ones have no differences. -/
theorem C117_flat (D : Setup) (hc : ComparePure D) (hi : ∀ v, D.compareItemAs v = none)
    (ho : OrdOK D.hooks) (L : AtomLaws D.S) (ha : ExactAtoms D.S) (hd : o.duckType = false)
    (hf : o.compareFilter = none) (he : o.extraneous = false) (n : Nat) (x y : Val)
    (hx : Real D.S x) (hy : Real D.S y) (fx : ∀ w, Sub w x → FlatItems D w) (fy : ∀ w, Sub w y → FlatItems D w)
    (hcx : tagOf x ≠ none) (h : veq D.S x y = .ok true) (hu : Unmixed x y) (hs : SameShape x y) :
    ∀ d ∈ (diff D.hooks o n x y).out, d.kind = .noChange ∨ d.kind = .moved :=
  C117_partial D hc ho L ha hd hf he _ (closed_parts D hc.flat (FlatItems D) (fun _ => trivial)) (fun v hv => hv.1)
    (ids_flat D hc hi ha) n x y ⟨hx, fx⟩ ⟨hy, fy⟩ hcx h hu hs

theorem not_faces_self {P : Val → Val → Prop} (hP : ∀ v, ¬ P v v) : ∀ v, ¬ Ident.Faces P v v := by
  refine Val.ind ?_ ?_ ?_ ?_ ?_ ?_
  · intro a h
    cases h with
    | here h => exact hP _ h
  · intro xs ih h
    cases h with
    | here h => exact hP _ h
    | list i h1 h2 h3 =>
      rw [h1] at h2
      cases h2
      exact ih _ (List.mem_of_getElem? h1) h3
  · intro xs ih h
    cases h with
    | here h => exact hP _ h
    | dict k h1 h2 h3 =>
      rw [h1] at h2
      cases h2
      exact ih _ (alookup_mem' h1) h3
  · intro c xs ih h
    cases h with
    | here h => exact hP _ h
    | rcd k h1 h2 h3 =>
      rw [h1] at h2
      cases h2
      exact ih _ (alookup_mem' h1) h3
  · intro c xs ih h
    cases h with
    | here h => exact hP _ h
    | lcoll i h1 h2 h3 =>
      rw [h1] at h2
      cases h2
      exact ih _ (List.mem_of_getElem? h1) h3
  · intro c xs ih h
    cases h with
    | here h => exact hP _ h
    | dcoll k h1 h2 h3 =>
      rw [h1] at h2
      cases h2
      exact ih _ (alookup_mem' h1) h3

namespace Ex

/-- A document with people and a note. -/
def noted (n : String) : Val :=
  .rcd "Doc" [("people", .lcoll "People" [person 1 "Ann", person 1 "Bob", person 2 "Cid"]), ("note", .str n)]

theorem real_noted (n : String) : Real schema (noted n) := by
  refine .rcd (by simp [Ident.Proper, schema, cls]) (by simp [schema, cls]) ?_
  intro x hx
  simp only [List.mem_cons, List.not_mem_nil, or_false] at hx
  rcases hx with rfl | rfl
  · exact real_people (by simp)
  · exact .atom _

theorem flat_person (i : Int) (n : String) : FlatRecord (setup {}) (person i n) := by
  refine ⟨_, _, rfl, rfl, ?_, ?_⟩
  · intro p hp
    have hp : p = { name := "id" } := by
      simpa [Ident.Identifies, setup, schema, cls] using hp
    subst hp
    refine ⟨by simp [setup, schema, cls], rfl, ?_⟩
    intro r hr
    have : r = .int i := (Option.some.inj hr).symm
    exact ⟨_, this⟩
  · exact ⟨.tup [.raw (.int i)], by
      simp [Setup.hooks, recordIdOf, setup, person, Ident.typeOf, Ident.rid, schema, cls, Ident.pkCols, Ident.idProps,
        mapE, Ident.slotKey, Ident.runHook, slotHook, normalizeObjectSlot, readAttr, alookup, normalizeVal, scrub,
        Ident.asTuple, Ident.khash, idOfKey, Val.int, Ident.passes, valueIsEmpty]⟩

theorem flat_sub_person {i : Int} {n : String} {w : Val} (h : Sub w (person i n)) : FlatItems (setup {}) w := by
  generalize hx : person i n = x at h
  cases h with
  | self => subst hx; trivial
  | rcd h1 h2 =>
    simp only [person, Val.rcd.injEq] at hx
    obtain ⟨_, rfl⟩ := hx
    simp only [List.mem_cons, Prod.mk.injEq, List.not_mem_nil, or_false] at h1
    rcases h1 with ⟨_, rfl⟩ | ⟨_, rfl⟩ <;> (cases h2; trivial)
  | _ => simp [person] at hx

theorem flat_noted (n : String) : ∀ w, Sub w (noted n) → FlatItems (setup {}) w := by
  intro w hw
  generalize hx : noted n = x at hw
  cases hw with
  | self => subst hx; trivial
  | rcd h1 h2 =>
    simp only [noted, Val.rcd.injEq] at hx
    obtain ⟨_, rfl⟩ := hx
    simp only [List.mem_cons, Prod.mk.injEq, List.not_mem_nil, or_false] at h1
    rcases h1 with ⟨_, rfl⟩ | ⟨_, rfl⟩
    · generalize hy : Val.lcoll "People" _ = y at h2
      cases h2 with
      | self =>
        subst hy
        refine ⟨⟨_, _, rfl⟩, fun h => absurd rfl (h _ _), fun _ x hx => ?_⟩
        simp only [List.mem_cons, List.not_mem_nil, or_false] at hx
        rcases hx with rfl | rfl | rfl <;> exact flat_person _ _
      | lcoll h3 h4 =>
        simp only [Val.lcoll.injEq] at hy
        obtain ⟨_, rfl⟩ := hy
        simp only [List.mem_cons, List.not_mem_nil, or_false] at h3
        rcases h3 with rfl | rfl | rfl <;> exact flat_sub_person h4
      | _ => simp at hy
    · cases h2
      trivial
  | _ => simp [noted] at hx

theorem faces_noted {P : Val → Val → Prop} (hP : ∀ v, ¬ P v v) (hr : ∀ c s t, ¬ P (.rcd c s) (.rcd c t))
    (ha : ∀ a b, ¬ P (.atom a) (.atom b)) (m n : String) : ¬ Ident.Faces P (noted m) (noted n) := by
  intro h
  generalize hx : noted m = x at h
  generalize hy : noted n = y at h
  cases h with
  | here h => subst hx hy; exact hr _ _ _ h
  | rcd k h1 h2 h3 =>
    simp only [noted, Val.rcd.injEq] at hx hy
    obtain ⟨_, rfl⟩ := hx
    obtain ⟨_, rfl⟩ := hy
    simp only [alookup] at h1 h2
    by_cases hk : "people" = k
    · simp only [if_pos hk, Option.some.injEq] at h1 h2
      subst h1 h2
      exact not_faces_self hP _ h3
    · simp only [if_neg hk] at h1 h2
      by_cases hn : "note" = k
      · simp only [if_pos hn, Option.some.injEq] at h1 h2
        subst h1 h2
        exact Ident.not_faces_atom (ha _ _) h3
      · simp [if_neg hn] at h1
  | _ => simp [noted] at hx

end Ex

/-- Documents that only differ in the note, which is extraneous, are equal. -/
example (b : Bool) (n : Nat) : ∀ d ∈ (diff (Ex.hooks {}) { recurse := b } n (Ex.noted "one") (Ex.noted "two")).out,
    d.kind = .noChange ∨ d.kind = .moved :=
  C117_flat (Ex.setup {}) (.none fun _ => rfl) (fun _ => rfl) (Ex.ordOK _) Ex.laws
    (fun a b h => by simpa [Ex.setup, Ex.schema] using h) rfl rfl rfl n _ _ (Ex.real_noted _) (Ex.real_noted _)
    (Ex.flat_noted _) (Ex.flat_noted _) (by simp [Ex.noted, tagOf]) (by decide +kernel)
    (Ex.faces_noted (fun v => by cases v <;> simp [Ident.MixedKinds]) (fun _ _ _ => id) (fun _ _ => id) _ _)
    (Ex.faces_noted (fun v => by cases v <;> simp [Ident.ShapeDiffers]) (fun _ _ _ => id) (fun _ _ => id) _ _)

example : Ex.noted "one" ≠ Ex.noted "two" := by simp [Ex.noted, Val.str]

/-! ## What does not hold -/

namespace Ex

/-- The classes, and a dict of people. -/
def clsBy (c : String) : Ident.ICls := if c = "By" then { coll := some (.dict, .one (.cls "Person")) } else cls c

/-- The schema with both. -/
def schemaBy : Schema := { schema with cls := clsBy }

/-- The default methods. -/
def setupBy : Setup := { setup {} with S := schemaBy }

/-- Two people with one id, in a dict. -/
def byAB : Val := .dcoll "By" [(.str "a", person 1 "Ann"), (.str "b", person 1 "Bob")]

/-- The same entries, put into the dict in another order. -/
def byBA : Val := .dcoll "By" [(.str "b", person 1 "Bob"), (.str "a", person 1 "Ann")]

theorem real_personBy (i : Int) (n : String) : Real schemaBy (person i n) := by
  refine .rcd (by simp [Ident.Proper, schemaBy, clsBy, cls]) (by simp [schemaBy, clsBy, cls]) ?_
  intro x hx
  simp only [List.mem_cons, List.not_mem_nil, or_false] at hx
  rcases hx with rfl | rfl <;> exact .atom _

theorem real_by (m n : String) (k l : String) (h : k ≠ l) :
    Real schemaBy (.dcoll "By" [(.str k, person 1 m), (.str l, person 1 n)]) := by
  refine .dcoll (by simp [h]) ⟨⟨_, rfl⟩, ?_⟩ ?_
  · intro kd n _ x hx
    simp only [List.mem_cons, List.not_mem_nil, or_false] at hx
    rcases hx with rfl | rfl <;> simp [clsOf, person]
  · intro x hx
    simp only [List.mem_cons, List.not_mem_nil, or_false] at hx
    rcases hx with rfl | rfl <;> exact real_personBy _ _

end Ex

/-- **C117 does not hold**: the order of insertion does not matter to `==`, but members of a dict with the same
identity are compared in that order. -/
theorem C117_violated : ¬ C117_statement := by
  intro h
  have := h Ex.setupBy 9 Ex.byAB Ex.byBA (fun _ => rfl) (fun _ => rfl) (fun _ _ => List.Perm.refl _)
    ⟨Ex.laws.refl, Ex.laws.symm, Ex.laws.trans⟩ (fun a b h => by simpa [Ex.setupBy, Ex.schemaBy, Ex.schema] using h)
    (Ex.real_by _ _ _ _ (by decide)) (Ex.real_by _ _ _ _ (by decide)) (by simp [Ex.byAB, tagOf]) rfl (by decide +kernel)
    (by decide +kernel)
  exact absurd this.2 (by decide +kernel)

end Normalize.Diff
