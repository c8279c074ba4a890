import Verif.Props.DiffEqual
import Verif.Lemmas.JsonBack

/-!
# Lemmas about comparing an object with what is read back of it
-/

namespace Normalize.Diff
open Ident (IProp Schema readAttr veq Sub AtomLaws WF)
open Spec (Real Compared FlatItems FlatRecord IsAtom Agree AgreeAt)

variable {o : Opts}

/-- A relation that holds of two objects if it holds of their attributes that count, or of their members. -/
structure Walk (D : Setup) (o : Opts) (A : Option Val → Option Val → Prop) : Prop where
  unset : A none none
  atom : ∀ a y, veq D.S (.atom a) y = .ok true → A (some (.atom a)) (some y)
  record : ∀ c s t (va vb : IProp → Option Val),
    (∀ p ∈ (D.S.cls c).props, Compared o p →
      D.hooks.normSlot (readAttr D.S (.rcd c s) p.name) p (some (.rcd c s)) = .ok (va p)) →
    (∀ p ∈ (D.S.cls c).props, Compared o p →
      D.hooks.normSlot (readAttr D.S (.rcd c t) p.name) p (some (.rcd c t)) = .ok (vb p)) →
    (∀ p ∈ (D.S.cls c).props, Compared o p → A (va p) (vb p)) → A (some (.rcd c s)) (some (.rcd c t))
  members : ∀ x y xs ys (R : Comp × Val → Comp × Val → Prop), Real D.S x → Paired D x y xs ys R → tagOf x = tagOf y →
    tuplesOf (some x) = .ok xs → tuplesOf (some y) = .ok ys → List.Forall₂ R xs ys →
    (∀ e ∈ xs, ∀ f ∈ ys, R e f → A (some e.2) (some f.2)) → A (some x) (some y)

theorem walk_agree (D : Setup) : Walk D o (Agree D.hooks o) where
  unset := .unset
  atom _ _ h := .equal (.inl rfl) h
  record _ _ _ va vb h1 h2 h3 := .record va vb h1 h2 h3
  members _ _ _ _ _ _ hP ht h1 h2 h ih := agree_rel D hP ht h1 h2 h ih

theorem walk_agree_at (D : Setup) : Walk D o (AgreeAt D.hooks o) where
  unset := .unset
  atom _ _ h := .equal (.inl rfl) h
  record _ _ _ va vb h1 h2 h3 := .record va vb h1 h2 h3
  members _ _ _ _ _ hx hP ht h1 h2 h ih := agree_rel_at D hx hP ht h1 h2 h ih

theorem flat_members (D : Setup) {x : Val} {xs : List (Comp × Val)} (hf : FlatItems D x)
    (hxs : tuplesOf (some x) = .ok xs) :
    (∀ c, clsOf x = some c → ∃ k t, (D.S.cls c).coll = some (k, .one t)) ∧
    (∀ c k n, clsOf x = some c → (D.S.cls c).coll = some (k, .one (.cls n)) → ∀ e ∈ xs, FlatRecord D e.2) ∧
    ((∀ c, clsOf x = some c → ∃ kd t, (D.S.cls c).coll = some (kd, .one (.other t))) → ∀ e ∈ xs, IsAtom e.2) := by
  cases x with
  | atom a => simp [tuplesOf] at hxs
  | rcd c s => simp [tuplesOf] at hxs
  | list l =>
    simp only [tuplesOf, Except.ok.injEq] at hxs
    subst hxs
    exact ⟨fun c h => (by cases h), fun c k n h => (by cases h), fun _ e he => hf e.2 (enum_mem_list (k := e.1) he)⟩
  | dict l =>
    simp only [tuplesOf, Except.ok.injEq] at hxs
    subst hxs
    exact ⟨fun c h => (by cases h), fun c k n h => (by cases h), fun _ e he => hf e he⟩
  | lcoll c l =>
    simp only [tuplesOf, Except.ok.injEq] at hxs
    subst hxs
    refine ⟨fun c' h => ?_, fun c' k n h hcoll e he => ?_, fun hk e he => ?_⟩
    · cases h; exact hf.1
    · cases h; exact hf.2.2 ⟨k, n, hcoll⟩ e.2 (enum_mem_list (k := e.1) he)
    · obtain ⟨kd, t, hcoll⟩ := hk c rfl
      exact hf.2.1 (by rw [hcoll]; simp) e.2 (enum_mem_list (k := e.1) he)
  | dcoll c l =>
    simp only [tuplesOf, Except.ok.injEq] at hxs
    subst hxs
    refine ⟨fun c' h => ?_, fun c' k n h hcoll e he => ?_, fun hk e he => ?_⟩
    · cases h; exact hf.1
    · cases h; exact hf.2.2 ⟨k, n, hcoll⟩ e he
    · obtain ⟨kd, t, hcoll⟩ := hk c rfl
      exact hf.2.1 (by rw [hcoll]; simp) e he

/-- Members of a container of the simple kind that correspond have the same identities. -/
theorem paired_flat (D : Setup) (hi : ∀ v, D.compareItemAs v = none) {x y : Val} {xs ys : List (Comp × Val)}
    {R : Comp × Val → Comp × Val → Prop} (hf : FlatItems D x) (hxs : tuplesOf (some x) = .ok xs)
    (key : ∀ e f, R e f → e.1 = f.1) (tag : ∀ e f, R e f → tagOf e.2 = tagOf f.2)
    (id : ∀ e f, R e f → FlatRecord D e.2 → D.hooks.recId none none f.2 = D.hooks.recId none none e.2)
    (atom : ∀ e f, R e f → ∀ a, e.2 = .atom a → f.2 = .atom a) : Paired D x y xs ys R where
  kinds := (flat_members D hf hxs).1
  records c k n hc hcoll e he f _ hr := by
    have := (flat_members D hf hxs).2.1 c k n hc hcoll e he
    have hid := id e f hr this
    obtain ⟨_, _, _, _, _, i, hi⟩ := this
    exact ⟨i, hi, hid.trans hi⟩
  items hk e he f _ hr := by
    obtain ⟨a, ha⟩ := (flat_members D hf hxs).2.2 hk e he
    rw [atom e f hr a ha, ha]
    show ∃ i, normalizeItem D (some x) (.atom a) = .ok i ∧ normalizeItem D (some y) (.atom a) = .ok i
    simp [normalizeItem, compareItem, hi]
  key := key
  tag := tag

/-- The parts of an object of the simple kind. -/
def AllFlat (D : Setup) (v : Val) : Prop := Real D.S v ∧ ∀ w, Sub w v → FlatItems D w

theorem allFlat_member {D : Setup} {x v : Val} {xs : List (Comp × Val)} {k : Comp} (hx : AllFlat D x)
    (h : tuplesOf (some x) = .ok xs) (hm : (k, v) ∈ xs) : AllFlat D v :=
  ⟨⟨fun u hu => hx.1.1 u (sub_member h hm u hu), fun u hu => hx.1.2 u (sub_member h hm u hu)⟩,
    fun u hu => hx.2 u (sub_member h hm u hu)⟩

theorem allFlat_read {D : Setup} {x v : Val} {nm : String} (hx : AllFlat D x) (h : readAttr D.S x nm = some v)
    (hv : tagOf v ≠ none) : AllFlat D v :=
  ⟨⟨fun u hu => hx.1.1 u (sub_readAttr h hv u hu), fun u hu => hx.1.2 u (sub_readAttr h hv u hu)⟩,
    fun u hu => hx.2 u (sub_readAttr h hv u hu)⟩

/-- Attributes that correspond. -/
theorem walk_record (D : Setup) (hc : Spec.ComparePure D) (L : AtomLaws D.S) {A : Option Val → Option Val → Prop}
    (W : Walk D o A) {c : String} {s t : List (String × Val)}
    (h : ∀ p ∈ (D.S.cls c).props, Compared o p →
      (readAttr D.S (.rcd c s) p.name = none ∧ readAttr D.S (.rcd c t) p.name = none) ∨
      (∃ a, readAttr D.S (.rcd c s) p.name = some (.atom a) ∧ readAttr D.S (.rcd c t) p.name = some (.atom a)) ∨
      ∃ v w, readAttr D.S (.rcd c s) p.name = some v ∧ readAttr D.S (.rcd c t) p.name = some w ∧ tagOf v ≠ none ∧
        tagOf w ≠ none ∧ A (some v) (some w)) : A (some (.rcd c s)) (some (.rcd c t)) := by
  refine W.record c s t (fun p => (readAttr D.S (.rcd c s) p.name).bind (fun v => asValue D p v))
    (fun p => (readAttr D.S (.rcd c t) p.name).bind (fun v => asValue D p v)) ?_ ?_ ?_
  · intro p _ _
    show D.hooks.normSlot (readAttr D.S _ _) _ _ = _
    cases readAttr D.S (.rcd c s) p.name with
    | none => rfl
    | some v => exact normSlot_pure D hc v p _
  · intro p _ _
    show D.hooks.normSlot (readAttr D.S _ _) _ _ = _
    cases readAttr D.S (.rcd c t) p.name with
    | none => rfl
    | some v => exact normSlot_pure D hc v p _
  · intro p hp hcm
    rcases h p hp hcm with ⟨h1, h2⟩ | ⟨a, h1, h2⟩ | ⟨v, w, h1, h2, hv, hw, hA⟩
    · simp only [h1, h2]; exact W.unset
    · simp only [h1, h2]; exact agree_atom D hc L W.unset W.atom p _
    · simpa only [h1, h2, Option.bind_some, asValue_comparable D hc hv, asValue_comparable D hc hw] using hA

theorem forall₂_self {α : Type} (xs : List α) : List.Forall₂ (fun a b => a = b ∧ a ∈ xs) xs xs := by
  refine forall₂_of_get rfl ?_
  intro i x y h1 h2
  rw [h1] at h2
  cases h2
  exact ⟨rfl, List.mem_of_getElem? h1⟩

/-- Every object of the simple kind corresponds to itself. -/
theorem walk_refl (D : Setup) (hc : Spec.ComparePure D) (hi : ∀ v, D.compareItemAs v = none) (L : AtomLaws D.S)
    {A : Option Val → Option Val → Prop} (W : Walk D o A) : ∀ v, AllFlat D v → A (some v) (some v) := by
  have cont : ∀ x xs, AllFlat D x → tuplesOf (some x) = .ok xs → (∀ e ∈ xs, AllFlat D e.2 → A (some e.2) (some e.2)) →
      A (some x) (some x) := by
    intro x xs hx hxs ih
    refine W.members x x xs xs (fun e f => e = f ∧ e ∈ xs) hx.1 (paired_flat D hi (hx.2 x (.self x)) hxs
      (fun e f h => by rw [h.1]) (fun e f h => by rw [h.1]) (fun e f h _ => by rw [h.1]) (fun e f h a ha => by rw [← h.1, ha]))
      rfl hxs hxs (forall₂_self xs) ?_
    rintro e he f _ ⟨rfl, _⟩
    exact ih e he (allFlat_member (k := e.1) hx hxs he)
  refine Val.ind ?_ ?_ ?_ ?_ ?_ ?_
  · intro a _
    exact W.atom a _ (by rw [Ident.veq_atom, L.refl])
  · intro xs ih hx
    exact cont _ _ hx rfl (fun e he => ih e.2 (enum_mem_list (k := e.1) he))
  · intro xs ih hx
    exact cont _ _ hx rfl (fun e he => ih e he)
  · intro c s ih hx
    refine walk_record D hc L W fun p _ _ => ?_
    cases h : readAttr D.S (.rcd c s) p.name with
    | none => exact .inl ⟨rfl, rfl⟩
    | some v =>
      by_cases hv : tagOf v = none
      · cases v <;> simp [tagOf] at hv
        exact .inr (.inl ⟨_, rfl, rfl⟩)
      · exact .inr (.inr ⟨v, v, rfl, rfl, hv, hv, ih _ (alookup_mem' (readAttr_part h hv)) (allFlat_read hx h hv)⟩)
  · intro c xs ih hx
    exact cont _ _ hx rfl (fun e he => ih e.2 (enum_mem_list (k := e.1) he))
  · intro c xs ih hx
    exact cont _ _ hx rfl (fun e he => ih e he)

/-- `w` is what is read back of `v`. -/
structure BackAs (D : Setup) (A : Option Val → Option Val → Prop) (w v : Val) : Prop where
  eq : veq D.S w v = .ok true
  eq' : veq D.S v w = .ok true
  tag : tagOf v = tagOf w
  atom : ∀ a, v = .atom a → w = .atom a
  id : FlatRecord D v → D.hooks.recId none none w = D.hooks.recId none none v
  agree : AllFlat D v → A (some v) (some w)

theorem enum_forall₂ {R : Val → Val → Prop} {xs ys : List Val} (h : List.Forall₂ R xs ys) :
    List.Forall₂ (fun e f => e.1 = f.1 ∧ R e.2 f.2) (Ident.enum xs) (Ident.enum ys) := by
  refine forall₂_of_get (by simp [Ident.enum, h.length_eq]) ?_
  intro i e f he hf
  simp only [Ident.enum, List.getElem?_map, List.getElem?_zipIdx, Option.map_eq_some_iff, Prod.exists] at he hf
  obtain ⟨x, j, ⟨_, h1, h2⟩, rfl⟩ := he
  obtain ⟨y, k, ⟨_, g1, g2⟩, rfl⟩ := hf
  simp only [Prod.mk.injEq] at h2 g2
  obtain ⟨rfl, rfl⟩ := h2
  obtain ⟨rfl, rfl⟩ := g2
  exact ⟨rfl, Ident.forall₂_get h h1 g1⟩

theorem trip_back (D : Setup) (hc : Spec.ComparePure D) (hi : ∀ v, D.compareItemAs v = none) (L : AtomLaws D.S)
    (he : o.extraneous = false) {A : Option Val → Option Val → Prop} (W : Walk D o A) : Json.Trip D.S (BackAs D A) := by
  have T := Json.trip_veq L
  have cont : ∀ x y xs ys, AllFlat D x → tuplesOf (some x) = .ok xs → tuplesOf (some y) = .ok ys → tagOf x = tagOf y →
      List.Forall₂ (fun e f => e.1 = f.1 ∧ BackAs D A f.2 e.2) xs ys → A (some x) (some y) := by
    intro x y xs ys hx hxs hys ht h
    refine W.members x y xs ys _ hx.1 (paired_flat D hi (hx.2 x (.self x)) hxs
      (fun e f h => h.1) (fun e f h => h.2.tag) (fun e f h => h.2.id) (fun e f h => h.2.atom)) ht hxs hys h ?_
    intro e he f _ h
    exact h.2.agree (allFlat_member (k := e.1) hx hxs he)
  refine ⟨fun h => h.eq, fun v hv => ?_, fun {c s' s} h => ?_, fun {c ws xs} h => ?_, fun {c ws xs} hn h => ?_⟩
  · exact ⟨T.same v hv, T.same v hv, rfl, fun _ h => h, fun _ => rfl, walk_refl D hc hi L W v⟩
  · have hflip : ∀ p ∈ (D.S.cls c).props, p.extraneous = false → Option.Rel (fun w v => veq D.S w v = .ok true)
        (readAttr D.S (.rcd c s) p.name) (readAttr D.S (.rcd c s') p.name) := by
      intro p hp hex
      have := h p hp hex
      generalize readAttr D.S _ p.name = a at this ⊢
      generalize readAttr D.S _ p.name = b at this ⊢
      cases this with
      | some h => exact .some h.eq'
      | none => exact .none
    have hfwd : ∀ p ∈ (D.S.cls c).props, p.extraneous = false → Option.Rel (fun w v => veq D.S w v = .ok true)
        (readAttr D.S (.rcd c s') p.name) (readAttr D.S (.rcd c s) p.name) := by
      intro p hp hex
      have := h p hp hex
      generalize readAttr D.S _ p.name = a at this ⊢
      generalize readAttr D.S _ p.name = b at this ⊢
      cases this with
      | some h => exact .some h.eq
      | none => exact .none
    refine ⟨T.rcd hfwd, T.rcd hflip, rfl, fun a ha => (by cases ha), fun hfl => ?_, fun hx => ?_⟩
    · obtain ⟨c', s0, hcs, hcoll, hp, i, hi'⟩ := hfl
      cases hcs
      have := rid_reads D hc D.depth c (.rcd c s') (.rcd c s) hcoll (fun p hpi => by
        obtain ⟨h1, h2, h3⟩ := hp p hpi
        have hr := h p h1 h2
        revert h3
        generalize readAttr D.S _ p.name = a at hr ⊢
        generalize readAttr D.S _ p.name = b at hr ⊢
        intro h3
        cases hr with
        | none => rfl
        | some hr =>
          obtain ⟨a, rfl⟩ := h3 _ rfl
          rw [hr.atom a rfl])
      show recordIdOf D none none (.rcd c s') = recordIdOf D none none (.rcd c s)
      simp [recordIdOf, Ident.typeOf, this]
    · refine walk_record D hc L W fun p hp hcm => ?_
      have hr := h p hp (hcm he)
      have hfl : ∀ v, readAttr D.S (.rcd c s) p.name = some v → tagOf v ≠ none → AllFlat D v :=
        fun v hv ht => allFlat_read hx hv ht
      revert hfl
      generalize readAttr D.S _ p.name = a at hr ⊢
      generalize readAttr D.S _ p.name = b at hr ⊢
      intro hfl
      cases hr with
      | none => exact .inl ⟨rfl, rfl⟩
      | @some w v hr =>
        by_cases hv : tagOf v = none
        · cases v <;> simp [tagOf] at hv
          rw [hr.atom _ rfl]
          exact .inr (.inl ⟨_, rfl, rfl⟩)
        · exact .inr (.inr ⟨v, w, rfl, rfl, hv, hr.tag ▸ hv, hr.agree (hfl v rfl hv)⟩)
  · refine ⟨T.lcoll (h.imp fun _ _ h => h.eq), T.lcoll ((h.imp fun _ _ h => h.eq').flip), rfl, fun a ha => (by cases ha),
      fun hfl => (by obtain ⟨_, _, h, _⟩ := hfl; cases h), fun hx => ?_⟩
    exact cont _ _ _ _ hx rfl rfl rfl (enum_forall₂ (h.flip))
  · have hk : ws.map (·.1) = xs.map (·.1) := by
      clear hn
      induction h with
      | nil => rfl
      | cons h _ ih => simp [h.1, ih]
    refine ⟨T.dcoll hn (h.imp fun _ _ h => ⟨h.1, h.2.eq⟩), T.dcoll (hk ▸ hn) ((h.imp fun _ _ h => ⟨h.1.symm, h.2.eq'⟩).flip),
      rfl, fun a ha => (by cases ha), fun hfl => (by obtain ⟨_, _, h, _⟩ := hfl; cases h), fun hx => ?_⟩
    exact cont _ _ _ _ hx rfl rfl rfl ((h.imp fun _ _ h => ⟨h.1.symm, h.2⟩).flip)

end Normalize.Diff
