import Verif.Spec.DiffNone
import Verif.Props.DiffEqual

/-!
# C118: objects without differences are equal
-/

namespace Normalize.Diff
open Ident (IProp Schema readAttr veq Sub AtomLaws CollKind)
open Spec (places Real Items Members Labels nth Compared ExactText ShowsAll HashableItems Nothing)
open Gen

variable {o : Opts}

/-- C118: if nothing is ignored, moved items are reported, and a comparison finds nothing, then the two objects are
equal. -/
def C118_statement : Prop :=
  ∀ (D : Setup) (o : Opts) (n : Nat) (x y : Val), (∀ p, D.compareAs p = none) → (∀ v, D.compareItemAs v = none) →
    OrdOK D.hooks → AtomLaws D.S → ExactText D.text → ShowsAll o → Real D.S x → Real D.S y →
    tagOf x ≠ none → tagOf x = tagOf y → Nothing (diff D.hooks o n x y) → veq D.S x y = .ok true

theorem nothing_append {g h : Gen} : Nothing (g ++ h) ↔ Nothing g ∧ Nothing h := by
  constructor
  · rintro ⟨h1, h2⟩
    rw [exc_append] at h1
    rw [out_append h1.1] at h2
    exact ⟨⟨h1.1, fun d hd => h2 d (by simp [hd])⟩, ⟨h1.2, fun d hd => h2 d (by simp [hd])⟩⟩
  · rintro ⟨⟨h1, h2⟩, ⟨h3, h4⟩⟩
    refine ⟨exc_append.2 ⟨h1, h3⟩, fun d hd => ?_⟩
    exact (mem_append hd).elim (h2 d) (h4 d)

@[simp] theorem nothing_nil : Nothing nil := ⟨rfl, by simp⟩

@[simp] theorem nothing_raise {e : Exc} : ¬ Nothing (raise e) := fun h => by simpa using h.1

theorem nothing_yield {k : DType} {p q : FS} : Nothing (yield k p q) ↔ k = .noChange :=
  ⟨fun h => h.2 ⟨k, p, q⟩ (by simp), fun h => ⟨rfl, by simpa using h⟩⟩

theorem nothing_when {b : Bool} {g : Gen} : Nothing (Gen.when b g) ↔ (b = true → Nothing g) := by
  cases b <;> simp

theorem nothing_bindE {α : Type} {r : Except Exc α} {f : α → Gen} :
    Nothing (bindE r f) ↔ ∃ a, r = .ok a ∧ Nothing (f a) := by
  cases r <;> simp

theorem nothing_forEach {α : Type} {f : α → Gen} {l : List α} : Nothing (forEach f l) ↔ ∀ x ∈ l, Nothing (f x) := by
  induction l with
  | nil => simp
  | cons x xs ih => rw [forEach_cons, nothing_append, ih]; simp

theorem nothing_matched (hm : o.moved = true) {fa fb : FS} {k : Comp × Comp} (h : Nothing (matched o fa fb k)) :
    k.1 = k.2 := by
  unfold matched at h
  by_contra hk
  rw [if_pos (by simp [hm, hk]), nothing_yield] at h
  simp at h

theorem normalize_exact {U : Unicode} {t : TextOpts} (ht : ExactText t) (v : Val) : normalizeVal U t (some v) = some v := by
  have hs : scrub U t v = v := by
    cases v with
    | atom a => cases a <;> simp [scrub, normalizeText, ht.ws, ht.case, ht.unicode]
    | _ => rfl
  simp [normalizeVal, ht.empty, hs]

theorem labels_whole {α ι : Type} {f : α → Except Exc ι} {keep : ι → Bool} (hk : ∀ i, keep i = true) {xs : List α}
    {la : List (ι × α)} (h : Labels f keep xs la) : la.map (·.2) = xs := by
  induction h with
  | nil => rfl
  | keep _ _ _ ih => simp [ih]
  | skip _ h => rw [hk] at h; exact absurd h (by simp)

/-- Containers with the same keys and equal members are equal. -/
theorem veq_of_members {S : Schema} {x y : Val} (hx : Real S x) (hy : Real S y) (htag : tagOf x = tagOf y)
    {xs ys : List (Comp × Val)} (hxs : tuplesOf (some x) = .ok xs) (hys : tuplesOf (some y) = .ok ys)
    (h1 : ∀ e ∈ xs, ∃ w, (e.1, w) ∈ ys ∧ veq S e.2 w = .ok true) (h2 : ∀ e ∈ ys, ∃ w, (e.1, w) ∈ xs) :
    veq S x y = .ok true := by
  have hlist : ∀ {l m : List Val}, xs = Ident.enum l → ys = Ident.enum m →
      List.Forall₂ (fun x y => veq S x y = .ok true) l m := by
    rintro l m rfl rfl
    have hget : ∀ {l : List Val} {i : Nat} {v : Val}, (Comp.int (i : Int), v) ∈ Ident.enum l → l[i]? = some v := by
      intro l i v h
      simp only [Ident.enum, List.mem_map, Prod.mk.injEq, Comp.int.injEq, Prod.exists, List.mem_zipIdx_iff_getElem?] at h
      obtain ⟨a, j, hj, h3, rfl⟩ := h
      have : j = i := by exact_mod_cast h3
      rw [← this]
      exact hj
    have hlen : l.length = m.length := by
      rcases Nat.lt_trichotomy l.length m.length with h | h | h
      · obtain ⟨w, hw⟩ := h2 _ (enum_mem (List.getElem?_eq_getElem h))
        have := hget hw
        simp at this
      · exact h
      · obtain ⟨w, hw, _⟩ := h1 _ (enum_mem (List.getElem?_eq_getElem h))
        have := hget hw
        simp at this
    refine forall₂_of_get hlen fun i u w hu hw => ?_
    obtain ⟨w', hw', he⟩ := h1 _ (enum_mem hu)
    have := hget hw'
    rw [hw] at this
    cases this
    exact he
  have hdict : (xs.map (·.1)).Nodup → (ys.map (·.1)).Nodup → Ident.DictEq S xs ys := by
    intro n1 n2
    refine ⟨?_, fun e he => ?_⟩
    · have : (xs.map (·.1)).Perm (ys.map (·.1)) := by
        rw [List.perm_ext_iff_of_nodup n1 n2]
        intro k
        simp only [List.mem_map]
        constructor
        · rintro ⟨e, he, rfl⟩
          obtain ⟨w, hw, _⟩ := h1 e he
          exact ⟨_, hw, rfl⟩
        · rintro ⟨e, he, rfl⟩
          obtain ⟨w, hw⟩ := h2 e he
          exact ⟨_, hw, rfl⟩
      simpa using this.length_eq
    · obtain ⟨w, hw, he⟩ := h1 e he
      exact ⟨w, Ident.alookup_of_mem n2 hw, he⟩
  have hkx := hx.2 x (.self x)
  have hky := hy.2 y (.self y)
  cases x with
  | atom a => simp [tuplesOf] at hxs
  | rcd c s => simp [tuplesOf] at hxs
  | list l =>
    cases y <;> simp [tagOf] at htag
    simp only [tuplesOf, Except.ok.injEq] at hxs hys
    exact Ident.veq_list.2 (hlist hxs.symm hys.symm)
  | dict l =>
    cases y <;> simp [tagOf] at htag
    simp only [tuplesOf, Except.ok.injEq] at hxs hys
    subst hxs hys
    exact Ident.veq_dict.2 (hdict (hx.1 _ (.self _)) (hy.1 _ (.self _)))
  | lcoll c l =>
    cases y <;> simp [tagOf] at htag
    · simp [tuplesOf] at hys
    · subst htag
      simp only [tuplesOf, Except.ok.injEq] at hxs hys
      exact Ident.veq_lcoll.2 ⟨rfl, hlist hxs.symm hys.symm⟩
    · subst htag
      obtain ⟨i, hi⟩ := hkx.1
      obtain ⟨j, hj⟩ := hky.1
      rw [hi] at hj
      simp at hj
  | dcoll c l =>
    cases y <;> simp [tagOf] at htag
    · simp [tuplesOf] at hys
    · subst htag
      obtain ⟨i, hi⟩ := hkx.1
      obtain ⟨j, hj⟩ := hky.1
      rw [hi] at hj
      simp at hj
    · subst htag
      simp only [tuplesOf, Except.ok.injEq] at hxs hys
      subst hxs hys
      exact Ident.veq_dcoll.2 ⟨rfl, hdict (hx.1 _ (.self _)) (hy.1 _ (.self _))⟩

/-- If every member is in both bags, with the same key, the keys are the same. -/
theorem keys_of_bags {J : Type} [DecidableEq J] {la lb : List (J × (Comp × Val))}
    (hm : minus (number [] (keyed la)) (number [] (keyed lb)) = [])
    (hc : ∀ k ∈ common (number [] (keyed la)) (number [] (keyed lb)), k.1 = k.2) :
    ∀ e ∈ la, ∃ f ∈ lb, f.1 = e.1 ∧ f.2.1 = e.2.1 ∧ (e.2.1, f.2.1) ∈ common (number [] (keyed la)) (number [] (keyed lb)) := by
  intro e he
  obtain ⟨m, hm1⟩ := nth_of_mem (j := e.1) (u := e.2) he
  have h1 : ((e.1, m), e.2.1) ∈ number [] (keyed la) := nth_keyed.2 ⟨e.2, hm1, rfl⟩
  have h2 : (e.1, m) ∈ (number [] (keyed lb)).map (·.1) := by
    by_contra hn
    have : ((e.1, m), e.2.1) ∈ minus (number [] (keyed la)) (number [] (keyed lb)) := mem_minus.2 ⟨h1, hn⟩
    rw [hm] at this
    simp at this
  obtain ⟨⟨⟨j, m'⟩, k⟩, hf, hj⟩ := List.mem_map.1 h2
  simp only [Prod.mk.injEq] at hj
  obtain ⟨rfl, rfl⟩ := hj
  obtain ⟨w, hw, rfl⟩ := nth_keyed.1 hf
  have hcm : (e.2.1, w.1) ∈ common (number [] (keyed la)) (number [] (keyed lb)) :=
    common_keyed.2 ⟨e.1, m', e.2, w, hm1, hw, rfl, rfl⟩
  exact ⟨(e.1, w), nth_mem hw, rfl, (hc _ hcm).symm, hcm⟩

theorem bags_nothing {E F : Type} [DecidableEq E] [DecidableEq F] {H : Hooks E F} (ho : OrdOK H) (hmv : o.moved = true)
    {fa fb : FS} {A B : List (Ent (Option F))}
    (h : Nothing (compareBags H o fa fb A B)) : minus A B = [] ∧ minus B A = [] ∧ ∀ k ∈ common A B, k.1 = k.2 := by
  unfold compareBags at h
  simp only [nothing_append, nothing_when, nothing_forEach, ho.mem, nothing_yield] at h
  obtain ⟨⟨⟨h0, h1⟩, h2⟩, h3⟩ := h
  have hm : ∀ k, k ∉ modifiedKeys (minus A B) (minus B A) := fun k hk => by simpa using h3 k hk
  refine ⟨List.eq_nil_iff_forall_not_mem.2 fun e he => ?_, List.eq_nil_iff_forall_not_mem.2 fun e he => ?_, fun k hk => ?_⟩
  · simpa using h1 e he (by simp [hm])
  · simpa using h2 e he (by simp [hm])
  · exact nothing_matched hmv (h0 (by simp [hmv]) k hk)

/-- Simple containers without differences have the same items. -/
theorem simple_nothing (D : Setup) (hi : ∀ v, D.compareItemAs v = none) (L : AtomLaws D.S) (ht : ExactText D.text)
    (hs : ShowsAll o) (ho : OrdOK D.hooks) {x y : Val} (hx : Real D.S x) (hy : Real D.S y) (htag : tagOf x = tagOf y)
    (px : HashableItems D.S x) (py : HashableItems D.S y)
    (hk : ∀ c k n, clsOf x = some c → (D.S.cls c).coll ≠ some (k, .one (.cls n))) {fa fb : FS}
    (h : Nothing (compareSimple D.hooks o (some x) (some y) fa fb)) : veq D.S x y = .ok true := by
  unfold compareSimple at h
  simp only [nothing_bindE] at h
  obtain ⟨A, hA, B, hB, h⟩ := h
  obtain ⟨la, ⟨xs, hxs, hla⟩, rfl⟩ := simpleBag_items hs.duck hA
  obtain ⟨lb, ⟨ys, hys, hlb⟩, rfl⟩ := simpleBag_items hs.duck hB
  obtain ⟨h1, h2, h3⟩ := bags_nothing ho hs.moved h
  have hall : ∀ i : Option Val, (i.isSome || !o.ignoreEmptySlots) = true := fun i => by simp [hs.slots]
  have ex := labels_whole hall hla
  have ey := labels_whole hall hlb
  have hk' : ∀ c k n, clsOf y = some c → (D.S.cls c).coll ≠ some (k, .one (.cls n)) :=
    fun c k n hc => hk c k n ((clsOf_tag htag).trans hc)
  have hid : ∀ {z w : Val} {i}, Ident.hashable D.S w = true → D.hooks.itemId (some z) w = .ok i → i = some w := by
    intro z w i hw h
    have h : normalizeItem D (some z) w = .ok i := h
    simp only [normalizeItem, compareItem, Option.bind_some, hi, normalize_exact ht, Option.map_some, hashed, hw, if_true,
      Except.ok.injEq] at h
    exact h.symm
  refine veq_of_members hx hy htag hxs hys ?_ ?_
  · intro e he
    rw [← ex] at he
    obtain ⟨a, ha, rfl⟩ := List.mem_map.1 he
    obtain ⟨f, hf, hf1, hf2, _⟩ := keys_of_bags h1 h3 a ha
    have m1 := labels_mem hla ha
    have m2 := labels_mem hlb hf
    have i1 := hid (px hk a.2.1 a.2.2 xs hxs m1.1) m1.2
    have i2 := hid (py hk' f.2.1 f.2.2 ys hys m2.1) m2.2
    rw [hf1, i1] at i2
    simp only [Option.some.injEq] at i2
    refine ⟨a.2.2, ?_, Ident.veq_refl L _ ?_⟩
    · rw [← hf2, i2]; exact m2.1
    · exact fun u hu => hx.1 u (sub_member hxs m1.1 u hu)
  · intro e he
    rw [← ey] at he
    obtain ⟨a, ha, rfl⟩ := List.mem_map.1 he
    have h3' : ∀ k ∈ common (number [] (keyed lb)) (number [] (keyed la)), k.1 = k.2 := by
      intro k hk
      obtain ⟨j, m, u, w, hu, hw, e1, e2⟩ := common_keyed.1 hk
      exact (h3 (k.2, k.1) (common_keyed.2 ⟨j, m, w, u, hw, hu, e2, e1⟩)).symm
    obtain ⟨f, hf, _, hf2, _⟩ := keys_of_bags h2 h3' a ha
    exact ⟨f.2.2, by rw [← hf2]; exact (labels_mem hla hf).1⟩

/-- Every member of the left bag has a partner with the same key, and the two are compared without a difference. -/
theorem partner {E F : Type} [DecidableEq E] [DecidableEq F] {H : Hooks E F} (ho : OrdOK H) (hmv : o.moved = true)
    {rec : Rec} {a b : Option Val} {fa fb : FS} {la lb : List (Id E × (Comp × Val))}
    (hcv : ∀ e ∈ number [] (keyed la) ++ number [] (keyed lb),
      compareValues (number [] (keyed la)) (number [] (keyed lb)) = true)
    (h : Nothing (compareIds H o rec a b fa fb (number [] (keyed la)) (number [] (keyed lb)))) :
    (∀ e ∈ la, ∃ f ∈ lb, f.2.1 = e.2.1 ∧ Nothing (descend rec a b fa fb (e.2.1, f.2.1))) ∧
      ∀ f ∈ lb, ∃ e ∈ la, e.2.1 = f.2.1 := by
  unfold compareIds at h
  simp only [nothing_append, nothing_when, nothing_bindE, nothing_forEach, ho.mem, nothing_yield] at h
  obtain ⟨hcom, ps, hps, ⟨⟨⟨hfz, hmt⟩, hrem⟩, hadd⟩⟩ := h
  have hpair : ∀ p ∈ ps, p.1.2 = p.2.2 ∧ Nothing (descend rec a b fa fb (p.1.2, p.2.2)) := by
    intro p hp
    have := hfz p hp
    unfold fuzzyPair at this
    rw [nothing_append] at this
    refine ⟨?_, this.1⟩
    by_contra hk
    have h2 := this.2
    rw [if_pos (by simp [hmv, hk]), nothing_yield] at h2
    simp at h2
  have hkeys : ∀ k ∈ common (number [] (keyed la)) (number [] (keyed lb)), k.1 = k.2 :=
    fun k hk => nothing_matched hmv (hmt (by simp [hmv]) k hk)
  constructor
  · intro e he
    obtain ⟨m, hm⟩ := nth_of_mem (j := e.1) (u := e.2) he
    have hA : ((e.1, m), e.2.1) ∈ number [] (keyed la) := nth_keyed.2 ⟨e.2, hm, rfl⟩
    by_cases hB : (e.1, m) ∈ (number [] (keyed lb)).map (·.1)
    · obtain ⟨⟨⟨j, m'⟩, k⟩, hf, hj⟩ := List.mem_map.1 hB
      simp only [Prod.mk.injEq] at hj
      obtain ⟨rfl, rfl⟩ := hj
      obtain ⟨w, hw, rfl⟩ := nth_keyed.1 hf
      have hcm : (e.2.1, w.1) ∈ common (number [] (keyed la)) (number [] (keyed lb)) :=
        common_keyed.2 ⟨e.1, m', e.2, w, hm, hw, rfl, rfl⟩
      exact ⟨(e.1, w), nth_mem hw, (hkeys _ hcm).symm, hcom (hcv _ (List.mem_append_left _ hA)) _ hcm⟩
    · have hmin := mem_minus.2 ⟨hA, hB⟩
      have hp : ((e.1, m), e.2.1) ∈ ps.map (·.1) := by
        by_contra hn
        have := hrem _ (List.mem_filter.2 ⟨hmin, by simpa using hn⟩)
        simp at this
      obtain ⟨p, hp, hp1⟩ := List.mem_map.1 hp
      obtain ⟨f, hf, _, hf2⟩ := mem_of_entry (mem_minus.1 (pairs_mem hps hp).2).1
      have hpp := hpair p hp
      rw [hp1] at hpp
      refine ⟨f, hf, ?_, ?_⟩
      · rw [hf2]; exact hpp.1.symm
      · rw [hf2]; exact hpp.2
  · intro f hf
    obtain ⟨m, hm⟩ := nth_of_mem (j := f.1) (u := f.2) hf
    have hB : ((f.1, m), f.2.1) ∈ number [] (keyed lb) := nth_keyed.2 ⟨f.2, hm, rfl⟩
    by_cases hA : (f.1, m) ∈ (number [] (keyed la)).map (·.1)
    · obtain ⟨⟨⟨j, m'⟩, k⟩, he, hj⟩ := List.mem_map.1 hA
      simp only [Prod.mk.injEq] at hj
      obtain ⟨rfl, rfl⟩ := hj
      obtain ⟨u, hu, rfl⟩ := nth_keyed.1 he
      have hcm : (u.1, f.2.1) ∈ common (number [] (keyed la)) (number [] (keyed lb)) :=
        common_keyed.2 ⟨f.1, m', u, f.2, hu, hm, rfl, rfl⟩
      exact ⟨(f.1, u), nth_mem hu, hkeys _ hcm⟩
    · have hmin := mem_minus.2 ⟨hB, hA⟩
      have hp : ((f.1, m), f.2.1) ∈ ps.map (·.2) := by
        by_contra hn
        have := hadd _ (List.mem_filter.2 ⟨hmin, by simpa using hn⟩)
        simp at this
      obtain ⟨p, hp, hp2⟩ := List.mem_map.1 hp
      obtain ⟨e, he, _, he2⟩ := mem_of_entry (mem_minus.1 (pairs_mem hps hp).1).1
      refine ⟨e, he, ?_⟩
      rw [he2, (hpair p hp).1, hp2]

/-- The same for the comparison by places. -/
theorem partner_at {D : Setup} (ho : OrdOK D.hooks) {rec : Rec} {x y : Val} {fa fb : FS} {la lb : List (Id Ident.Key × (Comp × Val))}
    (h : Nothing (compareKeys D.hooks rec (some x) (some y) fa fb (number [] (keyed la)) (number [] (keyed lb)))) :
    (∀ e ∈ la, ∃ f ∈ lb, f.2.1 = e.2.1 ∧ Nothing (descend rec (some x) (some y) fa fb (e.2.1, f.2.1))) ∧
    ∀ f ∈ lb, ∃ e ∈ la, e.2.1 = f.2.1 := by
  unfold compareKeys at h
  simp only [nothing_append, nothing_when, nothing_forEach, ho.mem, nothing_yield, List.mem_filter, List.mem_dedup,
    decide_eq_true_eq, Bool.not_eq_true', decide_eq_false_iff_not, mem_entries] at h
  obtain ⟨⟨h1, h2⟩, h3⟩ := h
  have hab : ∀ k, k ∈ places la → k ∈ places lb := fun k hk => by
    by_contra hn
    simpa using h2 k ⟨hk, hn⟩
  have hba : ∀ k, k ∈ places lb → k ∈ places la := fun k hk => by
    by_contra hn
    simpa using h3 k ⟨hk, hn⟩
  constructor
  · intro e he
    have hk := List.mem_map_of_mem (f := fun u : Id Ident.Key × (Comp × Val) => u.2.1) he
    obtain ⟨f, hf, hfk⟩ := List.mem_map.1 (hab _ hk)
    refine ⟨f, hf, hfk, ?_⟩
    have := h1 e.2.1 ⟨hk, hab _ hk⟩ rfl
    rw [hfk]
    exact this
  · intro f hf
    obtain ⟨e, he, hek⟩ := List.mem_map.1 (hba _ (List.mem_map_of_mem hf))
    exact ⟨e, he, hek⟩

theorem sub_trans {u v w : Val} (h1 : Sub u v) (h2 : Sub v w) : Sub u w := by
  induction h2 with
  | self => exact h1
  | list h _ ih => exact .list h ih
  | lcoll h _ ih => exact .lcoll h ih
  | dict h _ ih => exact .dict h ih
  | dcoll h _ ih => exact .dcoll h ih
  | rcd h _ ih => exact .rcd h ih

/-- The parts of an object have hashable items. -/
def AllHashable (S : Schema) (v : Val) : Prop := ∀ w, Sub w v → HashableItems S w

theorem records_nothing (D : Setup) (hst : Basic D.hooks o) (hs : ShowsAll o) {n' : Nat} {x y : Val}
    (hx : Real D.S x) (hy : Real D.S y) (htag : tagOf x = tagOf y)
    {c : String} {kd : CollKind} {n : String} (hcx : clsOf x = some c) (hcy : clsOf y = some c)
    (hcoll : (D.S.cls c).coll = some (kd, .one (.cls n))) {fa fb : FS}
    (ih : ∀ u w fa fb, Sub u x → Sub w y → comparable u = true → tagOf u = tagOf w →
      Nothing (diffIter D.hooks o n' (some u) (some w) fa fb) → veq D.S u w = .ok true)
    (h : Nothing (compareRecords D.hooks o (diffIter D.hooks o n') (.cls n) (some x) (some y) fa fb)) :
    veq D.S x y = .ok true := by
  unfold compareRecords at h
  simp only [idArgs_none hs.filter, idType_none hs.duck, bindE_ok, nothing_when] at h
  have h := h rfl
  simp only [nothing_bindE] at h
  obtain ⟨A, hA, B, hB, h⟩ := h
  unfold compareMembers at h
  obtain ⟨la, hla, rfl⟩ := collBag_members hA
  obtain ⟨lb, hlb, rfl⟩ := collBag_members hB
  have hp : (∀ e ∈ la, ∃ f ∈ lb, f.2.1 = e.2.1 ∧
      Nothing (descend (diffIter D.hooks o n') (some x) (some y) fa fb (e.2.1, f.2.1))) ∧
      ∀ f ∈ lb, ∃ e ∈ la, e.2.1 = f.2.1 := by
    cases hr : o.recurse with
    | false =>
      rw [hr] at h
      simp only [Bool.false_eq_true, if_false, Option.isNone_some, Bool.or_false] at h
      exact partner hst.ord hs.moved (fun e he => compareValues_tup hst hx hy hcx hcy hcoll hla hlb he) h
    | true =>
      rw [hr] at h
      simp only [if_true] at h
      exact partner_at hst.ord h
  obtain ⟨xs, hxs, la'⟩ := hla
  obtain ⟨ys, hys, lb'⟩ := hlb
  have hall : ∀ i : Id Ident.Key, (!(o.ignoreEmptyItems && idEmpty D.hooks i)) = true := fun i => by simp [hs.items]
  refine veq_of_members hx hy htag hxs hys ?_ ?_
  · intro e he
    rw [← labels_whole hall la'] at he
    obtain ⟨a, ha, rfl⟩ := List.mem_map.1 he
    obtain ⟨f, hf, hf2, hd⟩ := hp.1 a ha
    have m1 := (labels_mem la' ha).1
    have m2 := (labels_mem lb' hf).1
    rw [descend_items hx hy ⟨xs, hxs, la'⟩ ⟨ys, hys, lb'⟩ ha hf] at hd
    have hcu := member_cls hx hcx hcoll ⟨xs, hxs, la'⟩ ha
    have ht := tags_of_exc hst hcu hd.1
    exact ⟨f.2.2, by rw [← hf2]; exact m2, ih _ _ _ _ (sub_member hxs m1 _ (.self _)) (sub_member hys m2 _ (.self _))
      (comparable_cls hcu) ht hd⟩
  · intro f hf
    rw [← labels_whole hall lb'] at hf
    obtain ⟨a, ha, rfl⟩ := List.mem_map.1 hf
    obtain ⟨e, he, he2⟩ := hp.2 a ha
    exact ⟨e.2.2, by rw [← he2]; exact (labels_mem la' he).1⟩

theorem equal_of_nothing (D : Setup) (hc : ∀ p, D.compareAs p = none) (hi : ∀ v, D.compareItemAs v = none)
    (ho : OrdOK D.hooks) (L : AtomLaws D.S) (ht : ExactText D.text) (hs : ShowsAll o) :
    ∀ (n : Nat) (x y : Val) (fa fb : FS), Real D.S x → Real D.S y → AllHashable D.S x → AllHashable D.S y →
      comparable x = true → tagOf x = tagOf y → Nothing (diffIter D.hooks o n (some x) (some y) fa fb) →
      veq D.S x y = .ok true
  | 0, _, _, _, _, _, _, _, _, _, _, h => absurd h nothing_raise
  | n + 1, x, y, fa, fb, hx, hy, px, py, hcx, htag, h => by
    have ih := equal_of_nothing D hc hi ho L ht hs n
    have hst := basic_default D (.none hc) ho hs.duck hs.filter
    have h : Nothing (dispatch D.hooks o (diffIter D.hooks o n) (some x) (some y) fa fb) := h
    unfold dispatch at h
    have hsimple : (∀ c k n, clsOf x = some c → (D.S.cls c).coll ≠ some (k, .one (.cls n))) →
        Nothing (compareSimple D.hooks o (some x) (some y) fa fb) → veq D.S x y = .ok true :=
      fun hk h => simple_nothing D hi L ht hs ho hx hy htag (px x (.self x)) (py y (.self y)) hk h
    have hsub : ∀ u w fa fb, Sub u x → Sub w y → comparable u = true → tagOf u = tagOf w →
        Nothing (diffIter D.hooks o n (some u) (some w) fa fb) → veq D.S u w = .ok true := by
      intro u w fa fb su sw
      exact ih u w fa fb (hx.sub fun v hv => sub_trans hv su) (hy.sub fun v hv => sub_trans hv sw)
        (fun v hv => px v (sub_trans hv su)) (fun v hv => py v (sub_trans hv sw))
    have hcoll : ∀ c, clsOf x = some c → clsOf y = some c →
        Nothing (compareColl D.hooks o (diffIter D.hooks o n) c (some x) (some y) fa fb) → veq D.S x y = .ok true := by
      intro c hcx hcy h
      unfold compareColl at h
      split at h
      · exact absurd h nothing_raise
      · exact absurd h nothing_raise
      · rename_i kd t hct
        refine hsimple (fun c' k m hc' hcc => ?_) h
        rw [hcx] at hc'
        cases hc'
        have hct : (D.S.cls c).coll = _ := hct
        rw [hct] at hcc
        simp at hcc
      · rename_i kd m hct
        exact records_nothing D hst hs hx hy htag hcx hcy hct hsub h
    have hcy : ∀ c, tagOf x = some (.cls c) → clsOf y = some c := by
      intro c hc'
      rw [hc'] at htag
      cases y <;> simp [tagOf] at htag <;> simp [clsOf, htag]
    cases x with
    | atom a => simp [comparable, tagOf] at hcx
    | list xs => exact hsimple (by simp [clsOf]) h
    | dict xs => exact hsimple (by simp [clsOf]) h
    | lcoll c xs => exact hcoll c rfl (hcy c rfl) (nothing_append.1 h).1
    | dcoll c xs => exact hcoll c rfl (hcy c rfl) (nothing_append.1 h).1
    | rcd c s =>
      have hI := hx.2 _ (.self _)
      simp only [Spec.ItemsOK] at hI
      obtain ⟨t, rfl⟩ : ∃ t, y = .rcd c t := by
        have hJ := hy.2 _ (.self _)
        cases y with
        | rcd c' t => simp [tagOf] at htag; subst htag; exact ⟨t, rfl⟩
        | lcoll c' t =>
          simp [tagOf] at htag
          subst htag
          obtain ⟨⟨it, hit⟩, _⟩ := hJ
          rw [hI] at hit
          simp at hit
        | dcoll c' t =>
          simp [tagOf] at htag
          subst htag
          obtain ⟨⟨it, hit⟩, _⟩ := hJ
          rw [hI] at hit
          simp at hit
        | _ => simp [tagOf] at htag
      have h : Nothing (compareRecord D.hooks o (diffIter D.hooks o n) (some (.rcd c s)) (some (.rcd c t)) fa fb) := h
      unfold compareRecord at h
      split at h
      · exact absurd h nothing_raise
      rw [nothing_forEach] at h
      refine Ident.veq_rcd.2 ⟨rfl, fun p hp hpe => ?_⟩
      have h := h p ((mem_propsOf rfl).2 hp)
      unfold compareProp at h
      rw [nothing_when] at h
      have h := h ((isFiltered_compared hs.filter).2 (fun _ => hpe))
      simp only [nothing_bindE] at h
      obtain ⟨va, hva, vb, hvb, h⟩ := h
      have hva : D.hooks.normSlot (readAttr D.S (.rcd c s) p.name) p (some (.rcd c s)) = .ok va := hva
      have hvb : D.hooks.normSlot (readAttr D.S (.rcd c t) p.name) p (some (.rcd c t)) = .ok vb := hvb
      have hnorm : ∀ {r : Option Val} {obj w}, D.hooks.normSlot r p obj = .ok w → w = r := by
        intro r obj w hw
        cases r with
        | none =>
          have h2 : (Except.ok none : Except Exc (Option Val)) = .ok w := hw
          simpa using h2.symm
        | some v =>
          rw [normSlot_some D hc, normalize_exact ht] at hw
          simpa using hw.symm
      have ea := hnorm hva
      have eb := hnorm hvb
      subst ea eb
      cases h1 : readAttr D.S (.rcd c s) p.name with
      | none =>
        cases h2 : readAttr D.S (.rcd c t) p.name with
        | none => exact trivial
        | some w =>
          rw [h1, h2] at h
          simp only [compareVals, hs.duck, hs.slots, Bool.or_false, Bool.and_false, Bool.false_eq_true, if_false,
            nothing_yield] at h
          simp at h
      | some v =>
        cases h2 : readAttr D.S (.rcd c t) p.name with
        | none =>
          rw [h1, h2] at h
          simp only [compareVals, hs.duck, hs.slots, Bool.or_false, Bool.and_false, Bool.false_eq_true, if_false,
            nothing_yield] at h
          simp at h
        | some w =>
          rw [h1, h2] at h
          show veq D.S v w = .ok true
          simp only [compareVals, hs.duck, Bool.or_false] at h
          split at h
          · rename_i hd
            simp only [Bool.and_eq_true, Bool.or_eq_true, decide_eq_true_eq] at hd
            have hcu : comparable v = true := by
              rcases hd.1 with h | h
              · exact h
              · unfold comparable at h ⊢
                rw [hd.2]
                exact h
            have hv : tagOf v ≠ none := by
              intro h'
              simp [comparable, h'] at hcu
            have hw : tagOf w ≠ none := hd.2 ▸ hv
            exact hsub v w _ _ (sub_readAttr h1 hv v (.self v)) (sub_readAttr h2 hw w (.self w)) hcu hd.2 h
          · rw [nothing_bindE] at h
            obtain ⟨eq, heq, h⟩ := h
            cases eq with
            | false =>
              simp only [Bool.false_eq_true, if_false, nothing_yield] at h
              simp at h
            | true => exact heq

/-- **C118 (what holds).** If the items of lists, dicts and collections of values can be hashed, objects between which a
comparison that ignores nothing finds nothing are equal. -/
theorem C118_partial (D : Setup) (hc : ∀ p, D.compareAs p = none) (hi : ∀ v, D.compareItemAs v = none)
    (ho : OrdOK D.hooks) (L : AtomLaws D.S) (ht : ExactText D.text) (hs : ShowsAll o) (n : Nat)
    (x y : Val) (hx : Real D.S x) (hy : Real D.S y) (px : ∀ w, Sub w x → HashableItems D.S w)
    (py : ∀ w, Sub w y → HashableItems D.S w) (hcx : tagOf x ≠ none) (htag : tagOf x = tagOf y)
    (h : Nothing (diff D.hooks o n x y)) : veq D.S x y = .ok true := by
  refine equal_of_nothing D hc hi ho L ht hs n x y [] [] hx hy px py ?_ htag h
  cases h' : tagOf x with
  | none => exact absurd h' hcx
  | some g => simp [comparable, h']

/-! ## An example -/

namespace Ex

/-- A document with people, tags and a note. -/
def tagged (n : String) : Val := .rcd "Doc"
  [("people", .lcoll "People" [person 1 "Ann", person 2 "Bob"]), ("tags", .list [.str "x", .str "y"]), ("note", .str n)]

theorem real_tagged (n : String) : Real schema (tagged n) := by
  refine .rcd (by simp [Ident.Proper, schema, cls]) (by simp [schema, cls]) ?_
  intro x hx
  simp only [List.mem_cons, List.not_mem_nil, or_false] at hx
  rcases hx with rfl | rfl | rfl
  · exact real_people (by simp)
  · exact real_atoms (by simp; exact ⟨⟨_, rfl⟩, ⟨_, rfl⟩⟩)
  · exact .atom _

theorem hashable_tagged (n : String) : ∀ w, Sub w (tagged n) → HashableItems schema w := by
  intro w hw
  generalize hx : tagged n = x at hw
  cases hw with
  | self => subst hx; intro _ k w xs h; simp [tagged, tuplesOf] at h
  | rcd h1 h2 =>
    simp only [tagged, Val.rcd.injEq] at hx
    obtain ⟨_, rfl⟩ := hx
    simp only [List.mem_cons, Prod.mk.injEq, List.not_mem_nil, or_false] at h1
    rcases h1 with ⟨_, rfl⟩ | ⟨_, rfl⟩ | ⟨_, rfl⟩
    · generalize hy : Val.lcoll "People" _ = y at h2
      cases h2 with
      | self => subst hy; exact fun h => absurd rfl (h "People" .list "Person" rfl)
      | lcoll h3 h4 =>
        simp only [Val.lcoll.injEq] at hy
        obtain ⟨_, rfl⟩ := hy
        simp only [List.mem_cons, List.not_mem_nil, or_false] at h3
        rcases h3 with rfl | rfl
        all_goals
          generalize hz : person _ _ = z at h4
          cases h4 with
          | self => subst hz; intro _ k w xs h; simp [person, tuplesOf] at h
          | rcd h5 h6 =>
            simp only [person, Val.rcd.injEq] at hz
            obtain ⟨_, rfl⟩ := hz
            simp only [List.mem_cons, Prod.mk.injEq, List.not_mem_nil, or_false] at h5
            rcases h5 with ⟨_, rfl⟩ | ⟨_, rfl⟩ <;> (cases h6; intro _ k w xs h; simp [tuplesOf, Val.int, Val.str] at h)
          | _ => simp [person] at hz
      | _ => simp at hy
    · generalize hy : Val.list _ = y at h2
      cases h2 with
      | self =>
        subst hy
        intro _ k w xs h hw
        simp only [tuplesOf, Except.ok.injEq] at h
        subst h
        simp [Ident.enum] at hw
        rcases hw with ⟨_, rfl⟩ | ⟨_, rfl⟩ <;> rfl
      | list h3 h4 =>
        simp only [Val.list.injEq] at hy
        subst hy
        simp only [List.mem_cons, List.not_mem_nil, or_false] at h3
        rcases h3 with rfl | rfl <;> (cases h4; intro _ k w xs h; simp [tuplesOf, Val.str] at h)
      | _ => simp at hy
    · cases h2
      intro _ k w xs h
      simp [tuplesOf, Val.str] at h
  | _ => simp [tagged] at hx

/-- Every text option off. -/
def exact : TextOpts := { ignoreWs := false, ignoreCase := false, unicodeNormal := false, ignoreEmptySlots := false }

/-- Report moves. -/
def showAll : Opts := { moved := true }

end Ex

/-- Two documents that differ in their note only: nothing is found, so they are equal. -/
example : veq Ex.schema (Ex.tagged "one") (Ex.tagged "two") = .ok true :=
  C118_partial (Ex.setup Ex.exact) (fun _ => rfl) (fun _ => rfl) (Ex.ordOK _) Ex.laws ⟨rfl, rfl, rfl, rfl⟩
    (o := Ex.showAll) ⟨rfl, rfl, rfl, rfl, rfl⟩ 9 _ _ (Ex.real_tagged _) (Ex.real_tagged _)
    (Ex.hashable_tagged _) (Ex.hashable_tagged _) (by simp [Ex.tagged, tagOf]) rfl
    ⟨by decide +kernel, by decide +kernel⟩

/-! ## What does not hold -/

namespace Ex

/-- Lists are written the way python does it. -/
def setupRepr : Setup := { setup exact with repr := fun v => if v = .list [.int 1] then "[1]" else "<...>" }

/-- A document with a tag. -/
def oneTag (v : Val) : Val := .rcd "Doc" [("tags", .list [v])]

theorem real_oneTag {v : Val} (h : Real schema v) : Real schema (oneTag v) := by
  refine .rcd (by simp [Ident.Proper, schema, cls]) (by simp [schema, cls]) ?_
  intro x hx
  simp only [List.mem_cons, List.not_mem_nil, or_false] at hx
  subst hx
  refine .list ?_
  intro x hx
  simp only [List.mem_cons, List.not_mem_nil, or_false] at hx
  subst hx
  exact h

end Ex

/-- **C118 does not hold**: items that cannot be hashed are replaced by their text, so `["[1]"]` and `[[1]]` are taken
for the same list. -/
theorem C118_violated : ¬ C118_statement := by
  intro h
  have := h Ex.setupRepr Ex.showAll 9 (Ex.oneTag (.str "[1]")) (Ex.oneTag (.list [.int 1])) (fun _ => rfl) (fun _ => rfl)
    (fun _ _ => List.Perm.refl _) Ex.laws ⟨rfl, rfl, rfl, rfl⟩ ⟨rfl, rfl, rfl, rfl, rfl⟩
    (Ex.real_oneTag (.atom _)) (Ex.real_oneTag (.list (by simp; exact .atom _))) (by simp [Ex.oneTag, tagOf]) rfl
    ⟨by decide +kernel, by decide +kernel⟩
  exact absurd this (by decide +kernel)

end Normalize.Diff
