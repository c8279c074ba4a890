import Verif.Lemmas.MemSimW

/-! `put` and `delete` along a whole path. -/

namespace Normalize.Mem

open Normalize.Spec

/-! ## One part among others -/

theorem ownsL_split {m : Mem} {ts : List Val} : ∀ {rs : List Ref} {ls : List Nat} {k : Nat} {t1 : Val} {y : Ref},
    OwnsL m ts rs ls → ts[k]? = some t1 → rs[k]? = some y →
    ∃ l0 l1 l2, ls = l0 ++ (l1 ++ l2) ∧ Owns m t1 y l1 ∧ ∀ m' t', (∀ l ∈ l0 ++ l2, m'[l]? = m[l]?) → Looks m' t' y →
      List.Forall₂ (Looks m') (ts.set k t') rs := by
  induction ts with
  | nil => intro rs ls k t1 y _ h; simp at h
  | cons t ts ih =>
    intro rs ls k t1 y h ht hr
    rw [OwnsL] at h
    obtain ⟨r, rs', la, lb, rfl, h1, h2, rfl⟩ := h
    cases k with
    | zero =>
      simp only [List.getElem?_cons_zero, Option.some.injEq] at ht hr
      subst ht; subst hr
      refine ⟨[], la, lb, rfl, h1, fun m' t' hl hL => .cons hL ?_⟩
      exact ownsL_forall2.mp ⟨lb, ownsL_intact ts rs' lb h2 (fun t _ r ls h hi => owns_intact t r ls h hi)
        (fun l h => hl l (by simp [h]))⟩
    | succ k =>
      simp only [List.getElem?_cons_succ] at ht hr
      obtain ⟨l0, l1, l2, rfl, h3, h4⟩ := ih h2 ht hr
      refine ⟨la ++ l0, l1, l2, by simp, h3, fun m' t' hl hL => .cons ?_ (h4 m' t' (fun l h => hl l ?_) hL)⟩
      · exact ⟨la, owns_intact t r la h1 (fun l h => hl l (by simp [h]))⟩
      · rcases List.mem_append.mp h with h | h <;> simp [h]

theorem ownsP_split {κ : Type} [DecidableEq κ] {m : Mem} {ts : List (κ × Val)} (c : κ) :
    ∀ {rs : List (κ × Ref)} {ls : List Nat} {t1 : Val} {y : Ref}, rs.map (·.1) = ts.map (·.1) →
    OwnsL m (ts.map (·.2)) (rs.map (·.2)) ls → alookup ts c = some t1 → alookup rs c = some y →
    ∃ l0 l1 l2, ls = l0 ++ (l1 ++ l2) ∧ Owns m t1 y l1 ∧ ∀ m' t', (∀ l ∈ l0 ++ l2, m'[l]? = m[l]?) → Looks m' t' y →
      Pairs (Looks m') (aset ts c t') rs := by
  induction ts with
  | nil => intro rs ls t1 y _ _ h; cases h
  | cons t ts ih =>
    obtain ⟨k, t⟩ := t
    intro rs ls t1 y hk h ht hr
    cases rs with
    | nil => cases hk
    | cons r rs =>
    obtain ⟨k', r⟩ := r
    simp only [List.map_cons, List.cons.injEq] at hk
    obtain ⟨rfl, hk⟩ := hk
    simp only [List.map_cons] at h
    rw [OwnsL] at h
    obtain ⟨r', rs', la, lb, e, h1, h2, rfl⟩ := h
    simp only [List.cons.injEq] at e
    obtain ⟨rfl, rfl⟩ := e
    simp only [alookup] at ht hr
    simp only [aset]
    by_cases hc : k' = c
    · rw [if_pos hc] at ht hr
      cases ht; cases hr
      refine ⟨[], la, lb, rfl, h1, fun m' t' hl hL => ?_⟩
      rw [if_pos hc]
      refine .cons ⟨by simp [hc], hL⟩ (pairs_iff.mpr ⟨hk, ?_⟩)
      exact ownsL_forall2.mp ⟨lb, ownsL_intact _ _ lb h2 (fun t _ r ls h hi => owns_intact t r ls h hi)
        (fun l h => hl l (by simp [h]))⟩
    · rw [if_neg hc] at ht hr
      obtain ⟨l0, l1, l2, rfl, h3, h4⟩ := ih hk h2 ht hr
      refine ⟨la ++ l0, l1, l2, by simp, h3, fun m' t' hl hL => ?_⟩
      rw [if_neg hc]
      refine .cons ⟨rfl, ?_⟩ (h4 m' t' (fun l h => hl l ?_) hL)
      · exact ⟨la, owns_intact t r la h1 (fun l h => hl l (by simp [h]))⟩
      · rcases List.mem_append.mp h with h | h <;> simp [h]

/-- Going to a part, and what the whole looks like when the part has changed. -/
def Part (m : Mem) (t : Val) (l : Nat) (ls : List Nat) (c : Comp) (t1 : Val) (y : Ref) : Prop :=
  ∃ l0 l1 l2, ls = l0 ++ (l1 ++ l2) ∧ Owns m t1 y l1 ∧ ∀ m' t', m'[l]? = m[l]? → (∀ k ∈ l0 ++ l2, m'[k]? = m[k]?) →
    Looks m' t' y → Looks m' (replaceChild t c t') (.ptr l)

theorem getItem_part {m : Mem} {t : Val} {l : Nat} {o : Obj} {ls : List Nat} (hm : m[l]? = some o)
    (h : ObjLooks m t o ls) {c : Comp} {t1 : Val} {y : Ref} (ht : Normalize.getItem t c = .ok t1)
    (hy : getItem o c = .ok y) : Part m t l ls c t1 y := by
  have hidx : ∀ {α : Type} {xs : List α} {i : Int} {a : α}, getIdx xs i = some a →
      ∃ k, pyIndex xs.length i = some k ∧ xs[k]? = some a := by
    intro α xs i a h
    unfold getIdx at h
    cases hk : pyIndex xs.length i with
    | none => rw [hk] at h; cases h
    | some k => rw [hk] at h; exact ⟨k, rfl, h⟩
  have hseq : ∀ {ts : List Val} {rs : List Ref} {i : Int}, OwnsL m ts rs ls → getIdx ts i = some t1 →
      getIdx rs i = some y → ∃ l0 l1 l2, ls = l0 ++ (l1 ++ l2) ∧ Owns m t1 y l1 ∧ ∀ m' t',
        (∀ l ∈ l0 ++ l2, m'[l]? = m[l]?) → Looks m' t' y → List.Forall₂ (Looks m') (setIdx ts i t') rs := by
    intro ts rs i h h1 h2
    obtain ⟨k, hk, h1⟩ := hidx h1
    obtain ⟨k', hk', h2⟩ := hidx h2
    have hlen := (ownsL_forall2.mp ⟨ls, h⟩).length_eq
    rw [hlen, hk'] at hk
    cases hk
    obtain ⟨l0, l1, l2, e, ho, hrest⟩ := ownsL_split h h1 h2
    refine ⟨l0, l1, l2, e, ho, fun m' t' hi hL => ?_⟩
    unfold setIdx
    rw [hlen, hk']
    exact hrest m' t' hi hL
  cases h with
  | list h =>
    cases c with
    | none => cases ht
    | str s => cases ht
    | int i =>
      simp only [Normalize.getItem, getItem] at ht hy
      split at ht <;> cases ht
      split at hy <;> cases hy
      rename_i h1 _ h2
      obtain ⟨l0, l1, l2, e, ho, hrest⟩ := hseq h h1 h2
      exact ⟨l0, l1, l2, e, ho, fun m' t' hl hi hL =>
        looks_ptr (hl.trans hm) (.list (hrest m' t' hi hL)) (fun a h => nomatch h)⟩
  | lcoll h =>
    cases c with
    | none => cases ht
    | str s => cases ht
    | int i =>
      simp only [Normalize.getItem, getItem] at ht hy
      split at ht <;> cases ht
      split at hy <;> cases hy
      rename_i h1 _ h2
      obtain ⟨l0, l1, l2, e, ho, hrest⟩ := hseq h h1 h2
      exact ⟨l0, l1, l2, e, ho, fun m' t' hl hi hL =>
        looks_ptr (hl.trans hm) (.lcoll (hrest m' t' hi hL)) (fun a h => nomatch h)⟩
  | dict hk h =>
    simp only [Normalize.getItem, getItem] at ht hy
    split at ht <;> cases ht
    split at hy <;> cases hy
    rename_i h1 _ h2
    obtain ⟨l0, l1, l2, e, ho, hrest⟩ := ownsP_split c hk h h1 h2
    refine ⟨l0, l1, l2, e, ho, fun m' t' hl hi hL =>
      looks_ptr (hl.trans hm) ?_ (fun a h => nomatch h)⟩
    simp only [replaceChild, areplace, h1, Option.isSome_some, if_true]
    exact .dict (hrest m' t' hi hL)
  | dcoll hk h =>
    simp only [Normalize.getItem, getItem] at ht hy
    split at ht <;> cases ht
    split at hy <;> cases hy
    rename_i h1 _ h2
    obtain ⟨l0, l1, l2, e, ho, hrest⟩ := ownsP_split c hk h h1 h2
    refine ⟨l0, l1, l2, e, ho, fun m' t' hl hi hL =>
      looks_ptr (hl.trans hm) ?_ (fun a h => nomatch h)⟩
    simp only [replaceChild, areplace, h1, Option.isSome_some, if_true]
    exact .dcoll (hrest m' t' hi hL)
  | rcd hk h => cases c <;> cases ht

theorem getAttr_part {E : Normalize.Env} {F : Env} (hF : Follows E F) {m : Mem} {t : Val} {l : Nat} {o : Obj}
    {ls : List Nat} (hm : m[l]? = some o)
    (h : ObjLooks m t o ls) {c : Comp} {t1 : Val} {y : Ref} (ht : Normalize.getAttr E t c = .ok t1)
    (hy : getAttr F o c = .ok y) : Part m t l ls c t1 y := by
  have hall := h
  cases h with
  | list h => cases c <;> cases ht
  | lcoll h => cases c <;> cases ht
  | dict hk h => cases c <;> cases ht
  | dcoll hk h => cases c <;> cases ht
  | @rcd cls ts rs _ hk h =>
    cases c with
    | none => cases ht
    | int i => cases ht
    | str nm =>
      have hP := pairs_lookup (pairs_iff.mpr ⟨hk, ownsL_forall2.mp ⟨ls, h⟩⟩) nm
      simp only [Normalize.getAttr, getAttr, unset_sim hF] at ht hy
      cases h1 : alookup ts nm with
      | none =>
        rw [h1] at hP ht
        cases h2 : alookup rs nm with
        | some b => rw [h2] at hP; exact hP.elim
        | none =>
          rw [h2] at hy
          simp only at ht hy
          cases hu : (F.attr cls nm).bind (·.unset) with
          | none => rw [hu] at ht; cases ht
          | some a =>
            rw [hu] at ht hy
            cases ht; cases hy
            refine ⟨ls, [], [], by simp, by rw [Owns]; exact ⟨rfl, rfl⟩, fun m' t' hl hi _ => ?_⟩
            simp only [replaceChild, areplace, h1, Option.isSome_none, Bool.false_eq_true, if_false]
            refine ⟨l :: ls, owns_intact _ _ _ (owns_iff.mpr (Or.inr ⟨l, _, ls, rfl, hm, hall, rfl⟩)) ?_⟩
            intro k hk
            rcases List.mem_cons.mp hk with rfl | hk
            · exact hl
            · exact hi k (by simp [hk])
      | some a =>
        rw [h1] at hP ht
        cases h2 : alookup rs nm with
        | none => rw [h2] at hP; exact hP.elim
        | some b =>
          rw [h2] at hy
          cases ht; cases hy
          obtain ⟨l0, l1, l2, e, ho, hrest⟩ := ownsP_split nm hk h h1 h2
          refine ⟨l0, l1, l2, e, ho, fun m' t' hl hi hL =>
            looks_ptr (hl.trans hm) ?_ (fun a h => nomatch h)⟩
          simp only [replaceChild, areplace, h1, Option.isSome_some, if_true]
          exact .rcd (hrest m' t' hi hL)

theorem step_part {E : Normalize.Env} {F : Env} (hF : Follows E F) {m : Mem} {t : Val} {l : Nat} {o : Obj}
    {ls : List Nat} (hm : m[l]? = some o) (h : ObjLooks m t o ls) {c : Comp} {t1 : Val} {y : Ref}
    (ht : Normalize.step E t c = .ok t1) (hy : step F o c = .ok y) : Part m t l ls c t1 y := by
  unfold Normalize.step at ht
  unfold step at hy
  rw [tryIndex_sim (objLooks_R h) c] at ht
  cases hi : tryIndex o c with
  | true =>
    rw [hi] at ht hy
    simp only [if_true] at ht hy
    split at ht <;> cases ht
    split at hy <;> cases hy
    rename_i h1 _ h2
    exact getItem_part hm h h1 h2
  | false =>
    rw [hi] at ht hy
    simp only [Bool.false_eq_true, if_false] at ht hy
    split at ht <;> cases ht
    split at hy <;> cases hy
    rename_i h1 _ h2
    exact getAttr_part hF hm h h1 h2

theorem stepPut_part {E : Normalize.Env} {F : Env} (hF : Follows E F) {m : Mem} {t : Val} {l : Nat} {o : Obj}
    {ls : List Nat} (hm : m[l]? = some o) (h : ObjLooks m t o ls) {c : Comp} {t1 : Val} {y : Ref}
    (ht : Normalize.stepPut E t c = .ok t1) (hy : stepPut F o c = .ok y) : Part m t l ls c t1 y := by
  unfold Normalize.stepPut at ht
  unfold stepPut at hy
  rw [tryIndex_sim (objLooks_R h) c] at ht
  cases hi : tryIndex o c with
  | true =>
    rw [hi] at ht hy
    simp only [if_true] at ht hy
    split at ht <;> cases ht
    split at hy <;> cases hy
    rename_i h1 _ h2
    exact getItem_part hm h h1 h2
  | false =>
    rw [hi] at ht hy
    simp only [Bool.false_eq_true, if_false] at ht hy
    split at ht <;> cases ht
    split at hy <;> cases hy
    rename_i h1 _ h2
    exact getAttr_part hF hm h h1 h2

/-! ## Whole paths -/

/-- A write to an object that shares nothing follows the write to its tree. -/
def Sim (tv : Val) (v : Ref) (f : Val → Normalize.Eff Unit) (g : Ref → Mem → Eff Unit) : Prop :=
  ∀ t x m ls, Owns m t x ls → ls.Nodup → Looks m tv v → (∀ l ∈ ls, ¬ PartOf m v l) →
    (g x m).1 = (f t).1 ∧ (∀ l, l < m.length → l ∉ ls → (g x m).2[l]? = m[l]?) ∧ Looks (g x m).2 (f t).2 x

/-- What the object consists of afterwards. -/
theorem parts_after {g : Ref → Mem → Eff Unit} {v : Ref} (hg : Writes g v) {m : Mem} {x : Ref} (hx : Exist m x)
    (hv : Exist m v) : m.length ≤ (g x m).2.length ∧
      ∀ l, PartOf (g x m).2 x l → l < m.length → PartOf m x l ∨ PartOf m v l := by
  obtain ⟨G, hs⟩ := hg x m (fun l => PartOf m x l ∨ PartOf m v l) (reg_or (reg_part hx) (reg_part hv))
    (in_of_parts (fun l h => Or.inr h)) (in_of_parts (fun l h => Or.inl h))
  refine ⟨hs.len, fun l hp hl => hs.old l (hs.reg.part ?_ hp) hl⟩
  exact (in_of_parts (m := m) (A := fun l => PartOf m x l ∨ PartOf m v l) (fun l h => Or.inl h)).mono hs.sub

/-- The loops over the items: what happens to the first item and then to the rest. -/
theorem loop_cons {tv : Val} {v : Ref} {f : Val → Normalize.Eff Unit} {g : Ref → Mem → Eff Unit} (hf : Sim tv v f g)
    (hg : Writes g v) {t : Val} {x : Ref} {ts : List Val} {rs : List Ref} {m : Mem} {l1 l2 : List Nat}
    (h1 : Owns m t x l1) (h2 : OwnsL m ts rs l2) (hn : (l1 ++ l2).Nodup) (hv : Looks m tv v)
    (hd : ∀ l ∈ l1 ++ l2, ¬ PartOf m v l) :
    (g x m).1 = (f t).1 ∧ OwnsL (g x m).2 ts rs l2 ∧ Looks (g x m).2 tv v ∧ (∀ l ∈ l2, ¬ PartOf (g x m).2 v l) ∧
      m.length ≤ (g x m).2.length ∧ Looks (g x m).2 (f t).2 x ∧
      (∀ l, l < m.length → l ∉ l1 → (g x m).2[l]? = m[l]?) ∧
      (∀ m', (∀ l, l < (g x m).2.length → l ∉ l2 → m'[l]? = (g x m).2[l]?) → Looks m' (f t).2 x) := by
  obtain ⟨hn1, hn2, hdis⟩ := List.nodup_append.mp hn
  obtain ⟨e, hfr, hL⟩ := hf t x m l1 h1 hn1 hv (fun l hl => hd l (by simp [hl]))
  have hvi : Intact m (g x m).2 v := fun l hp =>
    hfr l (looks_exist hv l hp) (fun hl => hd l (by simp [hl]) hp)
  have h2lt : ∀ l ∈ l2, l < m.length := by
    intro l hl
    obtain ⟨t', _, r', _, l', ho, hl'⟩ := (ownsL_mem h2).2 l hl
    exact owns_lt t' r' l' ho l hl'
  obtain ⟨hlen, hpa⟩ := parts_after hg (looks_exist ⟨l1, h1⟩) (looks_exist hv)
  refine ⟨e, ?_, looks_intact hv hvi, ?_, hlen, hL, hfr, ?_⟩
  · exact ownsL_intact ts rs l2 h2 (fun t _ r ls h hi => owns_intact t r ls h hi)
      (fun l hl => hfr l (h2lt l hl) (fun h => hdis l h l hl rfl))
  · intro l hl hp
    exact hd l (by simp [hl]) ((part_intact hvi).mp hp)
  · intro m' hm'
    refine looks_intact hL (fun l hp => hm' l (looks_exist hL l hp) (fun hl => ?_))
    rcases hpa l hp (h2lt l hl) with h | h
    · exact hdis l ((owns_part t x l1 h1 l).mp h) l hl rfl
    · exact hd l (by simp [hl]) h

theorem forItems_sim {tv : Val} {v : Ref} {f : Val → Normalize.Eff Unit} {g : Ref → Mem → Eff Unit}
    (hf : Sim tv v f g) (hg : Writes g v) : ∀ (ts : List Val) (rs : List Ref) (m : Mem) (ls : List Nat),
      OwnsL m ts rs ls → ls.Nodup → Looks m tv v → (∀ l ∈ ls, ¬ PartOf m v l) →
      (forItems g rs m).1 = (Normalize.forItems f ts).1 ∧
      (∀ l, l < m.length → l ∉ ls → (forItems g rs m).2[l]? = m[l]?) ∧
      List.Forall₂ (Looks (forItems g rs m).2) (Normalize.forItems f ts).2 rs := by
  intro ts
  induction ts with
  | nil =>
    intro rs m ls h _ _ _
    rw [OwnsL] at h
    obtain ⟨rfl, rfl⟩ := h
    exact ⟨rfl, fun _ _ _ => rfl, .nil⟩
  | cons t ts ih =>
    intro rs m ls h hn hv hd
    rw [OwnsL] at h
    obtain ⟨x, rs, l1, l2, rfl, h1, h2, rfl⟩ := h
    obtain ⟨e, h2', hv', hd', hlen, hL, hfr, hstay⟩ := loop_cons hf hg h1 h2 hn hv hd
    obtain ⟨ie, ifr, iL⟩ := ih rs (g x m).2 l2 h2' (List.nodup_append.mp hn).2.1 hv' hd'
    simp only [Normalize.forItems, forItems]
    cases hgx : g x m with
    | mk a m1 =>
      cases hft : f t with
      | mk b t1 =>
        rw [hgx, hft] at e hL
        rw [hft] at hstay
        rw [hgx] at h2' hlen hfr ie ifr iL hstay
        simp only at e hL h2' hlen hfr ie ifr iL hstay
        subst e
        cases a with
        | error e =>
          exact ⟨rfl, fun l hl hnl => hfr l hl (fun h => hnl (by simp [h])), .cons hL (ownsL_forall2.mp ⟨l2, h2'⟩)⟩
        | ok u =>
          refine ⟨ie, fun l hl hnl => ?_, .cons (hstay _ ifr) iL⟩
          rw [ifr l (by omega) (fun h => hnl (by simp [h])), hfr l hl (fun h => hnl (by simp [h]))]

theorem wildDelete_sim {tv : Val} {v : Ref} {f : Val → Normalize.Eff Unit} {g : Ref → Mem → Eff Unit}
    (hf : Sim tv v f g) (hg : Writes g v) : ∀ (ts : List Val) (rs : List Ref) (s : AllExc) (m : Mem) (ls : List Nat),
      OwnsL m ts rs ls → ls.Nodup → Looks m tv v → (∀ l ∈ ls, ¬ PartOf m v l) →
      (wildDelete g rs s m).1 = (Normalize.wildDelete f ts s).1 ∧
      (∀ l, l < m.length → l ∉ ls → (wildDelete g rs s m).2[l]? = m[l]?) ∧
      List.Forall₂ (Looks (wildDelete g rs s m).2) (Normalize.wildDelete f ts s).2 rs := by
  intro ts
  induction ts with
  | nil =>
    intro rs s m ls h _ _ _
    rw [OwnsL] at h
    obtain ⟨rfl, rfl⟩ := h
    cases s <;> exact ⟨rfl, fun _ _ _ => rfl, .nil⟩
  | cons t ts ih =>
    intro rs s m ls h hn hv hd
    rw [OwnsL] at h
    obtain ⟨x, rs, l1, l2, rfl, h1, h2, rfl⟩ := h
    obtain ⟨e, h2', hv', hd', hlen, hL, hfr, hstay⟩ := loop_cons hf hg h1 h2 hn hv hd
    have IH := fun s => ih rs s (g x m).2 l2 h2' (List.nodup_append.mp hn).2.1 hv' hd'
    simp only [Normalize.wildDelete, wildDelete]
    cases hgx : g x m with
    | mk a m1 =>
      cases hft : f t with
      | mk b t1 =>
        rw [hgx, hft] at e hL
        rw [hft] at hstay
        rw [hgx] at h2' hlen hfr IH hstay
        simp only at e hL h2' hlen hfr IH hstay
        subst e
        cases a with
        | error e =>
          simp only
          cases e.isFieldSelector with
          | true =>
            simp only [if_true]
            obtain ⟨ie, ifr, iL⟩ := IH (s.failure e)
            refine ⟨ie, fun l hl hnl => ?_, .cons (hstay _ ifr) iL⟩
            rw [ifr l (by omega) (fun h => hnl (by simp [h])), hfr l hl (fun h => hnl (by simp [h]))]
          | false =>
            exact ⟨rfl, fun l hl hnl => hfr l hl (fun h => hnl (by simp [h])), .cons hL (ownsL_forall2.mp ⟨l2, h2'⟩)⟩
        | ok u =>
          obtain ⟨ie, ifr, iL⟩ := IH s.success
          refine ⟨ie, fun l hl hnl => ?_, .cons (hstay _ ifr) iL⟩
          rw [ifr l (by omega) (fun h => hnl (by simp [h])), hfr l hl (fun h => hnl (by simp [h]))]

/-- The items of an object that shares nothing: its parts, or new atoms. -/
theorem iter_owns {m : Mem} {t : Val} {o : Obj} {ls : List Nat} (h : ObjLooks m t o ls) :
    (iterVal t = .error .typeError ∧ iterObj o = .error .typeError) ∨
    (∃ ts rs, iterVal t = .ok ts ∧ iterObj o = .ok rs ∧ OwnsL m ts rs [] ∧ ∀ us, withItems t us = t) ∨
    (∃ ts rs, iterVal t = .ok ts ∧ iterObj o = .ok rs ∧ OwnsL m ts rs ls ∧
      ∀ m' us, List.Forall₂ (Looks m') us rs → ObjR (Looks m') (withItems t us) o ∧ ∀ a, o ≠ .atom a) := by
  have hk : ∀ {ts : List (Comp × Val)} {rs : List (Comp × Ref)}, rs.map (·.1) = ts.map (·.1) →
      OwnsL m (ts.map (fun x => Normalize.ofComp x.1)) (rs.map (fun x => ofComp x.1)) [] := by
    intro ts
    induction ts with
    | nil =>
      intro rs h
      cases rs with
      | nil => simp [OwnsL]
      | cons r rs => cases h
    | cons t ts ih =>
      intro rs h
      cases rs with
      | nil => cases h
      | cons r rs =>
        simp only [List.map_cons, List.cons.injEq] at h
        simp only [List.map_cons]
        rw [OwnsL]
        refine ⟨_, _, [], [], rfl, ?_, ih h.2, rfl⟩
        rw [h.1]
        cases t.1 <;> simp [Normalize.ofComp, ofComp, Owns, Val.none, Val.int, Val.str]
  cases h with
  | list h => exact Or.inr (Or.inr ⟨_, _, rfl, rfl, h, fun m' us hu => ⟨.list hu, fun a h => nomatch h⟩⟩)
  | lcoll h => exact Or.inr (Or.inr ⟨_, _, rfl, rfl, h, fun m' us hu => ⟨.lcoll hu, fun a h => nomatch h⟩⟩)
  | dict h _ => exact Or.inr (Or.inl ⟨_, _, rfl, rfl, hk h, fun us => rfl⟩)
  | dcoll h _ => exact Or.inr (Or.inl ⟨_, _, rfl, rfl, hk h, fun us => rfl⟩)
  | rcd h _ => exact Or.inl ⟨rfl, rfl⟩

theorem iter_atom {m : Mem} (a : Atom) :
    (iterVal (.atom a) = .error .typeError ∧ iterObj (.atom a) = .error .typeError) ∨
    (∃ ts rs, iterVal (.atom a) = .ok ts ∧ iterObj (.atom a) = .ok rs ∧ OwnsL m ts rs [] ∧
      ∀ us, withItems (.atom a) us = .atom a) := by
  cases a with
  | str s =>
    refine Or.inr ⟨_, _, rfl, rfl, ?_, fun us => rfl⟩
    induction s.toList with
    | nil => simp [OwnsL]
    | cons c cs ih =>
      simp only [List.map_cons]
      rw [OwnsL]
      exact ⟨_, _, [], [], rfl, by simp [Owns, Val.str], ih, rfl⟩
  | none => exact Or.inl ⟨rfl, rfl⟩
  | bool b => exact Or.inl ⟨rfl, rfl⟩
  | int i => exact Or.inl ⟨rfl, rfl⟩
  | opq n => exact Or.inl ⟨rfl, rfl⟩

/-- A loop over the items of an object. -/
theorem wild_sim {t : Val} {x : Ref} {m : Mem} {ls : List Nat} (h : Owns m t x ls) (hn : ls.Nodup)
    {f : List Val → Except Exc Unit × List Val} {g : List Ref → Mem → Eff Unit}
    {te : Normalize.Eff Unit} {me : Eff Unit}
    (hte : te = match iterVal t with
      | .error e => (.error e, t)
      | .ok items => ((f items).1, withItems t (f items).2))
    (hme : me = match iterObj (deref m x) with
      | .error e => (.error e, m)
      | .ok items => g items m)
    (hfg : ∀ ts rs ls', OwnsL m ts rs ls' → ls'.Nodup → (∀ l ∈ ls', l ∈ ls) → (g rs m).1 = (f ts).1 ∧
      (∀ l, l < m.length → l ∉ ls' → (g rs m).2[l]? = m[l]?) ∧ List.Forall₂ (Looks (g rs m).2) (f ts).2 rs) :
    me.1 = te.1 ∧ (∀ l, l < m.length → l ∉ ls → me.2[l]? = m[l]?) ∧ Looks me.2 te.2 x := by
  subst hte; subst hme
  have hlt := owns_lt t x ls h
  have keep : ∀ {ts rs}, OwnsL m ts rs [] → (∀ l, l < m.length → l ∉ ls → (g rs m).2[l]? = m[l]?) ∧
      Looks (g rs m).2 t x := by
    intro ts rs hl
    obtain ⟨_, hfr, _⟩ := hfg ts rs [] hl List.nodup_nil (by simp)
    exact ⟨fun l hl _ => hfr l hl (by simp), ls, owns_intact t x ls h (fun l hl => hfr l (hlt l hl) (by simp))⟩
  rcases owns_iff.mp h with ⟨a, rfl, rfl, rfl⟩ | ⟨l, o, ls', rfl, h2, h3, rfl⟩
  · simp only [deref]
    rcases iter_atom (m := m) a with ⟨e1, e2⟩ | ⟨ts, rs, e1, e2, hl, hw⟩
    · rw [e1, e2]; exact ⟨rfl, fun _ _ _ => rfl, ⟨_, h⟩⟩
    · rw [e1, e2]
      simp only [hw]
      exact ⟨(hfg ts rs [] hl List.nodup_nil (by simp)).1, keep hl⟩
  · simp only [deref, h2, Option.getD_some]
    rcases iter_owns h3 with ⟨e1, e2⟩ | ⟨ts, rs, e1, e2, hl, hw⟩ | ⟨ts, rs, e1, e2, hl, hw⟩
    · rw [e1, e2]; exact ⟨rfl, fun _ _ _ => rfl, ⟨_, h⟩⟩
    · rw [e1, e2]
      simp only [hw]
      exact ⟨(hfg ts rs [] hl List.nodup_nil (by simp)).1, keep hl⟩
    · rw [e1, e2]
      obtain ⟨hn1, hn2⟩ := List.nodup_cons.mp hn
      obtain ⟨he, hfr, hL⟩ := hfg ts rs ls' hl hn2 (fun l h => by simp [h])
      refine ⟨he, fun k hk hnk => hfr k hk (fun h => hnk (by simp [h])), ?_⟩
      obtain ⟨ho, hna⟩ := hw _ _ hL
      exact looks_ptr ((hfr l (hlt l (by simp)) hn1).trans h2) ho hna

/-- A step to a part, then the rest of the path. -/
theorem path_sim {tv : Val} {v : Ref} {f : Val → Normalize.Eff Unit} {g : Ref → Mem → Eff Unit}
    (hf : Sim tv v f g) {m : Mem} {t t1 : Val} {l : Nat} {y : Ref} {ls : List Nat} {c : Comp}
    (h : Owns m t (.ptr l) (l :: ls)) (hn : (l :: ls).Nodup) (hv : Looks m tv v)
    (hd : ∀ k ∈ l :: ls, ¬ PartOf m v k) (hp : Part m t l ls c t1 y) :
    (g y m).1 = (f t1).1 ∧ (∀ k, k < m.length → k ∉ l :: ls → (g y m).2[k]? = m[k]?) ∧
      Looks (g y m).2 (replaceChild t c (f t1).2) (.ptr l) := by
  obtain ⟨l0, l1, l2, rfl, ho, hrest⟩ := hp
  obtain ⟨hnl, hn2⟩ := List.nodup_cons.mp hn
  obtain ⟨_, hn3, hd1⟩ := List.nodup_append.mp hn2
  obtain ⟨hn4, _, hd2⟩ := List.nodup_append.mp hn3
  have hlt := owns_lt t _ _ h
  obtain ⟨he, hfr, hL⟩ := hf t1 y m l1 ho hn4 hv (fun k hk => hd k (by simp [hk]))
  refine ⟨he, fun k hk hnk => hfr k hk (fun h => hnk (by simp [h])), hrest _ _ ?_ ?_ hL⟩
  · exact hfr l (hlt l (by simp)) (fun h => hnl (by simp [h]))
  · intro k hk
    refine hfr k (hlt k ?_) (fun hk1 => ?_)
    · rcases List.mem_append.mp hk with h | h <;> simp [h]
    · rcases List.mem_append.mp hk with h | h
      · exact hd1 k h k (by simp [hk1]) rfl
      · exact hd2 k hk1 k h rfl

theorem put_cons {E : Normalize.Env} (c d : Comp) (p : FS) (v x : Val) (hc : c ≠ .none) :
    Normalize.put E (c :: d :: p) v x = match Normalize.stepPut E x c with
      | .error e => (.error e, x)
      | .ok y => ((Normalize.put E (d :: p) v y).1, replaceChild x c (Normalize.put E (d :: p) v y).2) := by
  cases c with
  | none => exact absurd rfl hc
  | int i => rw [Normalize.put]; rfl; all_goals simp
  | str i => rw [Normalize.put]; rfl; all_goals simp

theorem mput_cons {F : Env} (c d : Comp) (p : FS) (v x : Ref) (m : Mem) (hc : c ≠ .none) :
    put F (c :: d :: p) v x m = match stepPut F (deref m x) c with
      | .error e => (.error e, m)
      | .ok y => put F (d :: p) v y m := by
  cases c with
  | none => exact absurd rfl hc
  | int i => rw [put]; rfl; all_goals simp
  | str i => rw [put]; rfl; all_goals simp

theorem put_sim {E : Normalize.Env} {F : Env} (hF : Follows E F) (hP : Polite F) (tv : Val) (v : Ref) (p : FS) :
    Sim tv v (Normalize.put E p tv) (put F p v) := by
  induction p with
  | nil => intro t x m ls h hn hv hd; exact ⟨rfl, fun _ _ _ => rfl, ⟨ls, h⟩⟩
  | cons c p ih =>
    intro t x m ls h hn hv hd
    cases p with
    | nil =>
      rcases owns_iff.mp h with ⟨a, rfl, rfl, rfl⟩ | ⟨l, o, ls', rfl, h2, h3, rfl⟩
      · cases c with
        | none => exact ⟨rfl, fun _ _ _ => rfl, ⟨_, h⟩⟩
        | int i => cases a <;> exact ⟨rfl, fun _ _ _ => rfl, ⟨_, h⟩⟩
        | str i => cases a <;> exact ⟨rfl, fun _ _ _ => rfl, ⟨_, h⟩⟩
      · obtain ⟨hl, hg⟩ := kids_good h hn
        obtain ⟨e, hL⟩ := put1_sim hF hP hl ⟨_, h⟩ hg ⟨hv, hd l (by simp)⟩ c
        obtain ⟨G, hs⟩ := put1_steps hP (c := c) (reg_or (reg_part (looks_exist ⟨_, h⟩)) (reg_part (looks_exist hv)))
          (in_of_parts (fun l h => Or.inl h)) (in_of_parts (fun l h => Or.inr h))
        refine ⟨e, fun k hk hnk => hs.frame k hk (fun e => hnk ?_), hL⟩
        cases e; simp
    | cons d p =>
      by_cases hc : c = .none
      · subst hc
        refine wild_sim h hn (f := Normalize.forItems (Normalize.put E (d :: p) tv))
          (g := forItems (put F (d :: p) v)) ?_ ?_ ?_
        · rw [Normalize.put]; rfl; simp
        · rw [put]; rfl; simp
        · intro ts rs ls' hl hn' hsub
          exact forItems_sim ih (put_steps hP _ v) ts rs m ls' hl hn' hv (fun l hl => hd l (hsub l hl))
      · rw [put_cons c d p tv t hc, mput_cons c d p v x m hc]
        have hst := stepPut_sim (looks_atom m) hF (looks_deref ⟨ls, h⟩) c
        cases ht : Normalize.stepPut E t c with
        | error e =>
          rw [ht] at hst
          rw [show stepPut F (deref m x) c = .error e from hst]
          exact ⟨rfl, fun _ _ _ => rfl, ⟨ls, h⟩⟩
        | ok t1 =>
          rw [ht] at hst
          obtain ⟨y, hy, _⟩ := hst
          rw [hy]
          rcases owns_iff.mp h with ⟨a, rfl, rfl, rfl⟩ | ⟨l, o, ls', rfl, h2, h3, rfl⟩
          · exfalso
            cases c with
            | none => exact hc rfl
            | int i => cases a <;> cases ht
            | str i => cases a <;> cases ht
          · simp only [deref, h2, Option.getD_some] at hy
            exact path_sim ih h hn hv hd (stepPut_part hF h2 h3 ht hy)

theorem delete_cons {E : Normalize.Env} (c d : Comp) (p : FS) (x : Val) (hc : c ≠ .none) :
    Normalize.delete E (c :: d :: p) x = match Normalize.step E x c with
      | .error e => (.error e, x)
      | .ok y => ((Normalize.delete E (d :: p) y).1, replaceChild x c (Normalize.delete E (d :: p) y).2) := by
  cases c with
  | none => exact absurd rfl hc
  | int i => rw [Normalize.delete]; rfl; all_goals simp
  | str i => rw [Normalize.delete]; rfl; all_goals simp

theorem mdelete_cons {F : Env} (c d : Comp) (p : FS) (x : Ref) (m : Mem) (hc : c ≠ .none) :
    delete F (c :: d :: p) x m = match step F (deref m x) c with
      | .error e => (.error e, m)
      | .ok y => delete F (d :: p) y m := by
  cases c with
  | none => exact absurd rfl hc
  | int i => rw [delete]; rfl; all_goals simp
  | str i => rw [delete]; rfl; all_goals simp

theorem delete_sim {E : Normalize.Env} {F : Env} (hF : Follows E F) (p : FS) :
    Sim (.atom .none) (.atom .none) (Normalize.delete E p) (delete F p) := by
  induction p with
  | nil => intro t x m ls h hn hv hd; exact ⟨rfl, fun _ _ _ => rfl, ⟨ls, h⟩⟩
  | cons c p ih =>
    intro t x m ls h hn hv hd
    cases p with
    | nil =>
      rcases owns_iff.mp h with ⟨a, rfl, rfl, rfl⟩ | ⟨l, o, ls', rfl, h2, h3, rfl⟩
      · cases c with
        | none => cases a <;> exact ⟨rfl, fun _ _ _ => rfl, ⟨_, h⟩⟩
        | int i => cases a <;> exact ⟨rfl, fun _ _ _ => rfl, ⟨_, h⟩⟩
        | str i => cases a <;> exact ⟨rfl, fun _ _ _ => rfl, ⟨_, h⟩⟩
      · obtain ⟨hl, hg⟩ := kids_good h hn
        obtain ⟨e, hL⟩ := delete1_sim hF hl ⟨_, h⟩ hg c
        have hs := delete1_steps (E := F) (c := c) (reg_part (looks_exist ⟨_, h⟩)) (in_part (.ptr l))
        refine ⟨e, fun k hk hnk => hs.frame k hk (fun e => hnk ?_), hL⟩
        cases e; simp
    | cons d p =>
      by_cases hc : c = .none
      · subst hc
        refine wild_sim h hn (f := fun ts => Normalize.wildDelete (Normalize.delete E (d :: p)) ts .start)
          (g := fun rs => wildDelete (delete F (d :: p)) rs .start) ?_ ?_ ?_
        · rw [Normalize.delete]; rfl; simp
        · rw [delete]; rfl; simp
        · intro ts rs ls' hl hn' hsub
          exact wildDelete_sim ih (delete_steps F _) ts rs .start m ls' hl hn' hv (fun l hl => hd l (hsub l hl))
      · rw [delete_cons c d p t hc, mdelete_cons c d p x m hc]
        have hst := step_sim (looks_atom m) hF (looks_deref ⟨ls, h⟩) c
        cases ht : Normalize.step E t c with
        | error e =>
          rw [ht] at hst
          rw [show step F (deref m x) c = .error e from hst]
          exact ⟨rfl, fun _ _ _ => rfl, ⟨ls, h⟩⟩
        | ok t1 =>
          rw [ht] at hst
          obtain ⟨y, hy, _⟩ := hst
          rw [hy]
          rcases owns_iff.mp h with ⟨a, rfl, rfl, rfl⟩ | ⟨l, o, ls', rfl, h2, h3, rfl⟩
          · exfalso
            cases c with
            | none => exact hc rfl
            | int i => cases a <;> cases ht
            | str i => cases a <;> cases ht
          · simp only [deref, h2, Option.getD_some] at hy
            exact path_sim ih h hn hv hd (step_part hF h2 h3 ht hy)

end Normalize.Mem
