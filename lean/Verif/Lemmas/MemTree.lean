import Verif.Spec.MemTree
import Verif.Lemmas.MemPatch

/-! Objects in memory and trees. -/

namespace Normalize.Mem

open Normalize.Spec

theorem ownsC_iff {m : Mem} : ∀ {ts : List (Comp × Val)} {rs : List (Comp × Ref)} {ls : List Nat},
    OwnsC m ts rs ls ↔ rs.map (·.1) = ts.map (·.1) ∧ OwnsL m (ts.map (·.2)) (rs.map (·.2)) ls := by
  intro ts
  induction ts with
  | nil =>
    intro rs ls
    simp only [OwnsC, OwnsL, List.map_nil, List.map_eq_nil_iff]
    exact ⟨fun ⟨a, b⟩ => ⟨a, a, b⟩, fun ⟨a, _, b⟩ => ⟨a, b⟩⟩
  | cons e ts ih =>
    obtain ⟨k, t⟩ := e
    intro rs ls
    simp only [OwnsC, OwnsL, List.map_cons]
    constructor
    · rintro ⟨r, rs', l1, l2, rfl, h1, h2, rfl⟩
      obtain ⟨h3, h4⟩ := ih.mp h2
      exact ⟨by simp [h3], r, _, l1, l2, rfl, h1, h4, rfl⟩
    · rintro ⟨hk, r, rs', l1, l2, h, h1, h2, rfl⟩
      cases rs with
      | nil => simp at h
      | cons e rs =>
        obtain ⟨k', r'⟩ := e
        simp only [List.map_cons, List.cons.injEq] at h hk
        obtain ⟨rfl, rfl⟩ := h
        obtain ⟨rfl, hk⟩ := hk
        exact ⟨r', rs, l1, l2, rfl, h1, ih.mpr ⟨hk, h2⟩, rfl⟩

theorem ownsS_iff {m : Mem} : ∀ {ts : List (String × Val)} {rs : List (String × Ref)} {ls : List Nat},
    OwnsS m ts rs ls ↔ rs.map (·.1) = ts.map (·.1) ∧ OwnsL m (ts.map (·.2)) (rs.map (·.2)) ls := by
  intro ts
  induction ts with
  | nil =>
    intro rs ls
    simp only [OwnsS, OwnsL, List.map_nil, List.map_eq_nil_iff]
    exact ⟨fun ⟨a, b⟩ => ⟨a, a, b⟩, fun ⟨a, _, b⟩ => ⟨a, b⟩⟩
  | cons e ts ih =>
    obtain ⟨k, t⟩ := e
    intro rs ls
    simp only [OwnsS, OwnsL, List.map_cons]
    constructor
    · rintro ⟨r, rs', l1, l2, rfl, h1, h2, rfl⟩
      obtain ⟨h3, h4⟩ := ih.mp h2
      exact ⟨by simp [h3], r, _, l1, l2, rfl, h1, h4, rfl⟩
    · rintro ⟨hk, r, rs', l1, l2, h, h1, h2, rfl⟩
      cases rs with
      | nil => simp at h
      | cons e rs =>
        obtain ⟨k', r'⟩ := e
        simp only [List.map_cons, List.cons.injEq] at h hk
        obtain ⟨rfl, rfl⟩ := h
        obtain ⟨rfl, hk⟩ := hk
        exact ⟨r', rs, l1, l2, rfl, h1, ih.mpr ⟨hk, h2⟩, rfl⟩

/-- What an object looks like, given what its parts look like. -/
inductive ObjLooks (m : Mem) : Val → Obj → List Nat → Prop
  | list {ts rs ls} : OwnsL m ts rs ls → ObjLooks m (.list ts) (.list rs) ls
  | lcoll {cls ts rs ls} : OwnsL m ts rs ls → ObjLooks m (.lcoll cls ts) (.lcoll cls rs) ls
  | dict {ts : List (Comp × Val)} {rs : List (Comp × Ref)} {ls} : rs.map (·.1) = ts.map (·.1) →
    OwnsL m (ts.map (·.2)) (rs.map (·.2)) ls → ObjLooks m (.dict ts) (.dict rs) ls
  | dcoll {cls} {ts : List (Comp × Val)} {rs : List (Comp × Ref)} {ls} : rs.map (·.1) = ts.map (·.1) →
    OwnsL m (ts.map (·.2)) (rs.map (·.2)) ls → ObjLooks m (.dcoll cls ts) (.dcoll cls rs) ls
  | rcd {cls} {ts : List (String × Val)} {rs : List (String × Ref)} {ls} : rs.map (·.1) = ts.map (·.1) →
    OwnsL m (ts.map (·.2)) (rs.map (·.2)) ls → ObjLooks m (.rcd cls ts) (.rcd cls rs) ls

/-- An object without parts, or one in memory. -/
theorem owns_iff {m : Mem} {t : Val} {r : Ref} {ls : List Nat} :
    Owns m t r ls ↔ (∃ a, t = .atom a ∧ r = .atom a ∧ ls = []) ∨
      ∃ l o ls', r = .ptr l ∧ m[l]? = some o ∧ ObjLooks m t o ls' ∧ ls = l :: ls' := by
  constructor
  · intro h
    cases t with
    | atom a =>
      rw [Owns] at h
      exact Or.inl ⟨a, rfl, h.1, h.2⟩
    | list ts =>
      rw [Owns] at h
      obtain ⟨l, rs, ls', h1, h2, h3, h4⟩ := h
      exact Or.inr ⟨l, _, ls', h1, h2, .list h3, h4⟩
    | lcoll cls ts =>
      rw [Owns] at h
      obtain ⟨l, rs, ls', h1, h2, h3, h4⟩ := h
      exact Or.inr ⟨l, _, ls', h1, h2, .lcoll h3, h4⟩
    | dict ts =>
      rw [Owns] at h
      obtain ⟨l, rs, ls', h1, h2, h3, h4⟩ := h
      exact Or.inr ⟨l, _, ls', h1, h2, .dict (ownsC_iff.mp h3).1 (ownsC_iff.mp h3).2, h4⟩
    | dcoll cls ts =>
      rw [Owns] at h
      obtain ⟨l, rs, ls', h1, h2, h3, h4⟩ := h
      exact Or.inr ⟨l, _, ls', h1, h2, .dcoll (ownsC_iff.mp h3).1 (ownsC_iff.mp h3).2, h4⟩
    | rcd cls ts =>
      rw [Owns] at h
      obtain ⟨l, rs, ls', h1, h2, h3, h4⟩ := h
      exact Or.inr ⟨l, _, ls', h1, h2, .rcd (ownsS_iff.mp h3).1 (ownsS_iff.mp h3).2, h4⟩
  · rintro (⟨a, rfl, rfl, rfl⟩ | ⟨l, o, ls', rfl, h2, h3, rfl⟩)
    · rw [Owns]; exact ⟨rfl, rfl⟩
    · cases h3 with
      | list h => rw [Owns]; exact ⟨l, _, ls', rfl, h2, h, rfl⟩
      | lcoll h => rw [Owns]; exact ⟨l, _, ls', rfl, h2, h, rfl⟩
      | dict hk h => rw [Owns]; exact ⟨l, _, ls', rfl, h2, ownsC_iff.mpr ⟨hk, h⟩, rfl⟩
      | dcoll hk h => rw [Owns]; exact ⟨l, _, ls', rfl, h2, ownsC_iff.mpr ⟨hk, h⟩, rfl⟩
      | rcd hk h => rw [Owns]; exact ⟨l, _, ls', rfl, h2, ownsS_iff.mpr ⟨hk, h⟩, rfl⟩

/-- The trees and references inside. -/
def subs : Val → List Val
  | .atom _ => []
  | .list ts | .lcoll _ ts => ts
  | .dict ts | .dcoll _ ts => ts.map (·.2)
  | .rcd _ ts => ts.map (·.2)

theorem objLooks_kids {m : Mem} {t : Val} {o : Obj} {ls : List Nat} (h : ObjLooks m t o ls) :
    OwnsL m (subs t) (kids o) ls := by
  cases h with
  | list h => exact h
  | lcoll h => exact h
  | dict hk h => exact h
  | dcoll hk h => exact h
  | rcd hk h => exact h

/-- Structural induction over trees. -/
theorem val_ind {P : Val → Prop} (h : ∀ t, (∀ s ∈ subs t, P s) → P t) : ∀ t, P t := by
  have key : ∀ n (t : Val), sizeOf t < n → P t := by
    intro n
    induction n with
    | zero => intro t ht; omega
    | succ n ih =>
      intro t ht
      refine h t (fun s hs => ih s ?_)
      cases t with
      | atom a => cases hs
      | list ts => have := List.sizeOf_lt_of_mem (as := ts) hs; simp at ht; omega
      | lcoll cls ts => have := List.sizeOf_lt_of_mem (as := ts) hs; simp at ht; omega
      | dict ts =>
        obtain ⟨e, he, rfl⟩ := List.mem_map.mp hs
        have := List.sizeOf_lt_of_mem he
        have h2 : sizeOf e.2 < sizeOf e := by cases e; simp; omega
        simp at ht; omega
      | dcoll cls ts =>
        obtain ⟨e, he, rfl⟩ := List.mem_map.mp hs
        have := List.sizeOf_lt_of_mem he
        have h2 : sizeOf e.2 < sizeOf e := by cases e; simp; omega
        simp at ht; omega
      | rcd cls ts =>
        obtain ⟨e, he, rfl⟩ := List.mem_map.mp hs
        have := List.sizeOf_lt_of_mem he
        have h2 : sizeOf e.2 < sizeOf e := by cases e; simp; omega
        simp at ht; omega
  exact fun t => key _ t (Nat.lt_succ_self _)

/-- Every item looks like its tree. -/
theorem ownsL_forall2 {m : Mem} : ∀ {ts : List Val} {rs : List Ref},
    (∃ ls, OwnsL m ts rs ls) ↔ List.Forall₂ (Looks m) ts rs := by
  intro ts
  induction ts with
  | nil =>
    intro rs
    simp only [OwnsL, List.forall₂_nil_left_iff]
    exact ⟨fun ⟨_, h, _⟩ => h, fun h => ⟨[], h, rfl⟩⟩
  | cons t ts ih =>
    intro rs
    constructor
    · rintro ⟨ls, h⟩
      rw [OwnsL] at h
      obtain ⟨r, rs', l1, l2, rfl, h1, h2, rfl⟩ := h
      exact .cons ⟨l1, h1⟩ (ih.mp ⟨l2, h2⟩)
    · intro h
      cases h with
      | cons h1 h2 =>
        obtain ⟨l1, h1⟩ := h1
        obtain ⟨l2, h2⟩ := ih.mpr h2
        exact ⟨l1 ++ l2, by rw [OwnsL]; exact ⟨_, _, l1, l2, rfl, h1, h2, rfl⟩⟩

theorem ownsL_mem {m : Mem} {ts : List Val} {rs : List Ref} {ls : List Nat} (h : OwnsL m ts rs ls) :
    (∀ r ∈ rs, ∃ t ∈ ts, ∃ l1, Owns m t r l1 ∧ ∀ l ∈ l1, l ∈ ls) ∧
    (∀ l ∈ ls, ∃ t ∈ ts, ∃ r ∈ rs, ∃ l1, Owns m t r l1 ∧ l ∈ l1) := by
  induction ts generalizing rs ls with
  | nil =>
    rw [OwnsL] at h
    obtain ⟨rfl, rfl⟩ := h
    simp
  | cons t ts ih =>
    rw [OwnsL] at h
    obtain ⟨r, rs', l1, l2, rfl, h1, h2, rfl⟩ := h
    obtain ⟨ha, hb⟩ := ih h2
    constructor
    · intro r' hr'
      rcases List.mem_cons.mp hr' with rfl | hr'
      · exact ⟨t, by simp, l1, h1, fun l hl => by simp [hl]⟩
      · obtain ⟨t', ht', l3, h3, h4⟩ := ha r' hr'
        exact ⟨t', by simp [ht'], l3, h3, fun l hl => by simp [h4 l hl]⟩
    · intro l hl
      rcases List.mem_append.mp hl with hl | hl
      · exact ⟨t, by simp, r, by simp, l1, h1, hl⟩
      · obtain ⟨t', ht', r', hr', l3, h3, h4⟩ := hb l hl
        exact ⟨t', by simp [ht'], r', by simp [hr'], l3, h3, h4⟩

theorem ownsL_intact {m m' : Mem} (ts : List Val) : ∀ (rs : List Ref) (ls : List Nat), OwnsL m ts rs ls →
    (∀ t ∈ ts, ∀ r ls', Owns m t r ls' → (∀ l ∈ ls', m'[l]? = m[l]?) → Owns m' t r ls') →
    (∀ l ∈ ls, m'[l]? = m[l]?) → OwnsL m' ts rs ls := by
  induction ts with
  | nil => intro rs ls h _ _; exact h
  | cons t ts ih =>
    intro rs ls h hi hl
    rw [OwnsL] at h ⊢
    obtain ⟨r, rs', l1, l2, rfl, h1, h2, rfl⟩ := h
    exact ⟨r, rs', l1, l2, rfl, hi t (by simp) r l1 h1 (fun l hl' => hl l (by simp [hl'])),
      ih rs' l2 h2 (fun t ht => hi t (by simp [ht])) (fun l hl' => hl l (by simp [hl'])), rfl⟩

/-- What an object looks like depends on the objects it consists of. -/
theorem owns_intact {m m' : Mem} (t : Val) : ∀ (r : Ref) (ls : List Nat), Owns m t r ls →
    (∀ l ∈ ls, m'[l]? = m[l]?) → Owns m' t r ls := by
  induction t using val_ind with
  | h t ih =>
    intro r ls h hl
    rcases owns_iff.mp h with h | ⟨l, o, ls', rfl, h2, h3, rfl⟩
    · exact owns_iff.mpr (Or.inl h)
    · refine owns_iff.mpr (Or.inr ⟨l, o, ls', rfl, by rw [hl l (by simp)]; exact h2, ?_, rfl⟩)
      have hk : OwnsL m' (subs t) (kids o) ls' := ownsL_intact (subs t) _ _ (objLooks_kids h3) ih
        (fun l hl' => hl l (by simp [hl']))
      cases h3 with
      | list h => exact .list hk
      | lcoll h => exact .lcoll hk
      | dict hk' h => exact .dict hk' hk
      | dcoll hk' h => exact .dcoll hk' hk
      | rcd hk' h => exact .rcd hk' hk

/-- The list gives the parts. -/
theorem owns_part {m : Mem} (t : Val) : ∀ (r : Ref) (ls : List Nat), Owns m t r ls → ∀ l, PartOf m r l ↔ l ∈ ls := by
  induction t using val_ind with
  | h t ih =>
    intro r ls h l
    rcases owns_iff.mp h with ⟨a, rfl, rfl, rfl⟩ | ⟨l0, o, ls', rfl, h2, h3, rfl⟩
    · constructor
      · intro h; cases h
      · intro h; cases h
    · obtain ⟨ha, hb⟩ := ownsL_mem (objLooks_kids h3)
      constructor
      · intro hp
        cases hp with
        | self => simp
        | kid ho hk hp =>
          rw [h2] at ho; cases ho
          obtain ⟨t', ht', l1, h4, h5⟩ := ha _ hk
          exact List.mem_cons_of_mem _ (h5 l ((ih t' ht' _ l1 h4 l).mp hp))
      · intro hl
        rcases List.mem_cons.mp hl with rfl | hl
        · exact .self
        · obtain ⟨t', ht', r', hr', l1, h4, h5⟩ := hb l hl
          exact .kid h2 hr' ((ih t' ht' r' l1 h4 l).mpr h5)

theorem owns_lt {m : Mem} (t : Val) : ∀ (r : Ref) (ls : List Nat), Owns m t r ls → ∀ l ∈ ls, l < m.length := by
  induction t using val_ind with
  | h t ih =>
    intro r ls h l hl
    rcases owns_iff.mp h with ⟨a, rfl, rfl, rfl⟩ | ⟨l0, o, ls', rfl, h2, h3, rfl⟩
    · cases hl
    · rcases List.mem_cons.mp hl with rfl | hl
      · exact (List.getElem?_eq_some_iff.mp h2).1
      · obtain ⟨ha, hb⟩ := ownsL_mem (objLooks_kids h3)
        obtain ⟨t', ht', r', hr', l1, h4, h5⟩ := hb l hl
        exact ih t' ht' r' l1 h4 l h5

theorem looks_exist {m : Mem} {t : Val} {r : Ref} (h : Looks m t r) : Exist m r := by
  obtain ⟨ls, h⟩ := h
  intro l hl
  exact owns_lt t r ls h l ((owns_part t r ls h l).mp hl)

theorem looks_intact {m m' : Mem} {t : Val} {r : Ref} (h : Looks m t r) (hi : Intact m m' r) : Looks m' t r := by
  obtain ⟨ls, h⟩ := h
  exact ⟨ls, owns_intact t r ls h (fun l hl => hi l ((owns_part t r ls h l).mpr hl))⟩

theorem looks_onlyNew {m m' : Mem} {t : Val} {r : Ref} (h : Looks m t r) (hn : OnlyNew m m') : Looks m' t r :=
  looks_intact h (fun l hl => hn l (looks_exist h l hl))

/-- An object looks like one tree only. -/
theorem looks_unique {m : Mem} (t : Val) : ∀ (t' : Val) (r : Ref), Looks m t r → Looks m t' r → t = t' := by
  induction t using val_ind with
  | h t ih =>
    rintro t' r ⟨ls, h⟩ ⟨ls', h'⟩
    have hL : ∀ (rs : List Ref) (ts ts' : List Val) (l l' : List Nat), (∀ s ∈ ts, ∀ (t' : Val) (r : Ref),
        Looks m s r → Looks m t' r → s = t') → OwnsL m ts rs l → OwnsL m ts' rs l' → ts = ts' := by
      intro rs ts
      induction ts generalizing rs with
      | nil =>
        intro ts' l l' _ h h'
        rw [OwnsL] at h
        obtain ⟨rfl, _⟩ := h
        cases ts' with
        | nil => rfl
        | cons t ts => rw [OwnsL] at h'; obtain ⟨_, _, _, _, h, _⟩ := h'; cases h
      | cons s ts ihl =>
        intro ts' l l' hu h h'
        rw [OwnsL] at h
        obtain ⟨r, rs', l1, l2, rfl, h1, h2, rfl⟩ := h
        cases ts' with
        | nil => rw [OwnsL] at h'; cases h'.1
        | cons s' ts' =>
          rw [OwnsL] at h'
          obtain ⟨r', rs'', l3, l4, he, h3, h4, rfl⟩ := h'
          cases he
          rw [hu s (by simp) s' r ⟨_, h1⟩ ⟨_, h3⟩, ihl _ ts' l2 l4 (fun s hs => hu s (by simp [hs])) h2 h4]
    rcases owns_iff.mp h with ⟨a, rfl, rfl, rfl⟩ | ⟨l0, o, ls1, rfl, h2, h3, rfl⟩
    · rcases owns_iff.mp h' with ⟨a', rfl, he, rfl⟩ | ⟨_, _, _, he, _⟩
      · cases he; rfl
      · cases he
    · rcases owns_iff.mp h' with ⟨a', rfl, he, rfl⟩ | ⟨l0', o', ls2, he, h4, h5, rfl⟩
      · cases he
      · cases he
        rw [h2] at h4; cases h4
        have hz : ∀ {κ : Type} (ts ts' : List (κ × Val)), ts.map (·.1) = ts'.map (·.1) → ts.map (·.2) = ts'.map (·.2) →
            ts = ts' := by
          intro κ ts ts' h1 h2
          have := congrArg₂ List.zip h1 h2
          simpa [List.zip_map', List.map_id'] using this
        cases h3 with
        | list hl => cases h5 with
          | list hl' => exact congrArg _ (hL _ _ _ _ _ ih hl hl')
        | lcoll hl => cases h5 with
          | lcoll hl' => exact congrArg _ (hL _ _ _ _ _ ih hl hl')
        | dict hk hl => cases h5 with
          | dict hk' hl' => rw [hz _ _ (hk.symm.trans hk') (hL _ _ _ _ _ ih hl hl')]
        | dcoll hk hl => cases h5 with
          | dcoll hk' hl' => rw [hz _ _ (hk.symm.trans hk') (hL _ _ _ _ _ ih hl hl')]
        | rcd hk hl => cases h5 with
          | rcd hk' hl' => rw [hz _ _ (hk.symm.trans hk') (hL _ _ _ _ _ ih hl hl')]

end Normalize.Mem
