import Verif.Model.Selector
import Verif.Spec.Selector

/-!
# Helper lemmas for the selector order
-/

namespace Normalize

open Spec


theorem sameType_false_iff {x y : Comp} : Comp.sameType x y = false ↔ DiffType x y := by
  constructor
  · intro h
    cases x <;> cases y <;> first | (simp [Comp.sameType] at h; done) | constructor
  · intro h; cases h <;> rfl

theorem Spec.DiffType.ne {x y : Comp} (h : DiffType x y) : x ≠ y := by cases h <;> simp
theorem Spec.DiffType.symm {x y : Comp} (h : DiffType x y) : DiffType y x := by cases h <;> constructor
theorem Spec.CompLess.ne {x y : Comp} (h : CompLess x y) : x ≠ y := by
  cases h with
  | str h => intro e; injection e with e; subst e; exact String.lt_irrefl _ h
  | int h => intro e; injection e with e; omega
theorem Spec.CompLess.sameType {x y : Comp} (h : CompLess x y) : Comp.sameType x y = true := by
  cases h <;> rfl

theorem ltSame_iff {x y : Comp} : Comp.ltSame x y = true ↔ CompLess x y := by
  constructor
  · intro h
    cases x <;> cases y <;> simp [Comp.ltSame] at h
    · exact .str h
    · exact .int h
  · intro h; cases h <;> simpa [Comp.ltSame]

theorem Spec.CompLess.trans {x y z : Comp} (h : CompLess x y) (h' : CompLess y z) : CompLess x z := by
  cases h with
  | str h => cases h' with | str h' => exact .str (String.lt_trans h h')
  | int h => cases h' with | int h' => exact .int (Int.lt_trans h h')

theorem comp_trichotomy (x y : Comp) : CompLess x y ∨ x = y ∨ CompLess y x ∨ DiffType x y := by
  cases x <;> cases y
  case str.str a b =>
    rcases Std.lt_trichotomy a b with h | h | h
    · exact .inl (.str h)
    · subst h; exact .inr (.inl rfl)
    · exact .inr (.inr (.inl (.str h)))
  case int.int a b =>
    rcases Int.lt_trichotomy a b with h | h | h
    · exact .inl (.int h)
    · subst h; exact .inr (.inl rfl)
    · exact .inr (.inr (.inl (.int h)))
  case none.none => exact .inr (.inl rfl)
  all_goals exact .inr (.inr (.inr (by constructor)))

theorem before_cons {x : Comp} {a b : FS} : Before (x :: a) (x :: b) ↔ Before a b := by
  constructor
  · rintro (⟨c, t, h⟩ | ⟨p, u, v, s, t, ha, hb, hl⟩)
    · simp at h; exact .inl ⟨c, t, h⟩
    · cases p with
      | nil =>
        simp at ha hb
        obtain ⟨rfl, _⟩ := ha; obtain ⟨rfl, _⟩ := hb
        exact absurd rfl hl.ne
      | cons q p =>
        simp at ha hb
        exact .inr ⟨p, u, v, s, t, ha.2, hb.2, hl⟩
  · rintro (⟨c, t, h⟩ | ⟨p, u, v, s, t, ha, hb, hl⟩)
    · exact .inl ⟨c, t, by simp [h]⟩
    · exact .inr ⟨x :: p, u, v, s, t, by simp [ha], by simp [hb], hl⟩

theorem incomparable_cons {x : Comp} {a b : FS} :
    Incomparable (x :: a) (x :: b) ↔ Incomparable a b := by
  constructor
  · rintro ⟨p, u, v, s, t, ha, hb, hl⟩
    cases p with
    | nil =>
      simp at ha hb
      obtain ⟨rfl, _⟩ := ha; obtain ⟨rfl, _⟩ := hb
      exact absurd rfl hl.ne
    | cons q p => simp at ha hb; exact ⟨p, u, v, s, t, ha.2, hb.2, hl⟩
  · rintro ⟨p, u, v, s, t, ha, hb, hl⟩
    exact ⟨x :: p, u, v, s, t, by simp [ha], by simp [hb], hl⟩

theorem before_cons_ne {x y : Comp} (hne : x ≠ y) {a b : FS} :
    Before (x :: a) (y :: b) ↔ CompLess x y := by
  constructor
  · rintro (⟨c, t, h⟩ | ⟨p, u, v, s, t, ha, hb, hl⟩)
    · simp at h; exact absurd h.1.symm hne
    · cases p with
      | nil => simp at ha hb; rw [ha.1, hb.1]; exact hl
      | cons q p => simp at ha hb; exact absurd (ha.1.trans hb.1.symm) hne
  · intro h; exact .inr ⟨[], x, y, a, b, rfl, rfl, h⟩

theorem incomparable_cons_ne {x y : Comp} (hne : x ≠ y) {a b : FS} :
    Incomparable (x :: a) (y :: b) ↔ DiffType x y := by
  constructor
  · rintro ⟨p, u, v, s, t, ha, hb, hl⟩
    cases p with
    | nil => simp at ha hb; rw [ha.1, hb.1]; exact hl
    | cons q p => simp at ha hb; exact absurd (ha.1.trans hb.1.symm) hne
  · intro h; exact ⟨[], x, y, a, b, rfl, rfl, h⟩

theorem not_before_nil {a : FS} : ¬ Before a [] := by
  rintro (⟨c, t, h⟩ | ⟨p, u, v, s, t, _, hb, _⟩)
  · simp at h
  · simp at hb

theorem not_incomparable_nil_right {a : FS} : ¬ Incomparable a [] := by
  rintro ⟨p, u, v, s, t, _, hb, _⟩; simp at hb

theorem not_incomparable_nil_left {a : FS} : ¬ Incomparable [] a := by
  rintro ⟨p, u, v, s, t, ha, _, _⟩; simp at ha

end Normalize
