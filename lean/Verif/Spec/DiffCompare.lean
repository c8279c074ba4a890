import Verif.Model.DiffDefault

/-!
# Which functions given as `compare_as` leave the shape of objects alone
-/

namespace Normalize.Spec
open Diff (Setup)

/-- Functions given as `compare_as` leave records, collections, lists and dicts alone, and make values without parts of
values without parts (a number rounded, or a text in lower case); they may raise. -/
def CompareFlat (D : Setup) : Prop :=
  ∀ p f obj x y, D.compareAs p = some f → f obj x = .ok y → y = x ∨ ((∃ a, x = .atom a) ∧ ∃ a, y = .atom a)

/-- There are no such functions. -/
theorem CompareFlat.none {D : Setup} (h : ∀ p, D.compareAs p = .none) : CompareFlat D :=
  fun p f _ _ _ hf _ => by rw [h p] at hf; cases hf

/-- Functions given as `compare_as` that look at the value only (not at the record it is in), never raise, and change at most
values without parts. -/
def ComparePure (D : Setup) : Prop :=
  ∀ p f, D.compareAs p = some f → ∃ g : Val → Val, (∀ obj x, f obj x = .ok (g x)) ∧
    ∀ x, g x = x ∨ ((∃ a, x = .atom a) ∧ ∃ a, g x = .atom a)

/-- There are no such functions. -/
theorem ComparePure.none {D : Setup} (h : ∀ p, D.compareAs p = .none) : ComparePure D :=
  fun p f hf => by rw [h p] at hf; cases hf

theorem ComparePure.flat {D : Setup} (h : ComparePure D) : CompareFlat D := by
  intro p f obj x y hf hy
  obtain ⟨g, hg, hx⟩ := h p f hf
  rw [hg] at hy
  cases hy
  exact hx x

end Normalize.Spec
