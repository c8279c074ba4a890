import Verif.Spec.Traits

/-!
# When a property can be composed
-/

namespace Normalize.Spec

open Normalize.Traits

/-- The arguments mean something: each is one of the called type, or all the types that stand for a trait and have it
agree on the traits, and there are some; and `traits` is a list. -/
structure WellGiven (r : Reg) (cls : Nat) (kw : List (String × Kw)) : Prop where
  traits : ∀ v, Passed r cls kw "traits" v → ∃ l, v = .list l
  known : ∀ a v, Passed r cls kw a v → a ≠ "traits" → Accepts r cls a ∨
    ∃ j, ImpliesType r cls kw a j ∧ ∀ i, ImpliesType r cls kw a i → ∀ t, HasTrait r i t ↔ HasTrait r j t

/-- The trait is wanted, but no type has it without having others that are not wanted. -/
def MissingTrait (r : Reg) (cls : Nat) (kw : List (String × Kw)) (t : String) : Prop :=
  WantedTrait r cls kw t ∧ ∀ i, HasTrait r i t → ∃ t', HasTrait r i t' ∧ ¬ WantedTrait r cls kw t'

/-- At most two traits are wanted. -/
def AtMostTwo (r : Reg) (cls : Nat) (kw : List (String × Kw)) : Prop :=
  ∃ a b, ∀ t, WantedTrait r cls kw t → t = a ∨ t = b

end Normalize.Spec
