import Verif.Model.Exc

/-!
# Specification vocabulary for selectors (independent of the model's functions)
-/

namespace Normalize.Spec

/-- Order on components of one type: code-point order on strings, numeric order on indices. -/
inductive CompLess : Comp → Comp → Prop
  | str {a b : String} : a < b → CompLess (.str a) (.str b)
  | int {a b : Int} : a < b → CompLess (.int a) (.int b)

/-- Components of different python types. -/
inductive DiffType : Comp → Comp → Prop
  | si (a b) : DiffType (.str a) (.int b)
  | is (a b) : DiffType (.int a) (.str b)
  | sn (a) : DiffType (.str a) .none
  | ns (a) : DiffType .none (.str a)
  | «in» (a) : DiffType (.int a) .none
  | ni (a) : DiffType .none (.int a)

/-- `a` sorts before `b`: `a` is a proper prefix of `b`, or after a common prefix `a` has the smaller
component. -/
def Before (a b : List Comp) : Prop :=
  (∃ c t, b = a ++ c :: t) ∨
  ∃ p x y s t, a = p ++ x :: s ∧ b = p ++ y :: t ∧ CompLess x y

/-- After a common prefix the two have components of different types. -/
def Incomparable (a b : List Comp) : Prop :=
  ∃ p x y s t, a = p ++ x :: s ∧ b = p ++ y :: t ∧ DiffType x y

end Normalize.Spec
