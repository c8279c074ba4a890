import Verif.Model.CollSet

/-!
# C139: how often an assignment calls the functions of the user
-/

namespace Normalize.Spec
open CollSet (Call Prop_ setSafe setColl)

/-- The calls that an assignment may make: `coerce` at most once, and then `check` at most once. -/
inductive OnceEach {V : Type} : List (Call V) → Prop
  | none : OnceEach []
  | coerced (v : V) : OnceEach [.coerce v]
  | checked (v : V) : OnceEach [.check v]
  | both (v w : V) : OnceEach [.coerce v, .check w]

/-- C139: an assignment to a property or collection property calls `coerce` at most once, and `check` at most once, on
the value that is to be stored. -/
def C139_statement : Prop :=
  ∀ (isNone : Nat → Bool) (P : Prop_ Nat) (v : Nat) (h : List (Call Nat)),
    (∃ l, (setSafe isNone P v h).2 = h ++ l ∧ OnceEach l) ∧ ∃ l, (setColl isNone P v h).2 = h ++ l ∧ OnceEach l

/-- A `check` that says of a value the same when asked once more. -/
def Steady {V : Type} (P : Prop_ V) : Prop :=
  ∀ f ∈ P.check, ∀ h v, f h v = .ok true → f (h ++ [.check v]) v = .ok true

end Normalize.Spec
