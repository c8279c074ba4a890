import Verif.Model.DuckThreads

/-!
# C141: declaring a property while other threads declare property types
-/

namespace Normalize.Spec
open DuckThreads (Entry Duck Pc Ev run)

/-- The event makes a new type that has the argument. -/
def NewTypeWith (d : Duck) (arg : String) (ev : Ev) : Prop := ∃ e i, ev = .add arg e i ∧ e ∉ d arg

/-- The types that have the argument and fit. -/
def Candidates (fits : Nat → Bool) (arg : String) (d : Duck) : List Entry := (d arg).filter (fun e => fits e.2)

/-- C141: whatever other threads declare meanwhile, a thread that looks for the types of properties that have an argument
finds those that there were when it began, and no exception is raised. -/
def C141_statement : Prop :=
  ∀ (fits : Nat → Bool) (arg : String) (d : Duck) (evs : List Ev),
    (run fits arg (d, .start) (.go :: evs)).2 ≠ .raised ∧
    ∀ found, (run fits arg (d, .start) (.go :: evs)).2 = .done found → found = Candidates fits arg d

end Normalize.Spec
