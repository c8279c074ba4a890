import Verif.Model.GenericThreads

/-!
# What is said about calls made by several threads
-/

namespace Normalize.Spec

open Normalize.Generic Normalize.GenericThreads

/-- In state `s`, the call `c` of thread `i` has returned the class `g`. -/
def Gave (s : Sys) (i : Nat) (c : Call) (g : GCls) : Prop := s.threads[i]? = some ⟨c, .done (.ok g)⟩

/-- In state `s`, the call `c` of thread `i` has raised `e`. -/
def Raised (s : Sys) (i : Nat) (c : Call) (e : Exc) : Prop := s.threads[i]? = some ⟨c, .done (.error e)⟩

/-- Thread `i` is to make the call `c` and has not begun. -/
def Waiting (s : Sys) (i : Nat) (c : Call) : Prop := s.threads[i]? = some ⟨c, .check⟩

/-- Thread `i` has returned or raised. -/
def Finished (s : Sys) (i : Nat) : Prop := ∃ c r, s.threads[i]? = some ⟨c, .done r⟩

/-- The name of a class with that of its module. -/
def dotted (t : PyType) : String := t.module ++ "." ++ t.name

/-- No two different classes among the item types have the same dotted name. -/
def OneNameEach (cs : List Call) : Prop := ∀ c ∈ cs, ∀ c' ∈ cs, dotted c.of = dotted c'.of → c.of = c'.of

/-- The class is the collection class that `c` asks for: same container and item type. -/
def Answers (c : Call) (g : GCls) : Prop := g.base = c.container ∧ g.itemtype = c.of

/-- No call with the container and item name of `c` is under way: each has either not begun or ended. -/
def NoneUnderWay (s : Sys) (c : Call) : Prop :=
  ∀ (j : Nat) (d : Call) (p : Pc), s.threads[j]? = some ⟨d, p⟩ → d.container = c.container → dotted d.of = dotted c.of →
    p = .check ∨ ∃ r, p = .done r

end Normalize.Spec
