import Verif.Model.LazyThreads

/-!
# What is said about threads that use one lazy property
-/

namespace Normalize.Spec

open Normalize.Slots Normalize.LazyThreads

variable {V : Type} [DecidableEq V]

/-- In `s`, thread `i` has done `a` and got `r`. -/
def Ended (s : Sys V) (i : Nat) (a : Act V) (r : Except Exc V) : Prop := s.threads[i]? = some ⟨a, .done r⟩

/-- Thread `i` is to do `a` and has not begun. -/
def ToDo (s : Sys V) (i : Nat) (a : Act V) : Prop := s.threads[i]? = some ⟨a, .start⟩

/-- A value that the property's type and check admit: one that they made of some value. -/
def Admitted (c : Cfg V) (v : V) : Prop := ∃ x, typeSafe c.w c.p x false = .ok v

/-- Assigning `x` stores `v`: a plain lazy property takes anything, a read-only one nothing, the others check. -/
def Stores (c : Cfg V) (x v : V) : Prop :=
  (c.p.kind = .lazy ∧ v = x) ∨ (c.p.kind ≠ .lazy ∧ c.p.kind ≠ .roLazy ∧ typeSafe c.w c.p x false = .ok v)

/-- Deleting the property is possible. -/
def Deletable (c : Cfg V) : Prop := c.p.kind = .lazy ∨ (c.p.kind ≠ .roLazy ∧ c.p.required = false)

/-- Where a value that is read may come from: it was there at first, a thread assigns it, or an evaluation of the
default made it. -/
inductive From (c : Cfg V) (slot : Option V) (as : List (Act V)) (evals : Nat) (v : V) : Prop
  | initial (h : slot = some v)
  | assigned (x : V) (hx : Act.assign x ∈ as) (h : Stores c x v)
  | evaluated (k : Nat) (hk : k < evals) (x : V) (hx : c.dflt k = .ok x) (h : typeSafe c.w c.p x false = .ok v)

/-- No operation is under way: each has either not begun or ended. -/
def AtRest (s : Sys V) : Prop :=
  ∀ (j : Nat) (a : Act V) (p : Pc V), s.threads[j]? = some ⟨a, p⟩ → p = .start ∨ ∃ r, p = .done r

end Normalize.Spec
