import Verif.Model.CompleteMfs

/-!
# C142: the complete selector of a class
-/

namespace Normalize.Spec
open CompleteMfs (World Pc init run)

/-- What python's orders of resolution are like: a class comes first in its own, and no two classes are derived from
each other. -/
structure Hierarchy (mro : Nat → List Nat) : Prop where
  first : ∀ c, ∃ rest, mro c = c :: rest
  acyclic : ∀ c d, d ∈ mro c → c ∈ mro d → c = d

/-- C142: `complete_mfs()` of a class returns the same selector to all callers, and its class is the one it was called on. -/
def C142_statement : Prop :=
  ∀ (mro : Nat → List Nat) (cs ts : List Nat), Hierarchy mro →
    (∀ c r, (c, Pc.done r) ∈ (run mro (init cs) ts).2 → ∃ o, r = some o ∧ (run mro (init cs) ts).1.objs[o]? = some c) ∧
    ∀ c r r', (c, Pc.done r) ∈ (run mro (init cs) ts).2 → (c, Pc.done r') ∈ (run mro (init cs) ts).2 → r = r'

/-- No call on the class is between the test and the assignment. -/
def NoneMaking (w : World) (c : Nat) : Prop := ∀ x ∈ w.2, x.1 = c → x.2 = .test ∨ x.2 = .read ∨ ∃ r, x.2 = .done r

end Normalize.Spec
