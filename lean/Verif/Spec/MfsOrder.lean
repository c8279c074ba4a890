import Verif.Spec.Mfs
import Verif.Spec.MfsAccess

/-! Sets of selectors, without their order. -/

namespace Normalize.Spec

/-- One of the selectors, unless another one points at something around it. -/
def Outermost (qs : List FS) (q : FS) : Prop :=
  q ∈ qs.map nonNil ∧ ∀ w₁ w₂, q = w₁ ++ w₂ → w₁ ≠ [] → w₂ ≠ [] → w₁ ∉ qs.map nonNil

/-- The place is on the way to one of the selectors. -/
def OnTheWay (qs : List FS) (q : FS) : Prop := ∃ r, r ≠ [] ∧ Outermost qs (q ++ r)

/-- The same leaves can be read in both. -/
def SameLeaves (E : Env) (x y : Val) : Prop :=
  ∀ (q : FS) (a : Atom), (∀ c ∈ q, Direct c) → (get E q x = .ok (.atom a) ↔ get E q y = .ok (.atom a))

end Normalize.Spec
