import Verif.Spec.MfsAccess
import Verif.Spec.Mfs

/-!
# Objects that selectors go through in the same way
-/

namespace Normalize.Spec

/-- The selectors go through both objects by name, along records of the same classes, until they select something
whole. -/
inductive SameRoute : MTree → Val → Val → Prop
  | all {x y} : SameRoute .all x y
  | rcd {h c s s'} : (∀ k t, (k, t) ∈ h → ∃ nm, k = Comp.str nm) →
      (∀ nm h', (Comp.str nm, MTree.node h') ∈ h → (alookup s nm).isSome = true) →
      (∀ nm h', (Comp.str nm, MTree.node h') ∈ h → (alookup s' nm).isSome = true) →
      (∀ nm h' v w, (Comp.str nm, MTree.node h') ∈ h → alookup s nm = some v → alookup s' nm = some w →
        SameRoute (.node h') v w) →
      SameRoute (.node h) (.rcd c s) (.rcd c s')

end Normalize.Spec
