import Verif.Spec.Empty

/-! Placeholders for the same set of types. -/

namespace Normalize.Spec
open Empty

/-- The same types, in whatever order and however often. -/
def SameSet : Types → Types → Prop
  | .any, .any => True
  | .tuple ts, .tuple us => ∀ t, t ∈ ts ↔ t ∈ us
  | _, _ => False

/-- What two chains did: they raise the same, or come to placeholders for the same set of types. -/
def AlikeEnds : Except EErr (Nat × Heap) → Except EErr (Nat × Heap) → Prop
  | .error e, .error e' => e = e'
  | .ok r, .ok r' => ∃ t t', IsFor r.2 r.1 t ∧ IsFor r'.2 r'.1 t' ∧ SameSet t t'
  | _, _ => False

end Normalize.Spec
