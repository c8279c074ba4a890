import Verif.Spec.Visitor
import Verif.Spec.JsonValid

/-!
# What visits and casts return
-/

namespace Normalize.Spec
open Visit
open Ident (IProp Ty ItemTy CollKind)
open Json (Setup clsOf)

/-- The value in the slot, if there is one, is valid. -/
def ValidSlot (J : Setup) (x : Slot) : Prop := ∀ v, x = .val v → Valid J v

/-- The data holds no records and no collections, only lists, dicts and plain values. -/
inductive Free : Val → Prop
  | atom {a} : Free (.atom a)
  | list {xs} : (∀ x ∈ xs, Free x) → Free (.list xs)
  | dict {xs} : (∀ x ∈ xs, Free x.2) → Free (.dict xs)

/-- Where the first function returns, the second returns the same. -/
def Extends (ap ap' : Leaf) : Prop := ∀ x p path w, ap x p path = .ok w → ap' x p path = .ok w

/-- No property has several types. -/
def NoUnions (J : Setup) : Prop := ∀ c, ∀ p ∈ (J.S.cls c).props, p.types.length ≤ 1

end Normalize.Spec
