import Verif.Model.Property
import Verif.Model.Empty

/-!
# The attribute `foo0` that goes with the property `foo`
-/

namespace Normalize.SoftGet
open Normalize.Slots

variable {V : Type} [DecidableEq V]

/-- `obj.foo0`: `EmptyAuxProp.__get__` (property/__init__.py:312-322) of the property `nm`, on the record of
`Verif.Model.Property`.  It calls the getter of the property, which looks at the slot first, as `getattr` does.  The
placeholders are those of `Verif.Model.Empty`; `vt` is the type of the property.  The number bounds the nesting of
defaults. -/
def zeroGet (w : World V) (c : Cls V) (n : Nat) (vt : Option Empty.Entry) (h : Empty.Heap) (st : State V) (nm : String) :
    Option (Except Exc (Empty.Got V × Empty.Heap) × State V) :=
  match exec w c n st (.get nm) with
  | none => none
  | some (r, st') => some (Empty.auxGet h vt r, st')

end Normalize.SoftGet
