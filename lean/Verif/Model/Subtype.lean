import Verif.Model.Exc

/-!
# Subtypes

Models `/repo/normalize/subtype.py:20-100`.  `V` is the type of python objects; `where` and `coerce` are
arbitrary user functions that may raise.  Simplification: they are functions of the value alone.
-/

namespace Normalize.Subtype

variable {V : Type}

/-- A type object: an ordinary class, known by its `isinstance` test, or a subtype made from another type
object with a `where` predicate and possibly a `coerce` function (subtype.py:40-85). -/
inductive Typ (V : Type)
  | base (inst : V → Bool)
  | sub (of : Typ V) (whr : V → Except Exc Bool) (coerce : Option (V → Except Exc V))

/-- `isinstance(v, t)`; for a subtype, `__instancecheck__` (subtype.py:27-34): any exception counts as no. -/
def isinst : Typ V → V → Bool
  | .base inst, v => inst v
  | .sub of whr _, v =>
    if isinst of v then
      match whr v with
      | .ok b => b
      | .error _ => false
    else false

/-- Calling the subtype with one argument: `__new__` (subtype.py:56-75).  For an ordinary class the
constructor is not modelled; the value is passed through. -/
def construct : Typ V → V → Except Exc V
  | .base _, v => .ok v
  | .sub of whr coerce, v =>
    if isinst (.sub of whr coerce) v then .ok v
    else
      match coerce with
      | some f =>
        match f v with
        | .error e => .error e
        | .ok w => if isinst (.sub of whr coerce) w then .ok w else .error .subtypeCoerce
      | none => .error .subtypeNoCoerce

end Normalize.Subtype
