import Verif.Model.Exc

/-!
# Assigning to a safe property and to a safe collection property

The functions `coerce` and `check` belong to the user and may remember what they were called with, so they are given all
the calls before.
-/

namespace Normalize.CollSet

/-- A call of a function of the user. -/
inductive Call (V : Type)
  | coerce (v : V)
  | check (v : V)
  deriving DecidableEq

/-- What `coerce` does: return, raise a `SubtypeCoerceError` with its `coerced` value, or raise something else. -/
inductive Coerced (V : Type)
  | value (v : V)
  | subtype (v : V)
  | raises

variable {V : Type}

/-- A property (property/__init__.py:84-200): `required`, `isinstance(·, valuetype)` if there is a `valuetype`, `coerce`,
and `check` if there is one.  A `check` returns whether the value is all right, or raises. -/
structure Prop_ (V : Type) where
  required : Bool := false
  isa : Option (V → Bool) := none
  coerce : List (Call V) → V → Coerced V
  check : Option (List (Call V) → V → Except Exc Bool) := none

/-- `if self.check and not self.check(value): raise` (property/__init__.py:241-246): the result and the calls made
so far. -/
def runCheck (P : Prop_ V) (v : V) (h : List (Call V)) : Except Exc V × List (Call V) :=
  match P.check with
  | none => (.ok v, h)
  | some f =>
    match f h v with
    | .ok true => (.ok v, h ++ [.check v])
    | .ok false => (.error .valueCheck, h ++ [.check v])
    | .error e => (.error e, h ++ [.check v])

/-- The second `isinstance` (property/__init__.py:228-240); `_none_ok` is false. -/
def afterCoerce (P : Prop_ V) (isa : V → Bool) (w : V) (h : List (Call V)) : Except Exc V × List (Call V) :=
  if isa w then runCheck P w h else (.error .valueCoercion, h)

/-- `type_safe_value(value)` (property/__init__.py:202-246). -/
def typeSafe (isNone : V → Bool) (P : Prop_ V) (v : V) (h : List (Call V)) : Except Exc V × List (Call V) :=
  match P.isa with
  | none => if isNone v && P.required then (.error .propertyRequired, h) else runCheck P v h
  | some isa =>
    if isa v then runCheck P v h
    else
      match P.coerce h v with
      | .raises => (.error .coerceError, h ++ [.coerce v])
      | .value w | .subtype w => afterCoerce P isa w (h ++ [.coerce v])

/-- `SafeProperty.__set__` (property/__init__.py:410-413): what is put in the slot, or the exception. -/
def setSafe (isNone : V → Bool) (P : Prop_ V) (v : V) (h : List (Call V)) : Except Exc V × List (Call V) :=
  typeSafe isNone P v h

/-- `SafeCollectionProperty.__set__` (property/coll.py:63-67): the value is converted and passed to the setter of
`SafeProperty`, the next with a setter in the order of the classes. -/
def setColl (isNone : V → Bool) (P : Prop_ V) (v : V) (h : List (Call V)) : Except Exc V × List (Call V) :=
  match typeSafe isNone P v h with
  | (.error e, h') => (.error e, h')
  | (.ok w, h') => setSafe isNone P w h'

/-- `SafeProperty.__delete__` (property/__init__.py:414-420), where `slot` is what is in the slot. -/
def deleteSafe (P : Prop_ V) (slot : Option V) : Except Exc (Option V) :=
  if P.required then .error .propertyRequired
  else
    match slot with
    | none => .error .keyError
    | some _ => .ok none

/-- `V1Property.__set__` (property/__init__.py:462-471): what is in the slot afterwards, or the exception.  `super` is the
next setter in the order of the classes: that of `SafeProperty`, or of `SafeCollectionProperty` if the property is of both
kinds.  `isV1None` is `value == self.v1_none`. -/
def setV1 (super : V → List (Call V) → Except Exc V × List (Call V)) (isNone isV1None : V → Bool) (P : Prop_ V)
    (slot : Option V) (v : V) (h : List (Call V)) : Except Exc (Option V) × List (Call V) :=
  match super v h with
  | (.ok w, h') => (.ok (some w), h')
  | (.error e, h') =>
    if e.isCoercion then
      if isNone v || isV1None v then (deleteSafe P slot, h') else (.error e, h')
    else (.error e, h')

end Normalize.CollSet
