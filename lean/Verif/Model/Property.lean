import Verif.Model.Exc

/-!
# Properties and the slots of one record

Models `/repo/normalize/property/__init__.py:38-471` and `/repo/normalize/record/__init__.py:32-83`: the
property kinds as data descriptors over the instance dict of one record, the constructor, and pickling.
The type `V` of python objects is a parameter.  User functions (`isa` as an `isinstance` test, `coerce`,
`check`, `default`) are arbitrary; a `default` method may itself read, assign and delete attributes of the
record.
-/

namespace Normalize.Slots

/-- The property classes (property/__init__.py): `Property` 47, `LazyProperty` 324, `ROProperty` 375,
`ROLazyProperty` 389, `SafeProperty` 400, `LazySafeProperty` 423, `V1Property` 434. -/
inductive Kind
  | plain | lazy | ro | roLazy | safe | lazySafe | v1
  deriving DecidableEq, Repr

namespace Kind

/-- Subclasses of `LazyProperty`. -/
def isLazy : Kind → Bool
  | lazy | roLazy | lazySafe => true
  | _ => false

/-- Subclasses of `ROProperty`. -/
def isRO : Kind → Bool
  | ro | roLazy => true
  | _ => false

/-- Classes that define `__set__` (data descriptors): assignments go through the property. -/
def isData : Kind → Bool
  | plain | lazy => false
  | _ => true

end Kind

/-- An attribute operation on the record. -/
inductive Op (V : Type)
  | get (name : String)
  | set (name : String) (v : V)
  | del (name : String)

/-- A `default` function or method: it ends with a value or an exception, possibly after using attributes
of the record it is called on. -/
inductive Prog (V : Type)
  | ret (v : V)
  | raise (e : Exc)
  | op (o : Op V) (k : Except Exc V → Prog V)

/-- How a call of a `coerce` function ends; `subtype v` is a `SubtypeCoerceError` whose `coerced` is `v`
(property/__init__.py:208-211). -/
inductive CoerceRes (V : Type)
  | ok (v : V)
  | subtype (v : V)
  | raise (e : Exc)

/-- The python objects the code refers to: `None`, the `_none` sentinel "<not set>"
(property/__init__.py:38-43), and `==`. -/
structure World (V : Type) where
  none : V
  unset : V
  eq : V → V → Bool

/-- A declared property (property/__init__.py:54-160, 437-451). -/
structure PropDef (V : Type) where
  kind : Kind := .safe
  /-- `isinstance(·, valuetype)`; `none` when `isa=` was not given -/
  isa : Option (V → Bool) := none
  /-- `coerce or isa`, only called when `isa` is given -/
  coerce : V → CoerceRes V := fun _ => .raise (.user 0)
  check : Option (V → Except Exc Bool) := none
  required : Bool := false
  default : Option (Prog V) := none
  /-- what an unset `V1Property` reads as -/
  v1none : Option V := none

/-- The properties of a record class, in declaration order, names being dict keys. -/
structure Cls (V : Type) where
  props : List (String × PropDef V)

/-- `type(self).properties.get(name)`. -/
def Cls.find {V} (c : Cls V) (nm : String) : Option (PropDef V) :=
  (c.props.find? (fun x => x.1 == nm)).map (·.2)

/-- The instance dict; `calls` is a ghost log of evaluated defaults, latest first. -/
structure State (V : Type) where
  slots : String → Option V
  calls : List String

namespace State
variable {V : Type}

/-- `object.__new__` -/
def empty : State V := ⟨fun _ => none, []⟩

/-- `obj.__dict__[name] = v` -/
def put (st : State V) (nm : String) (v : V) : State V :=
  { st with slots := fun n => if n = nm then some v else st.slots n }

/-- `del obj.__dict__[name]` for a present key -/
def drop (st : State V) (nm : String) : State V :=
  { st with slots := fun n => if n = nm then none else st.slots n }

/-- the default of `nm` is evaluated -/
def log (st : State V) (nm : String) : State V := { st with calls := nm :: st.calls }

end State

variable {V : Type} [DecidableEq V]

/-- The check at the end of `type_safe_value` (property/__init__.py:241-246). -/
def runCheck (p : PropDef V) (v : V) : Except Exc V :=
  match p.check with
  | none => .ok v
  | some f =>
    match f v with
    | .error e => .error e
    | .ok true => .ok v
    | .ok false => .error .valueCheck

/-- What `type_safe_value` does with the result of `coerce` (property/__init__.py:228-240). -/
def afterCoerce (w : World V) (p : PropDef V) (isa : V → Bool) (nv : V) (noneOk : Bool) : Except Exc V :=
  if isa nv then runCheck p nv
  else if noneOk = true ∧ nv = w.none ∧ p.required = false then .ok w.unset
  else .error .valueCoercion

/-- `Property.type_safe_value` (property/__init__.py:202-246). -/
def typeSafe (w : World V) (p : PropDef V) (v : V) (noneOk : Bool) : Except Exc V :=
  if v = w.none ∧ p.required = true ∧ p.isa.isNone = true then .error .propertyRequired
  else
    match p.isa with
    | none => runCheck p v
    | some isa =>
      if isa v then runCheck p v
      else
        match p.coerce v with
        | .ok nv => afterCoerce w p isa nv noneOk
        | .subtype nv => afterCoerce w p isa nv noneOk
        | .raise _ => .error .coerceError

/-- What an operation returns: the outcome and the new state; `none` if it does not return (unbounded
recursion of defaults, ended by python with `RecursionError`). -/
abbrev Res (V : Type) (α : Type) := Option (Except Exc α × State V)

/-- Run a `default` method; `ex` performs attribute operations. -/
def runProg (ex : State V → Op V → Res V V) : Prog V → State V → Res V V
  | .ret v, st => some (.ok v, st)
  | .raise e, st => some (.error e, st)
  | .op o k, st =>
    match ex st o with
    | none => none
    | some (r, st') => runProg ex (k r) st'

/-- `Property.get_default` (property/__init__.py:248-257): the `_none` sentinel if there is no default. -/
def getDefault (w : World V) (ex : State V → Op V → Res V V) (nm : String) (p : PropDef V)
    (st : State V) : Res V V :=
  match p.default with
  | none => some (.ok w.unset, st)
  | some prog => runProg ex prog (st.log nm)

/-- `LazyProperty.__get__` on an empty slot (property/__init__.py:355-369). -/
def lazyGet (w : World V) (ex : State V → Op V → Res V V) (nm : String) (p : PropDef V)
    (st : State V) : Res V V :=
  match getDefault w ex nm p st with
  | none => none
  | some (.error e, st') => some (.error e, st')
  | some (.ok v, st') =>
    match typeSafe w p v false with
    | .error e => some (.error e, st')
    | .ok v' => some (.ok v', st'.put nm v')

/-- `getattr(obj, name)` (property/__init__.py:280-287, 355-369, 389-397, 423-431, 458-459; data
descriptors first, then the instance dict, then non-data descriptors).  An undeclared name is a plain
instance attribute. -/
def getAttr (w : World V) (c : Cls V) (ex : State V → Op V → Res V V) (st : State V) (nm : String) :
    Res V V :=
  match st.slots nm with
  | some v => some (.ok v, st)
  | none =>
    match c.find nm with
    | none => some (.error .attributeError, st)
    | some p =>
      if p.kind.isLazy then lazyGet w ex nm p st
      else
        match p.kind, p.v1none with
        | .v1, some v => some (.ok v, st)
        | .v1, none => some (.ok w.none, st)
        | _, _ => some (.error .attributeError, st)

/-- `SafeProperty.__delete__` (property/__init__.py:414-420). -/
def safeDelete (w : World V) (p : PropDef V) (st : State V) (nm : String) : Except Exc V × State V :=
  if p.required then (.error .propertyRequired, st)
  else match st.slots nm with
    | none => (.error .keyError, st)
    | some _ => (.ok w.none, st.drop nm)

/-- `SafeProperty.__set__` (property/__init__.py:408-412). -/
def safeSet (w : World V) (p : PropDef V) (st : State V) (nm : String) (v : V) : Except Exc V × State V :=
  match typeSafe w p v false with
  | .error e => (.error e, st)
  | .ok v' => (.ok w.none, st.put nm v')

/-- `setattr(obj, name, v)` (property/__init__.py:380-386, 408-412, 461-471; non-data descriptors do not
intercept assignment). -/
def setAttr (w : World V) (c : Cls V) (st : State V) (nm : String) (v : V) : Except Exc V × State V :=
  match c.find nm with
  | none => (.ok w.none, st.put nm v)
  | some p =>
    match p.kind with
    | .plain | .lazy => (.ok w.none, st.put nm v)
    | .ro | .roLazy => (.error .readOnly, st)
    | .safe | .lazySafe => safeSet w p st nm v
    | .v1 =>
      match safeSet w p st nm v with
      | (.ok r, st') => (.ok r, st')
      | (.error e, st') =>
        if e.isCoercion then
          if v = w.none ∨ w.eq v (p.v1none.getD w.none) = true then safeDelete w p st' nm
          else (.error e, st')
        else (.error e, st')

/-- `object.__delattr__` on an instance attribute. -/
def plainDelete (w : World V) (st : State V) (nm : String) : Except Exc V × State V :=
  match st.slots nm with
  | none => (.error .attributeError, st)
  | some _ => (.ok w.none, st.drop nm)

/-- `delattr(obj, name)` (property/__init__.py:384-386, 414-420; otherwise `object.__delattr__`). -/
def delAttr (w : World V) (c : Cls V) (st : State V) (nm : String) : Except Exc V × State V :=
  match c.find nm with
  | none => plainDelete w st nm
  | some p =>
    match p.kind with
    | .plain | .lazy => plainDelete w st nm
    | .ro | .roLazy => (.error .readOnly, st)
    | .safe | .lazySafe | .v1 => safeDelete w p st nm

/-- One attribute operation.  The number bounds the nesting of defaults. -/
def exec (w : World V) (c : Cls V) : Nat → State V → Op V → Res V V
  | 0, _, _ => none
  | n + 1, st, .get nm => getAttr w c (exec w c n) st nm
  | _ + 1, st, .set nm v => some (setAttr w c st nm v)
  | _ + 1, st, .del nm => some (delAttr w c st nm)

/-- `Property.eager_init`, `LazyProperty.eager_init` (property/__init__.py:274-275, 352-353). -/
def PropDef.eager (p : PropDef V) : Bool :=
  if p.kind.isLazy then false else p.required || p.default.isSome

/-- The tail of `Property.init_prop` once a value (possibly the sentinel) is there
(property/__init__.py:263-272). -/
def initValue (w : World V) (p : PropDef V) (nm : String) (st : State V) (v : V) :
    Except Exc Unit × State V :=
  let nv : Except Exc V := if v = w.unset then .ok w.unset else typeSafe w p v true
  match nv with
  | .error e => (.error e, st)
  | .ok nv =>
    if nv = w.unset then
      if p.required then (.error .propertyRequired, st) else (.ok (), st)
    else (.ok (), st.put nm nv)

/-- `init_prop(obj, value)` and `init_prop(obj)` (property/__init__.py:259-272, 347-350). -/
def initProp (w : World V) (ex : State V → Op V → Res V V) (p : PropDef V) (nm : String) (st : State V)
    (arg : Option V) : Res V Unit :=
  match arg with
  | some v => some (initValue w p nm st v)
  | none =>
    if p.kind.isLazy then some (.ok (), st)
    else match getDefault w ex nm p st with
      | none => none
      | some (.error e, st') => some (.error e, st')
      | some (.ok v, st') => some (initValue w p nm st' v)

/-- Initialise several properties, stopping at the first exception. -/
def initAll (w : World V) (c : Cls V) (ex : State V → Op V → Res V V) :
    List (String × Option V) → State V → Res V Unit
  | [], st => some (.ok (), st)
  | (nm, arg) :: rest, st =>
    match c.find nm with
    | none => some (.error .propertyNotKnown, st)
    | some p =>
      match initProp w ex p nm st arg with
      | none => none
      | some (.error e, st') => some (.error e, st')
      | some (.ok (), st') => initAll w c ex rest st'

/-- `eager_properties` (record/meta.py:91-93). -/
def Cls.eagerNames (c : Cls V) : List String := (c.props.filter (fun x => x.2.eager)).map (·.1)

/-- `Record.__init__` (record/__init__.py:32-67) on a fresh object; dicts are association lists.  `ord` is
the iteration order of the set of missing properties. -/
def construct (w : World V) (c : Cls V) (n : Nat) (ord : List String → List String)
    (initDict kwargs : List (String × V)) : Res V Unit :=
  if !initDict.isEmpty && !kwargs.isEmpty then some (.error .ambiguousConstruction, .empty)
  else
    let kw := if initDict.isEmpty then kwargs else initDict
    let missing := ord (c.eagerNames.filter (fun nm => !(kw.map (·.1)).contains nm))
    initAll w c (exec w c n)
      (kw.map (fun x => (x.1, some x.2)) ++ missing.map (fun nm => (nm, none))) .empty

/-- Pickling then unpickling a record (record/__init__.py:69-83): `__getnewargs__` makes the constructor
return at once (record/__init__.py:46-47), then `__setstate__` updates the empty instance dict with the
pickled one.  `copy` is what pickling does to each value. -/
def repickle (copy : V → V) (st : State V) : State V :=
  let fresh : State V := .empty
  { fresh with slots := fun nm => match st.slots nm with
      | some v => some (copy v)
      | none => fresh.slots nm }

end Normalize.Slots
