import Verif.Model.Val

/-!
# Declaring record classes

Models `RecordMeta.__new__` (`/repo/normalize/record/meta.py:27-99`) and the methods of `Property` that it uses
(`/repo/normalize/property/__init__.py:173-185, 274-275, 296-309, 355-356`), with what python does around them: the
choice of the metaclass, the method resolution order and the lookup of class attributes.

Classes and property objects are indices into the state.  Simplifications: `object` and its attributes are left out;
attribute names are not empty; no base class that is no record class has an attribute `properties`; a value given as
`primary_key` is a list or something that cannot be iterated; subclasses of `Property` do not override `set_name`,
`bind` or `aux_props` (those of the library do not, except that a `V1Property` has no `empty_attr`, which is a field
here).
-/

namespace Normalize.ClassMeta

/-- `empty_attr`: not given, `None`, or a name (property/__init__.py:153, 177-182). -/
inductive EAttr
  | unset
  | off
  | named (s : String)
  deriving DecidableEq, Repr

/-- A `Property` object (property/__init__.py:112-155). -/
structure PObj where
  name : Option String := none
  /-- `class_` -/
  cls : Option Nat := none
  emptyAttr : EAttr := .unset
  required : Bool := false
  hasDefault : Bool := false
  lazy : Bool := false
  extraneous : Bool := false
  deriving DecidableEq, Repr

/-- `bound` (property/__init__.py:173-175); the classes live. -/
def PObj.bound (p : PObj) : Bool := p.cls.isSome

/-- Does the name end in a digit? (property/__init__.py:181) -/
def endsInDigit (nm : String) : Bool :=
  match nm.toList.getLast? with
  | none => false
  | some c => c ∈ "0123456789".toList

/-- `set_name` (property/__init__.py:177-182). -/
def PObj.setName (p : PObj) (nm : String) : PObj :=
  { p with
    name := some nm
    emptyAttr :=
      match p.emptyAttr with
      | .unset => if endsInDigit nm then .off else .named (nm ++ "0")
      | e => e }

/-- `eager_init` (property/__init__.py:274-275, 355-356). -/
def PObj.eagerInit (p : PObj) : Bool := if p.lazy then false else p.required || p.hasDefault

/-- An entry of a `primary_key` declaration. -/
inductive PkEntry
  | name (s : String)
  | prop (p : Nat)
  | other
  deriving DecidableEq, Repr

/-- A class attribute: a property, an `EmptyAuxProp`, a list for `primary_key`, what the metaclass adds, or anything. -/
inductive AVal
  | prop (p : Nat)
  | aux (p : Nat)
  | pk (es : List PkEntry)
  | added
  | other
  deriving DecidableEq, Repr

/-- What `RecordMeta` stores (record/meta.py:83-91). -/
structure RecInfo where
  properties : List (String × Nat)
  primaryKey : List Nat
  sorted : List Nat
  eager : List String
  deriving DecidableEq, Repr

/-- A class; `info` for the record classes. -/
structure Cls where
  dict : List (String × AVal)
  mro : List Nat
  info : Option RecInfo
  deriving DecidableEq, Repr

/-- All the property objects and classes. -/
structure State where
  props : List PObj := []
  classes : List Cls := []
  deriving DecidableEq, Repr

/-- Exceptions; `badId`: there is no such class or property. -/
inductive CErr
  | multipleInheritanceClash
  | reservedPropertyName
  | propertiesNotKnown
  | keyError
  | typeError
  | mroConflict
  | badId
  deriving DecidableEq, Repr

/-! ## The method resolution order -/

/-- Is `c` in none of the tails? -/
def goodHead (c : Nat) (seqs : List (List Nat)) : Bool := seqs.all (fun s => !(s.tail.contains c))

/-- The first head that is in none of the tails. -/
def pick (all : List (List Nat)) : List (List Nat) → Option Nat
  | [] => none
  | [] :: rest => pick all rest
  | (c :: _) :: rest => if goodHead c all then some c else pick all rest

/-- Take `c` off the sequences that begin with it. -/
def takeOff (c : Nat) (s : List Nat) : List Nat := if s.head? = some c then s.tail else s

/-- python's C3 merge.  The first argument is a bound on the number of steps. -/
def merge : Nat → List (List Nat) → Option (List Nat)
  | 0, _ => some []
  | n + 1, seqs =>
    if seqs.all List.isEmpty then some []
    else
      match pick seqs seqs with
      | none => none
      | some c =>
        match merge n (seqs.map (takeOff c)) with
        | none => none
        | some l => some (c :: l)

/-- How many entries are there? -/
def total (seqs : List (List Nat)) : Nat := (seqs.map List.length).sum

/-- The `__mro__` of the bases. -/
def mroOf (s : State) (b : Nat) : List Nat :=
  match s.classes[b]? with
  | none => []
  | some c => c.mro

/-- The `__mro__` of a new class, without the class itself. -/
def newMro (s : State) (bases : List Nat) : Option (List Nat) :=
  merge (total (bases.map (mroOf s) ++ [bases])) (bases.map (mroOf s) ++ [bases])

/-- `getattr(cls, name)` along the given classes. -/
def find (s : State) (nm : String) : List Nat → Option AVal
  | [] => none
  | c :: cs =>
    match s.classes[c]? with
    | none => find s nm cs
    | some k =>
      match alookup k.dict nm with
      | some v => some v
      | none => find s nm cs

/-- `getattr(cls, name)`, before descriptors are called. -/
def classAttr (s : State) (c : Nat) (nm : String) : Option AVal := find s nm (mroOf s c)

/-! ## The metaclass -/

/-- The properties of a base, if it has any (record/meta.py:39). -/
def propsOf (s : State) (b : Nat) : List (String × Nat) :=
  match s.classes[b]? with
  | none => []
  | some c =>
    match c.info with
    | none => []
    | some r => r.properties

/-- `for propname, prop in base.properties.items()` (record/meta.py:40-47). -/
def addBase : List (String × Nat) → List (String × Nat) → Except CErr (List (String × Nat))
  | acc, [] => .ok acc
  | acc, (k, p) :: rest =>
    match alookup acc k with
    | some _ => .error .multipleInheritanceClash
    | none => addBase (aset acc k p) rest

/-- `for base in bases` (record/meta.py:38-47). -/
def addBases (s : State) : List (String × Nat) → List Nat → Except CErr (List (String × Nat))
  | acc, [] => .ok acc
  | acc, b :: bs =>
    match addBase acc (propsOf s b) with
    | .error e => .error e
    | .ok acc' => addBases s acc' bs

/-- The variables of the loop over the attributes (record/meta.py:36, 49-50), with the property objects. -/
structure Loop where
  props : List PObj
  properties : List (String × Nat)
  localProps : List (String × Nat) := []
  auxProps : List (String × AVal) := []

/-- `for aux_name, aux_prop in attrval.aux_props()` (record/meta.py:61-62; property/__init__.py:306-309). -/
def addAux (l : List (String × AVal)) (i : Nat) (p : PObj) : List (String × AVal) :=
  match p.emptyAttr with
  | .named a => aset l a (.aux i)
  | _ => l

/-- The loop over the attributes (record/meta.py:52-62). -/
def addAttrs : Loop → List (String × AVal) → Except CErr Loop × List PObj
  | l, [] => (.ok l, l.props)
  | l, (nm, v) :: rest =>
    if nm = "properties" ∨ nm = "eager_properties" then (.error .reservedPropertyName, l.props)
    else
      match v with
      | .prop i =>
        match l.props[i]? with
        | none => (.error .badId, l.props)
        | some p =>
          if p.bound then addAttrs { l with properties := aset l.properties nm i } rest
          else
            addAttrs
              { props := l.props.set i (p.setName nm)
                properties := aset l.properties nm i
                localProps := aset l.localProps nm i
                auxProps := addAux l.auxProps i (p.setName nm) } rest
      | _ => addAttrs l rest

/-- The loop of `coerce_prop_list` (record/meta.py:70-80); `Property` objects are equal if they are the same. -/
def coercePk (properties : List (String × Nat)) : List PkEntry → Except CErr (List Nat)
  | [] => .ok []
  | .name s :: es =>
    match alookup properties s with
    | none => .error .keyError
    | some p =>
      match coercePk properties es with
      | .error e => .error e
      | .ok ps => .ok (p :: ps)
  | .prop p :: es =>
    if p ∈ properties.map (·.2) then
      match coercePk properties es with
      | .error e => .error e
      | .ok ps => .ok (p :: ps)
    else .error .propertiesNotKnown
  | .other :: _ => .error .propertiesNotKnown

/-- `coerce_prop_list('primary_key')` (record/meta.py:66-81). -/
def primaryKey (attrs : List (String × AVal)) (properties : List (String × Nat)) : Except CErr (List Nat) :=
  match alookup attrs "primary_key" with
  | none => .ok []
  | some (.pk es) => coercePk properties es
  | some _ => .error .typeError

/-- `attrs.update(…)`. -/
def update (d : List (String × AVal)) : List (String × AVal) → List (String × AVal)
  | [] => d
  | (k, v) :: rest => update (aset d k v) rest

/-- Is the property not extraneous? (record/meta.py:87) -/
def counts (props : List PObj) (i : Nat) : Bool :=
  match props[i]? with
  | none => false
  | some p => !p.extraneous

/-- `lambda x: x.name` (record/meta.py:88). -/
def nameOf (props : List PObj) (i : Nat) : String :=
  match props[i]? with
  | none => ""
  | some p => p.name.getD ""

/-- The order by names. -/
def nameLe (props : List PObj) (i j : Nat) : Bool := decide (nameOf props i ≤ nameOf props j)

/-- Put one into a sorted list, before those that are equal. -/
def insertBy (le : Nat → Nat → Bool) (x : Nat) : List Nat → List Nat
  | [] => [x]
  | y :: ys => if le x y then x :: y :: ys else y :: insertBy le x ys

/-- python's `sorted`, which is stable. -/
def sortBy (le : Nat → Nat → Bool) : List Nat → List Nat
  | [] => []
  | x :: xs => insertBy le x (sortBy le xs)

/-- `_sorted_properties` (record/meta.py:86-89). -/
def sortedProps (props : List PObj) (properties : List (String × Nat)) : List Nat :=
  sortBy (nameLe props) ((properties.map (·.2)).filter (counts props))

/-- `v.eager_init()`. -/
def eagerAt (props : List PObj) (i : Nat) : Bool :=
  match props[i]? with
  | none => false
  | some p => p.eagerInit

/-- `eager_properties` (record/meta.py:90-92). -/
def eagerProps (props : List PObj) (properties : List (String × Nat)) : List String :=
  (properties.filter (fun kp => eagerAt props kp.2)).map (·.1)

/-- The attributes of the class (record/meta.py:83-92). -/
def classDict (attrs aux : List (String × AVal)) : List (String × AVal) :=
  update (update attrs aux)
    [("primary_key", .added), ("properties", .added), ("_sorted_properties", .added), ("eager_properties", .added)]

/-- `bind` (property/__init__.py:184-185). -/
def bindOne (props : List PObj) (i c : Nat) : List PObj :=
  match props[i]? with
  | none => props
  | some p => props.set i { p with cls := some c }

/-- `for propname, prop in local_props.items(): prop.bind(self)` (record/meta.py:96-97). -/
def bindAll (c : Nat) : List PObj → List (String × Nat) → List PObj
  | props, [] => props
  | props, (_, i) :: rest => bindAll c (bindOne props i c) rest

/-- `RecordMeta.__new__` (record/meta.py:27-99); `attrs` is a dict. -/
def newRecord (s : State) (bases : List Nat) (attrs : List (String × AVal)) : Except CErr Nat × State :=
  match addBases s [] bases with
  | .error e => (.error e, s)
  | .ok inherited =>
    match addAttrs { props := s.props, properties := inherited } attrs with
    | (.error e, props) => (.error e, { s with props := props })
    | (.ok l, _) =>
      match primaryKey attrs l.properties with
      | .error e => (.error e, { s with props := l.props })
      | .ok pk =>
        match newMro s bases with
        | none => (.error .mroConflict, { s with props := l.props })
        | some m =>
          (.ok s.classes.length,
            { props := bindAll s.classes.length l.props l.localProps
              classes := s.classes ++
                [{ dict := classDict attrs l.auxProps
                   mro := s.classes.length :: m
                   info := some
                    { properties := l.properties
                      primaryKey := pk
                      sorted := sortedProps l.props l.properties
                      eager := eagerProps l.props l.properties } }] })

/-- `type.__new__`. -/
def newPlain (s : State) (bases : List Nat) (attrs : List (String × AVal)) : Except CErr Nat × State :=
  match newMro s bases with
  | none => (.error .mroConflict, s)
  | some m => (.ok s.classes.length, { s with classes := s.classes ++ [{ dict := attrs, mro := s.classes.length :: m, info := none }] })

/-- Is it a record class? -/
def isRecord (s : State) (b : Nat) : Bool :=
  match s.classes[b]? with
  | none => false
  | some c => c.info.isSome

/-- A class statement: the metaclass is `RecordMeta` if it is given (record/__init__.py:32), or that of a base. -/
def declare (s : State) (isMeta : Bool) (bases : List Nat) (attrs : List (String × AVal)) : Except CErr Nat × State :=
  if bases.all (fun b => decide (b < s.classes.length)) then
    if isMeta || bases.any (isRecord s) then newRecord s bases attrs else newPlain s bases attrs
  else (.error .badId, s)

/-- `Property(…)`: a new property object. -/
def newProp (s : State) (required hasDefault lazy extraneous : Bool) (emptyAttr : EAttr) : Nat × State :=
  (s.props.length, { s with props := s.props ++
    [{ required := required, hasDefault := hasDefault, lazy := lazy, extraneous := extraneous, emptyAttr := emptyAttr }] })

end Normalize.ClassMeta
