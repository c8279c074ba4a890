import Verif.Model.Json
import Verif.Model.Mem

/-!
# JSON input on a memory of objects

`/repo/normalize/record/json.py:40-159, 282-318, 363-420, 436-492`, with what it uses of `property/json.py:92-95`,
`property/__init__.py:202-275`, `record/__init__.py:32-67` and `coll.py:88-185, 203-340`, once more, this time on a
memory of mutable objects, so that one can ask what a record shares with the JSON data it was made from.
`Verif.Model.Json` models the same code on trees.

Simplifications, beside those of `Verif.Model.Json`: exceptions are not wrapped in `JsonConversionError`s; objects
that were made before an exception and that nothing refers to are not kept; the `values` list that
`json_to_initkwargs` of a collection makes, which the collection copies, is not an object of its own.
-/

namespace Normalize.JsonInMem

open Normalize.Mem
open Ident (IProp Ty ItemTy CollKind)

/-- A function on objects. -/
abbrev Fn := Mem → Ref → Except Exc (Mem × Ref)

/-- The classes.  `J` has the properties with their types, names and flags, and which classes are
`JsonRecord`s. -/
structure World where
  J : Json.Setup
  /-- `isinstance` for the types that are no record classes -/
  isa : Nat → Mem → Ref → Bool
  /-- calling those types -/
  make : Nat → Fn
  /-- their `from_json`, if they have it -/
  typeFromJson : Nat → Option Fn := fun _ => none
  /-- `json_in=` of a property -/
  jin : String → String → Option Fn := fun _ _ => none
  /-- `coerce=` of a property -/
  coerce : String → String → Option Fn := fun _ _ => none
  /-- `check=` of a property -/
  check : String → String → Option (Mem → Ref → Except Exc Bool) := fun _ _ => none
  /-- `default=` of a property: an object, or a function that makes one -/
  default : String → String → Option (Mem → Except Exc (Mem × Ref)) := fun _ _ => none
  /-- `json.loads` -/
  loads : String → Mem → Except Exc (Mem × Ref)

variable (W : World)

/-- Calling a record class with one positional argument. -/
abbrev Mk := String → Fn

/-- The class of a record or collection. -/
def clsOf : Obj → Option String
  | .rcd c _ | .lcoll c _ | .dcoll c _ => some c
  | _ => none

/-- `isinstance(v, t)` -/
def instOf (m : Mem) (v : Ref) : Ty → Bool
  | .cls c =>
    match clsOf (deref m v) with
    | some d => decide (d = c) || W.J.sub d c
    | none => false
  | .other n => W.isa n m v

/-- `t(v)` -/
def callTy (mk : Mk) : Ty → Fn
  | .cls c => mk c
  | .other n => W.make n

/-- `self.coerce(value)` (property/__init__.py:152-153, 206-207); a tuple of types is not callable. -/
def coerceVal (mk : Mk) (c : String) (p : IProp) : Fn := fun m v =>
  match W.coerce c p.name with
  | some f => f m v
  | none =>
    match p.types with
    | [t] => callTy W mk t m v
    | _ => .error .typeError

/-- The check at the end of `type_safe_value` (property/__init__.py:241-246). -/
def runCheck (c : String) (p : IProp) (m : Mem) (v : Ref) : Except Exc (Mem × Option Ref) :=
  match W.check c p.name with
  | none => .ok (m, some v)
  | some f =>
    match f m v with
    | .error e => .error e
    | .ok true => .ok (m, some v)
    | .ok false => .error .valueCheck

/-- `type_safe_value(value, _none_ok=True)` (property/__init__.py:202-246); `none` for the `_none` marker. -/
def typeSafe (mk : Mk) (c : String) (p : IProp) (m : Mem) (v : Ref) : Except Exc (Mem × Option Ref) :=
  if v = .atom .none ∧ (W.J.info c p.name).required = true ∧ p.types = [] then .error .propertyRequired
  else if !p.types.isEmpty && !p.types.any (instOf W m v) then
    match coerceVal W mk c p m v with
    | .error _ => .error .coerceError
    | .ok (m', w) =>
      if p.types.any (instOf W m' w) then runCheck W c p m' w
      else if w = .atom .none ∧ (W.J.info c p.name).required = false then .ok (m', none)
      else .error .valueCoercion
  else runCheck W c p m v

/-- `init_prop(obj, value)` (property/__init__.py:259-272): the new instance dict. -/
def initProp (mk : Mk) (c : String) (p : IProp) (m : Mem) (v : Ref) (s : List (String × Ref)) :
    Except Exc (Mem × List (String × Ref)) :=
  match typeSafe W mk c p m v with
  | .error e => .error e
  | .ok (m', some w) => .ok (m', aset s p.name w)
  | .ok (m', none) => if (W.J.info c p.name).required then .error .propertyRequired else .ok (m', s)

/-- The loop over the arguments (record/__init__.py:52-60). -/
def initArgs (mk : Mk) (c : String) :
    List (String × Ref) → Mem → List (String × Ref) → Except Exc (Mem × List (String × Ref))
  | [], m, s => .ok (m, s)
  | (k, v) :: kw, m, s =>
    match Json.findProp W.J c k with
    | none => .error .propertyNotKnown
    | some p =>
      match initProp W mk c p m v s with
      | .error e => .error e
      | .ok (m', s') => initArgs mk c kw m' s'

/-- `init_prop(obj)` (property/__init__.py:248-272). -/
def initDefault (mk : Mk) (c : String) (p : IProp) (m : Mem) (s : List (String × Ref)) :
    Except Exc (Mem × List (String × Ref)) :=
  match W.default c p.name with
  | none => if (W.J.info c p.name).required then .error .propertyRequired else .ok (m, s)
  | some f =>
    match f m with
    | .error e => .error e
    | .ok (m', v) => initProp W mk c p m' v s

/-- The loop over the missing properties (record/__init__.py:61-65). -/
def initMissing (mk : Mk) (c : String) :
    List IProp → Mem → List (String × Ref) → Except Exc (Mem × List (String × Ref))
  | [], m, s => .ok (m, s)
  | p :: ps, m, s =>
    match initDefault W mk c p m s with
    | .error e => .error e
    | .ok (m', s') => initMissing mk c ps m' s'

/-- `eager_init` (property/__init__.py:274-275, 352-353). -/
def eager (c : String) (p : IProp) : Bool :=
  !(W.J.info c p.name).lazy && ((W.J.info c p.name).required || (W.default c p.name).isSome)

/-- A new object. -/
def made (m : Mem) (o : Obj) : Except Exc (Mem × Ref) := .ok (alloc m o)

/-- `Record.__init__` with keyword arguments (record/__init__.py:32-67). -/
def initRecord (mk : Mk) (c : String) (m : Mem) (kw : List (String × Ref)) : Except Exc (Mem × Ref) :=
  match initArgs W mk c kw m [] with
  | .error e => .error e
  | .ok (m1, s) =>
    match initMissing W mk c
        ((W.J.S.cls c).props.filter (fun p => eager W c p && (alookup kw p.name).isNone)) m1 s with
    | .error e => .error e
    | .ok (m2, s') => made m2 (.rcd c s')

/-- `_json_to_value_initializer` (json.py:40-49); see `Json.valueInit`. -/
def valueInit (mk : Mk) (types : List Ty) : Fn := fun m v =>
  match types with
  | [.cls d] => if W.J.isJson d then mk d m v else .ok (m, v)
  | [.other n] =>
    match W.typeFromJson n with
    | some f => f m v
    | none => .ok (m, v)
  | _ => .ok (m, v)

/-- `prop.from_json(json)` (property/json.py:92-95). -/
def propIn (c : String) (p : IProp) : Fn := fun m v =>
  match W.jin c p.name with
  | some f => f m v
  | none => .ok (m, v)

/-- The value for a property from the JSON value (json.py:93-99, 108-111). -/
def convertIn (mk : Mk) (c : String) (p : IProp) : Fn := fun m j =>
  match propIn W c p m j with
  | .error e => .error e
  | .ok (m', v) => valueInit W mk p.types m' v

/-- The keyword arguments and `unknown_keys`. -/
structure Kw where
  args : List (String × Ref)
  unknown : List Comp

/-- `if propname not in kwargs: …` (json.py:92-101, 106-113) -/
def takeArg (mk : Mk) (c : String) (p : IProp) (m : Mem) (j : Ref) (args : List (String × Ref)) :
    Except Exc (Mem × List (String × Ref)) :=
  if (alookup args p.name).isSome then .ok (m, args)
  else
    match convertIn W mk c p m j with
    | .error e => .error e
    | .ok (m', v) => .ok (m', args ++ [(p.name, v)])

/-- One round of the loop over the properties (json.py:86-113).  The exceptions being alike, it does not matter
when the key is removed. -/
def kwProp (mk : Mk) (c : String) (js : List (Comp × Ref)) (p : IProp) (m : Mem) (w : Kw) : Except Exc (Mem × Kw) :=
  match Json.jsonName W.J c p with
  | none => .ok (m, w)
  | some k =>
    match alookup js (.str k) with
    | none => .ok (m, w)
    | some j =>
      match takeArg W mk c p m j w.args with
      | .error e => .error e
      | .ok (m', args) =>
        if Comp.str k ∈ w.unknown then .ok (m', ⟨args, w.unknown.erase (.str k)⟩) else .error .keyError

/-- The loop over the properties (json.py:86-113). -/
def kwProps (mk : Mk) (c : String) (js : List (Comp × Ref)) : List IProp → Mem → Kw → Except Exc (Mem × Kw)
  | [], m, w => .ok (m, w)
  | p :: ps, m, w =>
    match kwProp W mk c js p m w with
    | .error e => .error e
    | .ok (m', w') => kwProps mk c js ps m' w'

/-- `(k, deepcopy(json_struct[k]))` (json.py:116-117). -/
def copyAll : List (Comp × Ref) → Mem → Mem × List (Comp × Ref)
  | [], m => (m, [])
  | (k, x) :: xs, m => ((copyAll xs (deepcopy m x).1).1, (k, (deepcopy m x).2) :: (copyAll xs (deepcopy m x).1).2)

/-- The entries with unknown keys. -/
def unclaimed (js : List (Comp × Ref)) (w : Kw) : List (Comp × Ref) := js.filter (fun e => decide (e.1 ∈ w.unknown))

/-- `kwargs["unknown_json_keys"] = …` (json.py:114-118). -/
def withUnknown (js : List (Comp × Ref)) (m : Mem) (w : Kw) : Mem × List (String × Ref) :=
  if w.unknown.isEmpty then (m, w.args)
  else
    ((alloc (copyAll (unclaimed js w) m).1 (.dict (copyAll (unclaimed js w) m).2)).1,
     aset w.args Json.unknownKeys (alloc (copyAll (unclaimed js w) m).1 (.dict (copyAll (unclaimed js w) m).2)).2)

/-- The dict that a JSON value stands for (json.py:78-84). -/
def structOf : Obj → Except Exc (List (Comp × Ref))
  | .atom .none => .ok []
  | .dict xs => .ok xs
  | _ => .error .jsonCoerce

/-- `json_to_initkwargs` (json.py:64-118). -/
def initKwargs (mk : Mk) (c : String) (m : Mem) (j : Ref) : Except Exc (Mem × List (String × Ref)) :=
  match structOf (deref m j) with
  | .error e => .error e
  | .ok js =>
    match kwProps W mk c js (W.J.S.cls c).props m ⟨[], js.map (·.1)⟩ with
    | .error e => .error e
    | .ok (m', w) => .ok (withUnknown js m' w)

/-- `_decode_and_parse_json` (json.py:121-134); bytes are left out. -/
def decode : Fn := fun m v =>
  match v with
  | .atom (.str s) => W.loads s m
  | _ => .ok (m, v)

/-- `JsonRecord.__init__(json_data)` (json.py:282-304), where `json_to_initkwargs` decodes once more
(json.py:310). -/
def mkJson (mk : Mk) (c : String) : Fn := fun m v =>
  match decode W m v with
  | .error e => .error e
  | .ok (m1, j) =>
    if j = .atom .none then initRecord W mk c m1 []
    else
      match decode W m1 j with
      | .error e => .error e
      | .ok (m2, j') =>
        match initKwargs W mk c m2 j' with
        | .error e => .error e
        | .ok (m3, kw) => initRecord W mk c m3 kw

/-- `not v` -/
def falsy : Obj → Bool
  | .atom a => W.J.S.falsy a
  | .list xs | .lcoll _ xs => xs.isEmpty
  | .dict xs | .dcoll _ xs => xs.isEmpty
  | .rcd _ _ => false

/-- The entries of a mapping as keyword arguments; only strings name properties. -/
def namedArgs : List (Comp × Ref) → Except Exc (List (String × Ref))
  | [] => .ok []
  | (.str k, v) :: xs =>
    match namedArgs xs with
    | .error e => .error e
    | .ok r => .ok ((k, v) :: r)
  | _ :: _ => .error .propertyNotKnown

/-- `Record.__init__(init_dict)` (record/__init__.py:32-67). -/
def mkPlain (mk : Mk) (c : String) : Fn := fun m v =>
  if falsy W (deref m v) then initRecord W mk c m []
  else
    match deref m v with
    | .dict xs | .dcoll _ xs =>
      match namedArgs xs with
      | .error e => .error e
      | .ok kw => initRecord W mk c m kw
    | _ => .error .attributeError

/-- `isinstance(v, itemtype)` -/
def isItem (m : Mem) (v : Ref) : ItemTy → Bool
  | .one t => instOf W m v t
  | .tup ts => ts.any (instOf W m v)

/-- `coerce_value` (coll.py:135-149). -/
def coerceItem (mk : Mk) (it : ItemTy) : Fn := fun m v =>
  if isItem W m v it then .ok (m, v)
  else
    match it with
    | .tup _ => .error .attributeError
    | .one t =>
      match callTy W mk t m v with
      | .ok q => .ok q
      | .error _ => .error .collectionItemCoerce

/-- A dict key as a value. -/
def keyRef : Comp → Ref
  | .str s => .atom (.str s)
  | .int i => .atom (.int i)
  | .none => .atom .none

/-- `ListCollection.coll_to_tuples` (coll.py:317-340), without the indices; see `Json.listItems`. -/
def listItems : Obj → Except Exc (List Ref)
  | .atom (.str _) => .error .collectionCoerce
  | .dict xs =>
    if xs.all (fun x => xs.all (fun y => Ident.Comp.sameSort x.1 y.1)) then
      .ok ((xs.insertionSort (fun x y => Ident.Comp.le x.1 y.1)).map (·.2))
    else .error .typeError
  | .list xs | .lcoll _ xs => .ok xs
  | .dcoll _ xs => .ok (xs.map (fun x => keyRef x.1))
  | .atom a => if W.J.S.falsy a then .ok [] else .error .collectionCoerce
  | .rcd _ _ => .error .collectionCoerce

/-- The items with their indices. -/
def numbered (xs : List Ref) : List (Comp × Ref) := xs.zipIdx.map (fun x => (Comp.int x.2, x.1))

/-- `DictCollection.coll_to_tuples` (coll.py:219-243). -/
def dictItems : Obj → Except Exc (List (Comp × Ref))
  | .atom (.str _) => .error .collectionCoerce
  | .dict xs => .ok xs
  | .list xs => .ok (numbered xs)
  | _ => .ok []

/-- A function on every value. -/
def mapValues (f : Fn) : List (Comp × Ref) → Mem → Except Exc (Mem × List (Comp × Ref))
  | [], m => .ok (m, [])
  | (k, x) :: xs, m =>
    match f m x with
    | .error e => .error e
    | .ok (m1, y) =>
      match mapValues f xs m1 with
      | .error e => .error e
      | .ok (m2, ys) => .ok (m2, (k, y) :: ys)

/-- `ListCollection(values)`, given the values (coll.py:88-106, 310-315). -/
def listOf (mk : Mk) (c : String) (it : ItemTy) (xs : List Ref) (m : Mem) : Except Exc (Mem × Ref) :=
  match Mem.mapM (coerceItem W mk it) xs m with
  | .error e => .error e
  | .ok (m', ys) => made m' (.lcoll c ys)

/-- `DictCollection(values)`, given the values (coll.py:88-106, 212-217). -/
def dictOf (mk : Mk) (c : String) (it : ItemTy) (xs : List (Comp × Ref)) (m : Mem) : Except Exc (Mem × Ref) :=
  match mapValues (coerceItem W mk it) xs m with
  | .error e => .error e
  | .ok (m', ys) => made m' (.dcoll c ys)

/-- `ListCollection(values)` (coll.py:88-106). -/
def mkList (mk : Mk) (c : String) (it : ItemTy) : Fn := fun m v =>
  match listItems W (deref m v) with
  | .error e => .error e
  | .ok xs => listOf W mk c it xs m

/-- `DictCollection(values)` (coll.py:88-106). -/
def mkDict (mk : Mk) (c : String) (it : ItemTy) : Fn := fun m v =>
  match dictItems (deref m v) with
  | .error e => .error e
  | .ok xs => dictOf W mk c it xs m

/-- `from_json` of a record class that is no `JsonRecord` (json.py:153-157). -/
def fromPlain (mk : Mk) (c : String) : Fn := fun m j =>
  match initKwargs W mk c m j with
  | .error e => .error e
  | .ok (m', kw) =>
    match (W.J.S.cls c).coll with
    | none => initRecord W mk c m' kw
    | some (.list, _) => if kw.isEmpty then made m' (.lcoll c []) else .error .propertyNotKnown
    | some (.dict, _) => if kw.isEmpty then made m' (.dcoll c []) else .error .propertyNotKnown

/-- `from_json(record_type, json_struct)` (json.py:137-159). -/
def fromJsonWith (mk : Mk) (c : String) : Fn := fun m v =>
  match decode W m v with
  | .error e => .error e
  | .ok (m', j) => if W.J.isJson c then mk c m' j else fromPlain W mk c m' j

/-- A member of a JSON array or object, where the item type is a record class (json.py:399-417, 472-489). -/
def recordMember (mk : Mk) (d : String) : Fn := fun m x =>
  if instOf W m x (.cls d) then .ok (m, x)
  else if W.J.isJson d then mk d m x
  else fromJsonWith W mk d m x

/-- The same, where the item type is another type with a `from_json` (json.py:399-407, 472-479). -/
def otherMember (n : Nat) (f : Fn) : Fn := fun m x => if W.isa n m x then .ok (m, x) else f m x

/-- A member of a JSON array or object (json.py:399-419, 472-491). -/
def memberIn (mk : Mk) (it : ItemTy) : Except Exc Fn :=
  match it with
  | .tup _ => .error .typeError
  | .one (.cls d) => .ok (recordMember W mk d)
  | .one (.other n) =>
    match W.typeFromJson n with
    | some f => .ok (otherMember W n f)
    | none => .ok (fun m x => .ok (m, x))

/-- `values` of `JsonRecordList.json_to_initkwargs` (json.py:381-420). -/
def listValues (mk : Mk) (it : ItemTy) (m : Mem) (j : Ref) : Except Exc (Mem × List Ref) :=
  match deref m j with
  | .list xs =>
    match memberIn W mk it with
    | .error e => .error e
    | .ok f => Mem.mapM f xs m
  | _ => .error .jsonCoerce

/-- `values` of `JsonRecordDict.json_to_initkwargs` (json.py:454-492). -/
def dictValues (mk : Mk) (it : ItemTy) (m : Mem) (j : Ref) : Except Exc (Mem × List (Comp × Ref)) :=
  match deref m j with
  | .dict xs =>
    match memberIn W mk it with
    | .error e => .error e
    | .ok f => mapValues f xs m
  | _ => .error .jsonCoerce

/-- `JsonRecordList(json_data)` (json.py:363-379). -/
def mkJsonList (mk : Mk) (c : String) (it : ItemTy) : Fn := fun m v =>
  match decode W m v with
  | .error e => .error e
  | .ok (m1, j) =>
    if j = .atom .none then made m1 (.lcoll c [])
    else
      match listValues W mk it m1 j with
      | .error e => .error e
      | .ok (m2, xs) => listOf W mk c it xs m2

/-- `JsonRecordDict(json_data)` (json.py:436-452). -/
def mkJsonDict (mk : Mk) (c : String) (it : ItemTy) : Fn := fun m v =>
  match decode W m v with
  | .error e => .error e
  | .ok (m1, j) =>
    if j = .atom .none then made m1 (.dcoll c [])
    else
      match dictValues W mk it m1 j with
      | .error e => .error e
      | .ok (m2, xs) => dictOf W mk c it xs m2

/-- Calling the class `c` with one positional argument. -/
def construct (mk : Mk) (c : String) : Fn :=
  match (W.J.S.cls c).coll with
  | none => if W.J.isJson c then mkJson W mk c else mkPlain W mk c
  | some (.list, it) => if W.J.isJson c then mkJsonList W mk c it else mkList W mk c it
  | some (.dict, it) => if W.J.isJson c then mkJsonDict W mk c it else mkDict W mk c it

/-- The same; the number stands for python's recursion limit. -/
def makes : Nat → Mk
  | 0, _ => fun _ _ => .error (.user 0)
  | n + 1, c => construct W (makes n) c

/-- `from_json(record_type, json_struct)` (json.py:137-159). -/
def fromJson (n : Nat) (c : String) : Fn := fromJsonWith W (makes W n) c

end Normalize.JsonInMem
