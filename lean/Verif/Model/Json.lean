import Verif.Model.Identity

/-!
# JSON output and input

Models `/repo/normalize/record/json.py:40-264, 267-356, 359-501` (`to_json`, `from_json`, `JsonRecord`,
`JsonRecordList`, `JsonRecordDict`), `/repo/normalize/property/json.py:34-95` (`JsonProperty`), and what they use
of `record/__init__.py:32-67`, `property/__init__.py:202-275` and `coll.py:88-185, 203-340` to build objects.

Simplifications: JSON documents are the object trees of `Verif.Model.Val`; tuples and sets are lists; collections
have no properties besides their members; collections' `coerceitem` is their `itemtype`; `default`s are values;
the missing properties are initialised in the order of declaration; a `SubtypeCoerceError` is an exception like any
other; the caches of `_json_data` (json.py:162-189) are left out, since what they hold is determined by the type.
-/

namespace Normalize.Json
open Ident (IProp Schema Ty ItemTy CollKind readAttr)

/-- The options of a `JsonProperty` (property/json.py:34-67). -/
structure JOpts where
  /-- `_json_name`: `none` for the default, `some none` for `None` -/
  jsonName : Option (Option String) := none
  jin : Option (Val → Except Exc Val) := none
  jout : Option (Val → Except Exc Val) := none

/-- What `to_json` does with a property whose slot is empty: nothing; or, if `slot_is_empty` says it is not empty
(a lazy property, property/__init__.py:371-372, or an upgraded `V1Property`, 453-455), give the converted value; or
raise (other `V1Property`s, 456). -/
inductive Empty
  | skip
  | gives (j : Except Exc Val)
  | raises (e : Exc)

/-- What a property has besides the attributes in `IProp` (property/__init__.py:54-160). -/
structure JInfo where
  /-- `isinstance(prop, JsonProperty)`, and its options -/
  json : Option JOpts := none
  /-- `coerce=`, if given -/
  coerce : Option (Val → Except Exc Val) := none
  check : Option (Val → Except Exc Bool) := none
  required : Bool := false
  lazy : Bool := false
  default : Option Val := none
  empty : Empty := .skip

/-- The declared classes. -/
structure Setup where
  S : Schema
  /-- the property with this name of the class -/
  info : String → String → JInfo := fun _ _ => {}
  /-- the sub-classes of `JsonRecord` -/
  isJson : String → Bool
  /-- `issubclass` of two different record classes -/
  sub : String → String → Bool := fun _ _ => false
  /-- `isinstance` for the types that are no record classes -/
  isa : Nat → Val → Bool
  /-- calling those types -/
  make : Nat → Val → Except Exc Val
  /-- their `from_json`, if they have it -/
  typeFromJson : Nat → Option (Val → Except Exc Val) := fun _ => none
  /-- `json.loads` -/
  loads : String → Except Exc Val
  /-- objects without parts that are floats or decimals -/
  isNumber : Nat → Bool := fun _ => false

variable (J : Setup)

/-! ## Output -/

/-- `json_name` of a property; `some p.name` if it is no `JsonProperty` (property/json.py:73-77, json.py:238-239). -/
def jsonName (c : String) (p : IProp) : Option String :=
  match (J.info c p.name).json with
  | none => some p.name
  | some o =>
    match o.jsonName with
    | none => some p.name
    | some n => n

/-- `to_json` of an object without parts (json.py:246-247, 257-264). -/
def atomJson : Atom → Except Exc Val
  | .int i => if 2 ^ 50 < i.natAbs then .ok (.str (toString i)) else .ok (.int i)
  | .opq t => if J.isNumber t then .ok (.atom (.opq t)) else .error .typeError
  | a => .ok (.atom a)

/-- A slot on the way out: its value, what `_json_data` makes of it, and what `to_json` makes of the entries it
has (`.items()`). -/
structure Out where
  val : Val
  data : Except Exc Val
  entries : Except Exc (List (Comp × Except Exc Val))

/-- `to_json(record, extraneous, prop)` for a slot that is set (json.py:214-221, property/json.py:79-90). -/
def propOut (c : String) (p : IProp) (o : Out) : Except Exc Val :=
  match (J.info c p.name).json.bind (·.jout) with
  | some f => f o.val
  | none => o.data

/-- The value to be written for a property, if any (json.py:234-243, but for the name). -/
def slotOut (c : String) (s : List (String × Out)) (p : IProp) : Option (Except Exc Val) :=
  match alookup s p.name with
  | some o => some (propOut J c p o)
  | none =>
    match (J.info c p.name).empty with
    | .skip => none
    | .gives j => some j
    | .raises e => some (.error e)

/-- Does an empty slot of this property make `slot_is_empty` raise? -/
def slotRaises (c : String) (s : List (String × Out)) (p : IProp) : Option Exc :=
  match alookup s p.name, (J.info c p.name).empty with
  | none, .raises e => some e
  | _, _ => none

/-- `rv_dict[json_name] = to_json(record, extraneous, prop)`, where an `AttributeError` is ignored
(json.py:240-243). -/
def writeKey (rv : List (Comp × Val)) (nm : String) : Option (Except Exc Val) → Except Exc (List (Comp × Val))
  | none => .ok rv
  | some (.ok j) => .ok (aset rv (.str nm) j)
  | some (.error e) => if e.isAttribute then .ok rv else .error e

/-- One round of the loop over the properties (json.py:233-243). -/
def writeProp (e : Bool) (c : String) (s : List (String × Out)) (rv : List (Comp × Val)) (p : IProp) :
    Except Exc (List (Comp × Val)) :=
  if !e && p.extraneous then .ok rv
  else
    match slotRaises J c s p with
    | some x => .error x
    | none =>
      match jsonName J c p with
      | none => .ok rv
      | some nm => writeKey rv nm (slotOut J c s p)

/-- The loop over the properties (json.py:233-244). -/
def writeProps (e : Bool) (c : String) (s : List (String × Out)) :
    List IProp → List (Comp × Val) → Except Exc (List (Comp × Val))
  | [], rv => .ok rv
  | p :: ps, rv =>
    match writeProp J e c s rv p with
    | .error x => .error x
    | .ok rv' => writeProps e c s ps rv'

/-- The loop over `unknown_json_keys` (json.py:333-335). -/
def mergeUnknown : List (Comp × Except Exc Val) → List (Comp × Val) → Except Exc (List (Comp × Val))
  | [], jd => .ok jd
  | (k, r) :: us, jd =>
    if (alookup jd k).isSome then mergeUnknown us jd
    else
      match r with
      | .error x => .error x
      | .ok j => mergeUnknown us (aset jd k j)

/-- The name of the property that holds the keys no property claims (json.py:280). -/
def unknownKeys : String := "unknown_json_keys"

/-- `properties['unknown_json_keys'].extraneous` (json.py:331-332). -/
def unknownExtraneous (c : String) : Bool :=
  match (J.S.cls c).props.find? (fun p => p.name = unknownKeys) with
  | some p => p.extraneous
  | none => true

/-- `to_json` of a record (json.py:231-244). -/
def recordOut (e : Bool) (c : String) (s : List (String × Out)) : Except Exc (List (Comp × Val)) :=
  writeProps J e c s (J.S.cls c).props []

/-- The second half of `JsonRecord.json_data` (json.py:330-336). -/
def addUnknown (e : Bool) (c : String) (s : List (String × Out)) (jd : List (Comp × Val)) :
    Except Exc (List (Comp × Val)) :=
  match alookup s unknownKeys with
  | none => .ok jd
  | some o =>
    if e || !unknownExtraneous J c then
      match o.entries with
      | .error x => .error x
      | .ok us => mergeUnknown us jd
    else .ok jd

/-- `JsonRecord.json_data` (json.py:320-336) and `to_json` of other records. -/
def dataOut (e : Bool) (c : String) (s : List (String × Out)) : Except Exc (List (Comp × Val)) :=
  match recordOut J e c s with
  | .error x => .error x
  | .ok jd => if J.isJson c then addUnknown J e c s jd else .ok jd

mutual
/-- `to_json(record, extraneous)` (json.py:192-264). -/
def toJson (e : Bool) : Val → Except Exc Val
  | .atom a => atomJson J a
  | .list xs | .lcoll _ xs => (dataL e xs).map Val.list
  | .dict xs | .dcoll _ xs => (dataC e xs).map Val.dict
  | .rcd c s => (recordOut J e c (outs e s)).map Val.dict
/-- `_json_data(x, extraneous)` (json.py:167-189): collections' `json_data` is `to_json` (json.py:422-425,
494-497). -/
def jsonData (e : Bool) : Val → Except Exc Val
  | .atom a => atomJson J a
  | .list xs | .lcoll _ xs => (dataL e xs).map Val.list
  | .dict xs | .dcoll _ xs => (dataC e xs).map Val.dict
  | .rcd c s => (dataOut J e c (outs e s)).map Val.dict
/-- `list(_json_data(x, extraneous) for x in …)` (json.py:229, 255). -/
def dataL (e : Bool) : List Val → Except Exc (List Val)
  | [] => .ok []
  | x :: xs =>
    match jsonData e x with
    | .error er => .error er
    | .ok j =>
      match dataL e xs with
      | .error er => .error er
      | .ok js => .ok (j :: js)
/-- `dict((k, _json_data(v, extraneous)) for k, v in …)` (json.py:224-227, 250-252). -/
def dataC (e : Bool) : List (Comp × Val) → Except Exc (List (Comp × Val))
  | [] => .ok []
  | (k, x) :: xs =>
    match jsonData e x with
    | .error er => .error er
    | .ok j =>
      match dataC e xs with
      | .error er => .error er
      | .ok js => .ok ((k, j) :: js)
/-- The slots of a record, on the way out. -/
def outs (e : Bool) : List (String × Val) → List (String × Out)
  | [] => []
  | (k, x) :: s => (k, { val := x, data := jsonData e x, entries := entriesOf e x }) :: outs e s
/-- `to_json(v, extraneous)` of the entries of a dict (json.py:333-335). -/
def entriesOf (e : Bool) : Val → Except Exc (List (Comp × Except Exc Val))
  | .dict xs | .dcoll _ xs => .ok (eachEntry e xs)
  | _ => .error .attributeError
/-- `to_json(v, extraneous)` of each entry. -/
def eachEntry (e : Bool) : List (Comp × Val) → List (Comp × Except Exc Val)
  | [] => []
  | (k, x) :: xs => (k, toJson e x) :: eachEntry e xs
end

/-! ## Input -/

/-- An exception on the way in: any exception, or a `JsonConversionError` with its `error_fs` and `sub_exception`
(exc.py:402-406). -/
inductive JErr
  | raw (e : Exc)
  | boxed (fs : FS) (e : Exc)
  deriving DecidableEq

/-- `_box_ingress_error` (json.py:52-61). -/
def box (k : Comp) : JErr → JErr
  | .raw e => .boxed [k] e
  | .boxed fs e => .boxed (k :: fs) e

/-- An exception of user code. -/
def lift {α : Type} : Except Exc α → Except JErr α
  | .ok a => .ok a
  | .error e => .error (.raw e)

/-- Add the context to an exception. -/
def boxing {α : Type} (k : Comp) : Except JErr α → Except JErr α
  | .ok a => .ok a
  | .error e => .error (box k e)

/-- Calling a record class with one positional argument. -/
abbrev Mk := String → Val → Except JErr Val

/-- The class of a record or collection. -/
def clsOf : Val → Option String
  | .rcd c _ | .lcoll c _ | .dcoll c _ => some c
  | _ => none

/-- `isinstance(v, t)` -/
def instOf (t : Ty) (v : Val) : Bool :=
  match t with
  | .cls c =>
    match clsOf v with
    | some d => decide (d = c) || J.sub d c
    | none => false
  | .other n => J.isa n v

/-- `t(v)` -/
def callTy (mk : Mk) (t : Ty) (v : Val) : Except JErr Val :=
  match t with
  | .cls c => mk c v
  | .other n => lift (J.make n v)

/-- `self.coerce(value)` where `coerce` is the `coerce=` function or the type (property/__init__.py:152-153,
206-207); a tuple of types is not callable. -/
def coerceVal (mk : Mk) (i : JInfo) (types : List Ty) (v : Val) : Except JErr Val :=
  match i.coerce with
  | some f => lift (f v)
  | none =>
    match types with
    | [t] => callTy J mk t v
    | _ => .error (.raw .typeError)

/-- The check at the end of `type_safe_value` (property/__init__.py:241-246). -/
def runCheck (i : JInfo) (v : Val) : Except JErr (Option Val) :=
  match i.check with
  | none => .ok (some v)
  | some f =>
    match f v with
    | .error e => .error (.raw e)
    | .ok true => .ok (some v)
    | .ok false => .error (.raw .valueCheck)

/-- `type_safe_value(value, _none_ok=True)` (property/__init__.py:202-246); `none` for the `_none` marker. -/
def typeSafe (mk : Mk) (i : JInfo) (types : List Ty) (v : Val) : Except JErr (Option Val) :=
  if v = .none ∧ i.required = true ∧ types = [] then .error (.raw .propertyRequired)
  else if !types.isEmpty && !types.any (fun t => instOf J t v) then
    match coerceVal J mk i types v with
    | .error _ => .error (.raw .coerceError)
    | .ok w =>
      if types.any (fun t => instOf J t w) then runCheck i w
      else if w = .none ∧ i.required = false then .ok none
      else .error (.raw .valueCoercion)
  else runCheck i v

/-- `init_prop(obj, value)` (property/__init__.py:259-272): the new instance dict. -/
def initProp (mk : Mk) (c : String) (p : IProp) (v : Val) (s : List (String × Val)) :
    Except JErr (List (String × Val)) :=
  match typeSafe J mk (J.info c p.name) p.types v with
  | .error e => .error e
  | .ok (some w) => .ok (aset s p.name w)
  | .ok none => if (J.info c p.name).required then .error (.raw .propertyRequired) else .ok s

/-- The property with this name. -/
def findProp (c nm : String) : Option IProp := (J.S.cls c).props.find? (fun p => p.name = nm)

/-- The loop over the arguments (record/__init__.py:52-60). -/
def initArgs (mk : Mk) (c : String) : List (String × Val) → List (String × Val) → Except JErr (List (String × Val))
  | [], s => .ok s
  | (k, v) :: kw, s =>
    match findProp J c k with
    | none => .error (.raw .propertyNotKnown)
    | some p =>
      match initProp J mk c p v s with
      | .error e => .error e
      | .ok s' => initArgs mk c kw s'

/-- `eager_init` (property/__init__.py:274-275, 352-353). -/
def eager (c : String) (p : IProp) : Bool :=
  !(J.info c p.name).lazy && ((J.info c p.name).required || (J.info c p.name).default.isSome)

/-- `init_prop(obj)` (property/__init__.py:259-272). -/
def initDefault (mk : Mk) (c : String) (p : IProp) (s : List (String × Val)) : Except JErr (List (String × Val)) :=
  match (J.info c p.name).default with
  | none => if (J.info c p.name).required then .error (.raw .propertyRequired) else .ok s
  | some v => initProp J mk c p v s

/-- The loop over the missing properties (record/__init__.py:61-65). -/
def initMissing (mk : Mk) (c : String) : List IProp → List (String × Val) → Except JErr (List (String × Val))
  | [], s => .ok s
  | p :: ps, s =>
    match initDefault J mk c p s with
    | .error e => .error e
    | .ok s' => initMissing mk c ps s'

/-- `Record.__init__` with keyword arguments (record/__init__.py:32-67). -/
def initRecord (mk : Mk) (c : String) (kw : List (String × Val)) : Except JErr Val :=
  match initArgs J mk c kw [] with
  | .error e => .error e
  | .ok s =>
    match initMissing J mk c
        ((J.S.cls c).props.filter (fun p => eager J c p && (alookup kw p.name).isNone)) s with
    | .error e => .error e
    | .ok s' => .ok (.rcd c s')

/-- `_json_to_value_initializer` (json.py:40-49).  `isinstance(proptype, JsonRecord)` and
`isinstance(proptype, Record)` are false, `proptype` being a class. -/
def valueInit (mk : Mk) (types : List Ty) (v : Val) : Except JErr Val :=
  match types with
  | [.cls d] => if J.isJson d then mk d v else .ok v
  | [.other n] =>
    match J.typeFromJson n with
    | some f => lift (f v)
    | none => .ok v
  | _ => .ok v

/-- `prop.from_json(json)` (property/json.py:92-95). -/
def propIn (i : JInfo) (v : Val) : Except JErr Val :=
  match i.json.bind (·.jin) with
  | some f => lift (f v)
  | none => .ok v

/-- The value for a property from the JSON value (json.py:93-101, 107-113). -/
def convertIn (mk : Mk) (c : String) (p : IProp) (k : String) (j : Val) : Except JErr Val :=
  boxing (.str k)
    (match propIn (J.info c p.name) j with
     | .error e => .error e
     | .ok v => valueInit J mk p.types v)

/-- `unknown_keys.remove(name)` (json.py:102, 105). -/
def removeKey (us : List Comp) (k : Comp) : Except JErr (List Comp) :=
  if k ∈ us then .ok (us.erase k) else .error (.raw .keyError)

/-- The keyword arguments and `unknown_keys`. -/
structure Kw where
  args : List (String × Val)
  unknown : List Comp

/-- `if propname not in kwargs: …` (json.py:92-101, 106-113) -/
def takeArg (mk : Mk) (c : String) (p : IProp) (k : String) (j : Val) (args : List (String × Val)) :
    Except JErr (List (String × Val)) :=
  if (alookup args p.name).isSome then .ok args
  else
    match convertIn J mk c p k j with
    | .error e => .error e
    | .ok v => .ok (args ++ [(p.name, v)])

/-- One round of the loop over the properties (json.py:86-113).  For a `JsonProperty` the value is converted before
the key is removed; otherwise after. -/
def kwProp (mk : Mk) (c : String) (js : List (Comp × Val)) (p : IProp) (w : Kw) : Except JErr Kw :=
  match jsonName J c p with
  | none => .ok w
  | some k =>
    match alookup js (.str k) with
    | none => .ok w
    | some j =>
      if (J.info c p.name).json.isSome then
        match takeArg J mk c p k j w.args with
        | .error e => .error e
        | .ok args =>
          match removeKey w.unknown (.str k) with
          | .error e => .error e
          | .ok us => .ok ⟨args, us⟩
      else
        match removeKey w.unknown (.str k) with
        | .error e => .error e
        | .ok us =>
          match takeArg J mk c p k j w.args with
          | .error e => .error e
          | .ok args => .ok ⟨args, us⟩

/-- The loop over the properties (json.py:86-113). -/
def kwProps (mk : Mk) (c : String) (js : List (Comp × Val)) : List IProp → Kw → Except JErr Kw
  | [], w => .ok w
  | p :: ps, w =>
    match kwProp J mk c js p w with
    | .error e => .error e
    | .ok w' => kwProps mk c js ps w'

/-- `kwargs["unknown_json_keys"] = …` (json.py:114-118). -/
def withUnknown (js : List (Comp × Val)) (w : Kw) : List (String × Val) :=
  if w.unknown.isEmpty then w.args
  else aset w.args unknownKeys (.dict (js.filter (fun e => decide (e.1 ∈ w.unknown))))

/-- The dict that a JSON value stands for (json.py:78-84). -/
def structOf : Val → Except JErr (List (Comp × Val))
  | .atom .none => .ok []
  | .dict xs => .ok xs
  | _ => .error (.raw .jsonCoerce)

/-- `json_to_initkwargs` (json.py:64-118). -/
def initKwargs (mk : Mk) (c : String) (j : Val) (kw : List (String × Val)) : Except JErr (List (String × Val)) :=
  match structOf j with
  | .error e => .error e
  | .ok js =>
    match kwProps J mk c js (J.S.cls c).props ⟨kw, js.map (·.1)⟩ with
    | .error e => .error e
    | .ok w => .ok (withUnknown js w)

/-- `_decode_and_parse_json` (json.py:121-134); bytes are left out. -/
def decode : Val → Except JErr Val
  | .atom (.str s) => lift (J.loads s)
  | v => .ok v

/-- `JsonRecord.__init__(json_data)` (json.py:282-304), where `json_to_initkwargs` decodes once more
(json.py:310). -/
def mkJson (mk : Mk) (c : String) (v : Val) : Except JErr Val :=
  match decode J v with
  | .error e => .error e
  | .ok (.atom .none) => initRecord J mk c []
  | .ok j =>
    match decode J j with
    | .error e => .error e
    | .ok j' =>
      match initKwargs J mk c j' [] with
      | .error e => .error e
      | .ok kw => initRecord J mk c kw

/-- `not v` -/
def falsy : Val → Bool
  | .atom a => J.S.falsy a
  | .list xs | .lcoll _ xs => xs.isEmpty
  | .dict xs | .dcoll _ xs => xs.isEmpty
  | .rcd _ _ => false

/-- The entries of a mapping as keyword arguments; only strings name properties. -/
def namedArgs : List (Comp × Val) → Except JErr (List (String × Val))
  | [] => .ok []
  | (.str k, v) :: xs =>
    match namedArgs xs with
    | .error e => .error e
    | .ok r => .ok ((k, v) :: r)
  | _ :: _ => .error (.raw .propertyNotKnown)

/-- `Record.__init__(init_dict)` (record/__init__.py:32-67). -/
def mkPlain (mk : Mk) (c : String) (v : Val) : Except JErr Val :=
  if falsy J v then initRecord J mk c []
  else
    match v with
    | .dict xs | .dcoll _ xs =>
      match namedArgs xs with
      | .error e => .error e
      | .ok kw => initRecord J mk c kw
    | _ => .error (.raw .attributeError)

/-- `isinstance(v, itemtype)` -/
def isItem (it : ItemTy) (v : Val) : Bool :=
  match it with
  | .one t => instOf J t v
  | .tup ts => ts.any (fun t => instOf J t v)

/-- `coerce_value` (coll.py:135-149).  With several item types, creating the `CollectionItemCoerceError` fails with
`AttributeError`: the message asks for the `__name__` of the tuple (exc.py:166-170). -/
def coerceItem (mk : Mk) (it : ItemTy) (v : Val) : Except JErr Val :=
  if isItem J it v then .ok v
  else
    match it with
    | .tup _ => .error (.raw .attributeError)
    | .one t =>
      match callTy J mk t v with
      | .ok w => .ok w
      | .error _ => .error (.raw .collectionItemCoerce)

/-- A dict key as a value. -/
def keyVal : Comp → Val
  | .str s => .str s
  | .int i => .int i
  | .none => .none

/-- `ListCollection.coll_to_tuples` (coll.py:317-340), without the indices.  Simplification: the keys of a mapping
that cannot be sorted are a `TypeError` only if they are of different sorts. -/
def listItems : Val → Except JErr (List Val)
  | .atom (.str _) => .error (.raw .collectionCoerce)
  | .dict xs =>
    if xs.all (fun x => xs.all (fun y => Ident.Comp.sameSort x.1 y.1)) then
      .ok ((xs.insertionSort (fun x y => Ident.Comp.le x.1 y.1)).map (·.2))
    else .error (.raw .typeError)
  | .list xs | .lcoll _ xs => .ok xs
  | .dcoll _ xs => .ok (xs.map (fun x => keyVal x.1))
  | .atom a => if J.S.falsy a then .ok [] else .error (.raw .collectionCoerce)
  | .rcd _ _ => .error (.raw .collectionCoerce)

/-- `DictCollection.coll_to_tuples` (coll.py:219-243). -/
def dictItems : Val → Except JErr (List (Comp × Val))
  | .atom (.str _) => .error (.raw .collectionCoerce)
  | .dict xs => .ok xs
  | .list xs => .ok (Ident.enum xs)
  | _ => .ok []

/-- The coercion of an entry (coll.py:151-159). -/
def coerceEntry (mk : Mk) (it : ItemTy) (kv : Comp × Val) : Except JErr (Comp × Val) :=
  match coerceItem J mk it kv.2 with
  | .error e => .error e
  | .ok w => .ok (kv.1, w)

/-- `ListCollection(values)` (coll.py:88-106, 310-315). -/
def mkList (mk : Mk) (c : String) (it : ItemTy) (v : Val) : Except JErr Val :=
  match listItems J v with
  | .error e => .error e
  | .ok xs =>
    match mapE (coerceItem J mk it) xs with
    | .error e => .error e
    | .ok ys => .ok (.lcoll c ys)

/-- `DictCollection(values)` (coll.py:88-106, 212-217). -/
def mkDict (mk : Mk) (c : String) (it : ItemTy) (v : Val) : Except JErr Val :=
  match dictItems v with
  | .error e => .error e
  | .ok xs =>
    match mapE (coerceEntry J mk it) xs with
    | .error e => .error e
    | .ok ys => .ok (.dcoll c ys)

/-- `from_json` of a record class that is no `JsonRecord` (json.py:153-157); collections take no keyword
arguments besides `values`. -/
def fromPlain (mk : Mk) (c : String) (j : Val) : Except JErr Val :=
  match initKwargs J mk c j [] with
  | .error e => .error e
  | .ok kw =>
    match (J.S.cls c).coll with
    | none => initRecord J mk c kw
    | some (.list, _) => if kw.isEmpty then .ok (.lcoll c []) else .error (.raw .propertyNotKnown)
    | some (.dict, _) => if kw.isEmpty then .ok (.dcoll c []) else .error (.raw .propertyNotKnown)

/-- `from_json(record_type, json_struct)` (json.py:137-159). -/
def fromJsonWith (mk : Mk) (c : String) (v : Val) : Except JErr Val :=
  match decode J v with
  | .error e => .error e
  | .ok j => if J.isJson c then mk c j else fromPlain J mk c j

/-- A member of a JSON array or object (json.py:399-419, 472-491); `none` if the members are left alone. -/
def memberIn (mk : Mk) (it : ItemTy) : Except JErr (Option (Val → Except JErr Val)) :=
  match it with
  | .tup _ => .error (.raw .typeError)
  | .one (.cls d) =>
    .ok (some (fun x => if instOf J (.cls d) x then .ok x
      else if J.isJson d then mk d x else fromJsonWith J mk d x))
  | .one (.other n) =>
    match J.typeFromJson n with
    | some f => .ok (some (fun x => if instOf J (.other n) x then .ok x else lift (f x)))
    | none => .ok none

/-- A member with its key as context. -/
def memberEntry (f : Val → Except JErr Val) (kv : Comp × Val) : Except JErr (Comp × Val) :=
  match boxing kv.1 (f kv.2) with
  | .error e => .error e
  | .ok w => .ok (kv.1, w)

/-- `values` of `JsonRecordList.json_to_initkwargs` (json.py:381-420). -/
def listValues (mk : Mk) (it : ItemTy) (j : Val) : Except JErr (List Val) :=
  match j with
  | .list xs =>
    match memberIn J mk it with
    | .error e => .error e
    | .ok none => .ok xs
    | .ok (some f) =>
      match mapE (memberEntry f) (Ident.enum xs) with
      | .error e => .error e
      | .ok ys => .ok (ys.map (·.2))
  | _ => .error (.raw .jsonCoerce)

/-- `values` of `JsonRecordDict.json_to_initkwargs` (json.py:454-492). -/
def dictValues (mk : Mk) (it : ItemTy) (j : Val) : Except JErr (List (Comp × Val)) :=
  match j with
  | .dict xs =>
    match memberIn J mk it with
    | .error e => .error e
    | .ok none => .ok xs
    | .ok (some f) => mapE (memberEntry f) xs
  | _ => .error (.raw .jsonCoerce)

/-- `JsonRecordList(json_data)` (json.py:363-379). -/
def mkJsonList (mk : Mk) (c : String) (it : ItemTy) (v : Val) : Except JErr Val :=
  match decode J v with
  | .error e => .error e
  | .ok (.atom .none) => .ok (.lcoll c [])
  | .ok j =>
    match listValues J mk it j with
    | .error e => .error e
    | .ok xs => mkList J mk c it (.list xs)

/-- `JsonRecordDict(json_data)` (json.py:436-452). -/
def mkJsonDict (mk : Mk) (c : String) (it : ItemTy) (v : Val) : Except JErr Val :=
  match decode J v with
  | .error e => .error e
  | .ok (.atom .none) => .ok (.dcoll c [])
  | .ok j =>
    match dictValues J mk it j with
    | .error e => .error e
    | .ok xs => mkDict J mk c it (.dict xs)

/-- Calling the class `c` with one positional argument. -/
def construct (mk : Mk) (c : String) (v : Val) : Except JErr Val :=
  match (J.S.cls c).coll with
  | none => if J.isJson c then mkJson J mk c v else mkPlain J mk c v
  | some (.list, it) => if J.isJson c then mkJsonList J mk c it v else mkList J mk c it v
  | some (.dict, it) => if J.isJson c then mkJsonDict J mk c it v else mkDict J mk c it v

/-- The same; the number stands for python's recursion limit. -/
def make : Nat → Mk
  | 0 => fun _ _ => .error (.raw (.user 0))
  | n + 1 => construct J (make n)

/-- `from_json(record_type, json_struct)` (json.py:137-159). -/
def fromJson (n : Nat) (c : String) (v : Val) : Except JErr Val := fromJsonWith J (make J n) c v

end Normalize.Json
