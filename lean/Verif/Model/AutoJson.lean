import Verif.Model.JsonKeys

/-!
# `AutoJsonRecord`

Models `/repo/normalize/record/json.py:519-624` (`AutoJsonRecord`, `NCAutoJsonRecord`), and what they use of
`json_to_initkwargs` (68-118), `to_json` (192-264), `JsonRecord.__init__` (292-295) and `coerce_value`
(coll.py:135-149), for any JSON document.

Simplifications: the declared properties of a subclass have no types or converters (`Verif.Model.Json` has them) and
are not extraneous; the two classes differ in the conversion of keys only, which is a parameter.
-/

namespace Normalize.AutoJson

/-- A JSON document, as `json.loads` gives it. -/
inductive Doc
  | null
  | bool (b : Bool)
  | int (i : Int)
  /-- a float -/
  | num (n : Nat)
  | str (s : String)
  | arr (xs : List Doc)
  | obj (es : List (String × Doc))

/-- What an `AutoJsonRecord` holds: documents as they are, records, and collections of records. -/
inductive Obj
  | plain (d : Doc)
  | auto (us : List (String × Obj))
  | coll (xs : List Obj)

/-- Exceptions: a list item that cannot be converted, a record given something that is no dict, one of `json.loads`,
those of attribute access, and being out of steps. -/
inductive AErr
  | itemCoerce
  | recordCoerce
  | badText
  | keyError
  | attributeError
  | typeError
  | diverge
  deriving DecidableEq, Repr

/-- What is left open. -/
structure Conv where
  /-- `convert_json_key_in`, `convert_json_key_out` (json.py:543-558, 607-614) -/
  keyIn : String → String
  keyOut : String → String
  /-- `json.loads` -/
  loads : String → Except AErr Doc
  /-- the order in which the set of unknown keys is gone through -/
  ord : List (String × Except AErr Obj) → List (String × Except AErr Obj)
  /-- names that the class has attributes for -/
  clsAttr : String → Bool

variable (C : Conv)

/-! ## Input -/

/-- The dict comprehension (json.py:567-571): entries with the same key after the conversion replace each other. -/
def collect : List (String × Except AErr Obj) → List (String × Obj) → Except AErr (List (String × Obj))
  | [], acc => .ok acc
  | (k, r) :: rest, acc =>
    match r with
    | .error e => .error e
    | .ok v => collect rest (aset acc (C.keyIn k) v)

/-- A record of the entries. -/
def record (rs : List (String × Except AErr Obj)) : Except AErr Obj :=
  match collect C (C.ord rs) [] with
  | .error e => .error e
  | .ok us => .ok (.auto us)

/-- The first is a dict? -/
def startsWithObj : List Doc → Bool
  | .obj _ :: _ => true
  | _ => false

mutual
/-- `auto_upgrade_any` (json.py:524-541).  `parse`: `AutoJsonRecord(text)`. -/
def upgrade (parse : String → Except AErr Obj) : Doc → Except AErr Obj
  | .obj es => record C (upEach parse es)
  | .arr xs =>
    if startsWithObj xs then
      match items parse xs with
      | .error e => .error e
      | .ok ys => .ok (.coll ys)
    else .ok (.plain (.arr xs))
  | .null => .ok (.plain .null)
  | .bool b => .ok (.plain (.bool b))
  | .int i => .ok (.plain (.int i))
  | .num n => .ok (.plain (.num n))
  | .str s => .ok (.plain (.str s))

/-- The values of the comprehension. -/
def upEach (parse : String → Except AErr Obj) : List (String × Doc) → List (String × Except AErr Obj)
  | [] => []
  | (k, d) :: rest => (k, upgrade parse d) :: upEach parse rest

/-- `list_of(AutoJsonRecord)(thing)`: each item is passed to the constructor (coll.py:135-149). -/
def items (parse : String → Except AErr Obj) : List Doc → Except AErr (List Obj)
  | [] => .ok []
  | d :: rest =>
    match item parse d with
    | .error _ => .error .itemCoerce
    | .ok v =>
      match items parse rest with
      | .error e => .error e
      | .ok vs => .ok (v :: vs)

/-- `AutoJsonRecord(thing)` (json.py:292-295): `None` is no document at all, and text is parsed. -/
def item (parse : String → Except AErr Obj) : Doc → Except AErr Obj
  | .obj es => record C (upEach parse es)
  | .null => .ok (.auto [])
  | .str s => parse s
  | .bool _ => .error .recordCoerce
  | .int _ => .error .recordCoerce
  | .num _ => .error .recordCoerce
  | .arr _ => .error .recordCoerce
end

/-- The second decoding, in `json_to_initkwargs` (json.py:304, 80-87). -/
def decodeAgain (mk : List (String × Doc) → Except AErr Obj) : Doc → Except AErr Obj
  | .obj es => mk es
  | .null => mk []
  | _ => .error .recordCoerce

/-- `AutoJsonRecord(text)` (json.py:121-134, 292-304); the number bounds how often there is text in text. -/
def parse : Nat → String → Except AErr Obj
  | 0, _ => .error .diverge
  | n + 1, s =>
    match C.loads s with
    | .error e => .error e
    | .ok (.str t) =>
      match C.loads t with
      | .error e => .error e
      | .ok d => decodeAgain (fun es => record C (upEach C (parse n) es)) d
    | .ok d => item C (parse n) d

/-- `AutoJsonRecord(thing)` -/
def read (n : Nat) (d : Doc) : Except AErr Obj := item C (parse C n) d

/-! ## A subclass with declared properties -/

/-- A record of a subclass: the declared properties and the other keys. -/
structure Rec where
  slots : List (String × Doc)
  unknown : List (String × Obj)

/-- The loop over the declared properties, each with its JSON name, if any (json.py:88-105): the arguments and the
keys that remain. -/
def takeProps : List (String × Option String) → List (String × Doc) → List (String × Doc) → List (String × Doc) →
    List (String × Doc) × List (String × Doc)
  | [], _, slots, rest => (slots, rest)
  | (p, none) :: ps, es, slots, rest => takeProps ps es slots rest
  | (p, some j) :: ps, es, slots, rest =>
    match alookup es j with
    | none => takeProps ps es slots rest
    | some d => takeProps ps es (aset slots p d) (aerase rest j)

/-- `Sub(doc)` for a JSON object (json.py:68-118, 561-572). -/
def readSub (n : Nat) (props : List (String × Option String)) (es : List (String × Doc)) : Except AErr Rec :=
  match collect C (C.ord (upEach C (parse C n) (takeProps props es [] es).2)) [] with
  | .error e => .error e
  | .ok us => .ok { slots := (takeProps props es [] es).1, unknown := us }

/-! ## Output -/

mutual
/-- `to_json` of a document (json.py:246-260). -/
def plainOut : Doc → Doc
  | .null => .null
  | .bool b => .bool b
  | .int i => if 2 ^ 50 < i.natAbs then .str (toString i) else .int i
  | .num n => .num n
  | .str s => .str s
  | .arr xs => .arr (plainOuts xs)
  | .obj es => .obj (plainOutEach es)

/-- Each item. -/
def plainOuts : List Doc → List Doc
  | [] => []
  | d :: rest => plainOut d :: plainOuts rest

/-- Each value. -/
def plainOutEach : List (String × Doc) → List (String × Doc)
  | [] => []
  | (k, d) :: rest => (k, plainOut d) :: plainOutEach rest
end

/-- The loop of `json_data` (json.py:579-582). -/
def addKeys : List (String × Doc) → List (String × Doc) → List (String × Doc)
  | [], jd => jd
  | (k, d) :: rest, jd =>
    if (alookup jd (C.keyOut k)).isSome then addKeys rest jd else addKeys rest (aset jd (C.keyOut k) d)

mutual
/-- `_json_data` (json.py:167-189): `json_data()` of a record (574-583), `to_json` of all else. -/
def jsonData : Obj → Doc
  | .plain d => plainOut d
  | .auto us => .obj (addKeys C (outEach us) [])
  | .coll xs => .arr (outItems xs)

/-- `to_json` (json.py:192-260).  Of a record, it gives the properties that have a JSON name, and there are none. -/
def toJson : Obj → Doc
  | .plain d => plainOut d
  | .auto _ => .obj []
  | .coll xs => .arr (outItems xs)

/-- The values that `json_data` adds. -/
def outEach : List (String × Obj) → List (String × Doc)
  | [] => []
  | (k, v) :: rest => (k, toJson v) :: outEach rest

/-- The items of a collection (json.py:224-230). -/
def outItems : List Obj → List Doc
  | [] => []
  | v :: rest => jsonData v :: outItems rest
end

/-- The declared properties that are set (json.py:232-244), without the converters. -/
def outSlots : List (String × Option String) → List (String × Doc) → List (String × Doc) → List (String × Doc)
  | [], _, jd => jd
  | (_, none) :: ps, slots, jd => outSlots ps slots jd
  | (p, some j) :: ps, slots, jd =>
    match alookup slots p with
    | none => outSlots ps slots jd
    | some d => outSlots ps slots (aset jd j (plainOut d))

/-- `json_data()` of a record of a subclass (json.py:574-583). -/
def recData (props : List (String × Option String)) (r : Rec) : Doc :=
  .obj (addKeys C (outEach C r.unknown) (outSlots props r.slots []))

/-! ## Attributes -/

/-- What an attribute read gives. -/
inductive Read
  | classAttr
  | doc (d : Doc)
  | val (v : Obj)

/-- `getattr(rec, attr)`: attributes of the class, then slots, then `__getattr__` (json.py:585-589). -/
def getAttr (props : List (String × Option String)) (r : Rec) (attr : String) : Except AErr Read :=
  if (alookup props attr).isSome then
    match alookup r.slots attr with
    | some d => .ok (.doc d)
    | none => .error .attributeError
  else if C.clsAttr attr then .ok .classAttr
  else
    match alookup r.unknown attr with
    | some v => .ok (.val v)
    | none => .error .keyError

/-- `setattr(rec, attr, value)` (json.py:591-595).  `safe`: does the property have a `__set__`?  It is called without
the value. -/
def setAttr (props : List (String × Option String)) (safe : String → Bool) (r : Rec) (attr : String) (_value : Obj) :
    Except AErr Unit × Rec :=
  if (alookup props attr).isSome then
    if safe attr then (.error .typeError, r) else (.error .attributeError, r)
  else
    match alookup r.unknown attr with
    | some _ => (.ok (), r)
    | none => (.error .keyError, r)

/-- `delattr(rec, attr)`: python calls `__delattr__` with one argument, and it takes two (json.py:597-601). -/
def delAttr (r : Rec) (_attr : String) : Except AErr Unit × Rec := (.error .typeError, r)

/-! ## Going down -/

/-- One step down: a key of a JSON object, or an index of a list. -/
inductive Step
  | key (k : String)
  | idx (i : Nat)
  deriving DecidableEq, Repr

/-- A step down in a document. -/
def stepDoc : Doc → Step → Option Doc
  | .obj es, .key k => alookup es k
  | .arr xs, .idx i => xs[i]?
  | _, _ => none

/-- A step down in an object: attributes of records, `[...]` for all else. -/
def stepObj : Obj → Step → Option Obj
  | .plain d, s => (stepDoc d s).map .plain
  | .auto us, .key k => if C.clsAttr (C.keyIn k) then none else alookup us (C.keyIn k)
  | .coll xs, .idx i => xs[i]?
  | _, _ => none

end Normalize.AutoJson
