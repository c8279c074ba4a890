import Verif.Model.Json
import Verif.Model.Mem

/-!
# JSON output on a memory of objects

`/repo/normalize/record/json.py:162-264, 320-336` and `/repo/normalize/property/json.py:79-90` once more, this time
on a memory of mutable objects, so that one can ask what marshalling changes and what its result shares with the
record.  `Verif.Model.Json` models the same code on trees.

Simplifications, beside those of `Verif.Model.Json`: no property is a `V1Property`; an object nested more deeply than
the depth given makes python's recursion limit strike.
-/

namespace Normalize.JsonMem

open Normalize.Mem
open Ident (IProp)

/-- A function on objects: the objects afterwards, and its result or the exception raised. -/
abbrev Conv := Mem → Ref → Mem × Except Exc Ref

/-- The classes. -/
structure World where
  J : Json.Setup
  /-- `json_out=` of a property, given the value -/
  jout : String → String → Option Conv := fun _ _ => none
  /-- the `default` (and the type check of its value) of a lazy property, given the record
  (property/__init__.py:366-367) -/
  lazy : String → String → Option Conv := fun _ _ => none

/-- python's `RecursionError` -/
def recursion : Exc := .user 1000

/-- `list(f(x) for x in …)` (json.py:229, 255). -/
def outL (f : Conv) : List Ref → Mem → Mem × Except Exc (List Ref)
  | [], m => (m, .ok [])
  | x :: xs, m =>
    match f m x with
    | (m1, .error e) => (m1, .error e)
    | (m1, .ok y) =>
      match outL f xs m1 with
      | (m2, .error e) => (m2, .error e)
      | (m2, .ok ys) => (m2, .ok (y :: ys))

/-- `dict((k, f(v)) for k, v in …)` (json.py:225-227, 250-252). -/
def outC (f : Conv) : List (Comp × Ref) → Mem → Mem × Except Exc (List (Comp × Ref))
  | [], m => (m, .ok [])
  | (k, x) :: xs, m =>
    match f m x with
    | (m1, .error e) => (m1, .error e)
    | (m1, .ok y) =>
      match outC f xs m1 with
      | (m2, .error e) => (m2, .error e)
      | (m2, .ok ys) => (m2, .ok ((k, y) :: ys))

/-- `obj.__dict__.get(name)` -/
def slotOf : Obj → String → Option Ref
  | .rcd _ s, nm => alookup s nm
  | _, _ => none

/-- `obj.__dict__[name] = value` -/
def fill (m : Mem) (r : Ref) (nm : String) (x : Ref) : Mem :=
  match deref m r with
  | .rcd c s => store m r (.rcd c (aset s nm x))
  | _ => m

/-- `prop.slot_is_empty(record)` and, if it is not, `prop.__get__(record)` (json.py:236, 217;
property/__init__.py:280-290, 358-372). -/
def readProp (W : World) (c : String) (p : IProp) (m : Mem) (r : Ref) : Mem × Option (Except Exc Ref) :=
  match slotOf (deref m r) p.name with
  | some x => (m, some (.ok x))
  | none =>
    match W.lazy c p.name with
    | none => (m, none)
    | some f =>
      match f m r with
      | (m1, .error e) => (m1, some (.error e))
      | (m1, .ok x) => (fill m1 r p.name x, some (.ok x))

/-- The conversion of a property's value (json.py:218-221, property/json.py:79-90). -/
def convOf (W : World) (f : Conv) (c : String) (p : IProp) : Conv :=
  match W.jout c p.name with
  | some g => g
  | none => f

/-- `except AttributeError: pass` (json.py:242-243). -/
def swallow (rv : List (Comp × Ref)) (e : Exc) : Except Exc (List (Comp × Ref)) :=
  if e.isAttribute then .ok rv else .error e

/-- One round of the loop over the properties (json.py:233-243); `f` is `_json_data`. -/
def writeProp (W : World) (f : Conv) (e : Bool) (c : String) (r : Ref) (p : IProp) (m : Mem)
    (rv : List (Comp × Ref)) : Mem × Except Exc (List (Comp × Ref)) :=
  if !e && p.extraneous then (m, .ok rv)
  else
    match Json.jsonName W.J c p with
    | none => (m, .ok rv)
    | some nm =>
      match readProp W c p m r with
      | (m1, none) => (m1, .ok rv)
      | (m1, some (.error x)) => (m1, swallow rv x)
      | (m1, some (.ok v)) =>
        match convOf W f c p m1 v with
        | (m2, .error x) => (m2, swallow rv x)
        | (m2, .ok y) => (m2, .ok (aset rv (.str nm) y))

/-- The loop over the properties (json.py:232-244). -/
def writeProps (W : World) (f : Conv) (e : Bool) (c : String) (r : Ref) :
    List IProp → Mem → List (Comp × Ref) → Mem × Except Exc (List (Comp × Ref))
  | [], m, rv => (m, .ok rv)
  | p :: ps, m, rv =>
    match writeProp W f e c r p m rv with
    | (m1, .error x) => (m1, .error x)
    | (m1, .ok rv') => writeProps W f e c r ps m1 rv'

/-- The loop over `unknown_json_keys` (json.py:333-335); `f` is `to_json`. -/
def mergeUnknown (f : Conv) : List (Comp × Ref) → Mem → List (Comp × Ref) → Mem × Except Exc (List (Comp × Ref))
  | [], m, jd => (m, .ok jd)
  | (k, x) :: us, m, jd =>
    if (alookup jd k).isSome then mergeUnknown f us m jd
    else
      match f m x with
      | (m1, .error e) => (m1, .error e)
      | (m1, .ok y) => mergeUnknown f us m1 (aset jd k y)

/-- The second half of `JsonRecord.json_data` (json.py:330-336). -/
def addUnknown (W : World) (f : Conv) (e : Bool) (c : String) (r : Ref) (m : Mem) (jd : List (Comp × Ref)) :
    Mem × Except Exc (List (Comp × Ref)) :=
  match slotOf (deref m r) Json.unknownKeys with
  | none => (m, .ok jd)
  | some u =>
    if e || !Json.unknownExtraneous W.J c then
      match deref m u with
      | .dict us | .dcoll _ us => mergeUnknown f us m jd
      | _ => (m, .error .attributeError)
    else (m, .ok jd)

/-- A new list, unless there was an exception. -/
def newList : Mem × Except Exc (List Ref) → Mem × Except Exc Ref
  | (m, .error e) => (m, .error e)
  | (m, .ok ys) => ((alloc m (.list ys)).1, .ok (alloc m (.list ys)).2)

/-- A new dict, unless there was an exception. -/
def newDict : Mem × Except Exc (List (Comp × Ref)) → Mem × Except Exc Ref
  | (m, .error e) => (m, .error e)
  | (m, .ok ys) => ((alloc m (.dict ys)).1, .ok (alloc m (.dict ys)).2)

/-- `to_json` of an object without parts (json.py:246-247, 257-264). -/
def atomOut (W : World) (a : Atom) : Except Exc Ref :=
  match Json.atomJson W.J a with
  | .ok (.atom b) => .ok (.atom b)
  | .ok _ => .error .typeError
  | .error e => .error e

/-- The dict for a record: `record.json_data(extraneous)` of a `JsonRecord` (json.py:320-336) if `d`, else
`to_json(record, extraneous)` (json.py:231-244).  `data` and `plain` are these two for the parts. -/
def rcdOut (W : World) (data plain : Conv) (e d : Bool) (c : String) (r : Ref) (m : Mem) :
    Mem × Except Exc (List (Comp × Ref)) :=
  match writeProps W data e c r (W.J.S.cls c).props m [] with
  | (m1, .error x) => (m1, .error x)
  | (m1, .ok rv) => if d && W.J.isJson c then addUnknown W plain e c r m1 rv else (m1, .ok rv)

/-- `_json_data(x, extraneous)` (json.py:167-189) if `d`, else `to_json(x, extraneous)` (json.py:192-264), for
objects nested at most this deeply. -/
def out (W : World) (e : Bool) : Nat → Bool → Conv
  | 0, _, m, _ => (m, .error recursion)
  | n + 1, d, m, r =>
    match deref m r with
    | .atom a => (m, atomOut W a)
    | .list xs | .lcoll _ xs => newList (outL (out W e n true) xs m)
    | .dict xs | .dcoll _ xs => newDict (outC (out W e n true) xs m)
    | .rcd c _ => newDict (rcdOut W (out W e n true) (out W e n false) e d c r m)

end Normalize.JsonMem
