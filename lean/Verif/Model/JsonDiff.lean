import Verif.Model.Diff
import Verif.Model.Json

/-!
# Differences in JSON form

Models `DiffTypes` and `_coerce_diff` (`/repo/normalize/diff.py:39-60`), the declarations of `DiffInfo`
(diff.py:63-88), `JsonDiffInfo`, `JsonDiff` and `JsonRecord.diff_iter` (`/repo/normalize/record/json.py:338-357, 504-516`).
They are classes for the general model of JSON input in `Verif.Model.Json`; nothing of the input is modelled anew.

A `FieldSelector` object is written `rcd "FieldSelector" [("selectors", …)]` here, a `DiffTypes` value as the opaque
object that has its number.  Simplification: the two properties of `Diff` that hold names of types are left out; they
are `extraneous` and are not part of the JSON form.
-/

namespace Normalize.Json
open Ident (IProp Schema Ty ItemTy CollKind ICls)
open Diff (DType DInfo)

/-- All the values of `DiffTypes` (diff.py:47-51). -/
def dtypes : List DType := [.noChange, .added, .removed, .modified, .moved]

/-- `canonical_name` (diff.py:47-51). -/
def dtName : DType → String
  | .noChange => "none"
  | .added => "added"
  | .removed => "removed"
  | .modified => "modified"
  | .moved => "moved"

/-- `index` (diff.py:47-51). -/
def dtIndex : DType → Nat
  | .noChange => 1
  | .added => 2
  | .removed => 3
  | .modified => 4
  | .moved => 5

/-- A `DiffTypes` value as an object. -/
def dtVal (t : DType) : Val := .atom (.opq (dtIndex t))

/-- `isinstance(v, DiffTypes.EnumValue)` -/
def isDt : Val → Bool
  | .atom (.opq n) => dtypes.any (fun t => dtIndex t = n)
  | _ => false

/-- `DiffTypes.from_index`; an unknown one is an `EnumLookupError` -/
def fromIndex (i : Int) : Except Exc Val :=
  match dtypes.find? (fun t => (dtIndex t : Int) = i) with
  | some t => .ok (dtVal t)
  | none => .error .keyError

/-- `DiffTypes.from_canonical`; the same -/
def fromCanonical (v : Val) : Except Exc Val :=
  match dtypes.find? (fun t => Val.str (dtName t) = v) with
  | some t => .ok (dtVal t)
  | none => .error .keyError

/-- `_coerce_diff` (diff.py:54-60). -/
def coerceDiff (v : Val) : Except Exc Val :=
  if isDt v then .ok v
  else
    match v with
    | .atom (.int i) => fromIndex i
    | .atom (.bool b) => fromIndex (if b then 1 else 0)
    | _ => fromCanonical v

/-- A component of a selector as an object. -/
def compVal : Comp → Val
  | .str s => .str s
  | .int i => .int i
  | .none => .none

/-- A `FieldSelector` object. -/
def fsObj (sel : List Val) : Val := .rcd "FieldSelector" [("selectors", .list sel)]

/-- `isinstance(v, FieldSelector)` -/
def isFs : Val → Bool
  | .rcd c _ => decide (c = "FieldSelector")
  | _ => false

/-- `not v` for the objects that occur in JSON. -/
def untrue : Val → Bool
  | .atom .none => true
  | .atom (.bool b) => !b
  | .atom (.int i) => decide (i = 0)
  | .atom (.str s) => decide (s = "")
  | .atom (.opq _) => false
  | .list xs | .lcoll _ xs => xs.isEmpty
  | .dict xs | .dcoll _ xs => xs.isEmpty
  | .rcd _ _ => false

/-- `isinstance(e, str) or isinstance(e, int) or e is None` (selector.py:75). -/
def isCompVal : Val → Bool
  | .atom .none | .atom (.bool _) | .atom (.int _) | .atom (.str _) => true
  | _ => false

/-- The elements of `expr` (selector.py:67-70). -/
def fsItems : Val → Except Exc (List Val)
  | .rcd c s => if c = "FieldSelector" then
      match alookup s "selectors" with
      | some (.list xs) => .ok xs
      | _ => .error .attributeError
    else .error .typeError
  | .list xs | .lcoll _ xs => .ok xs
  | .dict xs | .dcoll _ xs => .ok (xs.map (fun x => compVal x.1))
  | .atom (.str s) => .ok (s.toList.map (fun ch => Val.str (String.singleton ch)))
  | .atom _ => .error .typeError

/-- `FieldSelector(expr)` (selector.py:54-83), as in `FS.init`, on any object. -/
def fsMake (v : Val) : Except Exc Val :=
  if untrue v then .ok (fsObj [])
  else
    match fsItems v with
    | .error e => .error e
    | .ok xs => if xs.any (fun e => !isCompVal e && !untrue e) then .error .valueError else .ok (fsObj xs)

/-- The properties of `JsonDiffInfo` (diff.py:68-88, json.py:280). -/
def diffProps : List IProp :=
  [{ name := "diff_type", types := [.other 0] }, { name := "base", types := [.other 1] },
   { name := "other", types := [.other 1] }, { name := unknownKeys, extraneous := true }]

/-- Their options (diff.py:68-88, json.py:280). -/
def diffInfoOf (_c nm : String) : JInfo :=
  if nm = "diff_type" then { coerce := some coerceDiff, required := true }
  else if nm = unknownKeys then { json := some { jsonName := some none } }
  else { required := true }

/-- The classes `JsonDiffInfo` and `JsonDiff` (json.py:504-516). -/
def diffCls (c : String) : ICls :=
  if c = "JsonDiff" then { coll := some (.list, .one (.cls "JsonDiffInfo")) }
  else if c = "JsonDiffInfo" then { props := diffProps, pk := [] }
  else {}

/-- The two types that are no record classes. -/
def diffIsa (n : Nat) (v : Val) : Bool := if n = 0 then isDt v else isFs v

/-- Calling them; the enumeration cannot be called. -/
def diffMake (n : Nat) (v : Val) : Except Exc Val := if n = 0 then .error .typeError else fsMake v

/-- What reading differences depends on: these classes and `json.loads`. -/
def diffSetup (S : Schema) (loads : String → Except Exc Val) : Setup where
  S := { S with cls := diffCls }
  info := diffInfoOf
  isJson := fun c => c = "JsonDiff" || c = "JsonDiffInfo"
  isa := diffIsa
  make := diffMake
  loads := loads

/-- A difference as a `JsonDiffInfo` object (diff.py:63-88). -/
def infoVal (d : DInfo) : Val :=
  .rcd "JsonDiffInfo" [("diff_type", dtVal d.kind), ("base", fsObj (d.base.map compVal)), ("other", fsObj (d.other.map compVal))]

/-- `JsonDiffInfo.json_data` (json.py:506-511). -/
def infoJson (d : DInfo) : Val :=
  .dict [(.str "diff_type", .str (dtName d.kind)), (.str "base", .list (d.base.map compVal)),
    (.str "other", .list (d.other.map compVal))]

/-- `JsonDiff.json_data` (json.py:422-425, 229, 167-189): `json_data` of each item, which takes no `extraneous`. -/
def diffJson (ds : List DInfo) : Val := .list (ds.map infoJson)

/-- A `JsonDiff` object. -/
def diffVal (ds : List DInfo) : Val := .lcoll "JsonDiff" (ds.map infoVal)

/-- The instance dict of a `DiffInfo` (record/__init__.py:74-77). -/
def infoState (d : DInfo) : List (String × Val) :=
  [("diff_type", dtVal d.kind), ("base", fsObj (d.base.map compVal)), ("other", fsObj (d.other.map compVal))]

/-- One round of `JsonRecord.diff_iter`: `JsonDiffInfo(**diff.__getstate__())` (json.py:343-346). -/
def rewrap (J : Setup) (mk : Mk) (d : DInfo) : Except JErr Val := initRecord J mk "JsonDiffInfo" (infoState d)

/-- `JsonRecord.diff` (json.py:348-357) from what `Record.diff_iter` yields. -/
def jsonDiff (J : Setup) (mk : Mk) (ds : List DInfo) : Except JErr Val :=
  match mapE (rewrap J mk) ds with
  | .error e => .error e
  | .ok xs => mkList J mk "JsonDiff" (.one (.cls "JsonDiffInfo")) (.list xs)

end Normalize.Json
