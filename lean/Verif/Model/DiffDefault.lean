import Verif.Model.Diff
import Verif.Model.DiffText

/-!
# The default methods of DiffOptions

Models `/repo/normalize/diff.py:208-211, 270-331, 532-543` over `Verif.Model.DiffText` (the text
normalisation) and `Verif.Model.Identity` (`record_id`).

Simplifications: python's `==` on identity parts and on the items of simple lists is equality of trees (so
`1`, `1.0` and `True` are different here); the `_nothing` marker inside an identity is the object `opq 0`.
-/

namespace Normalize.Diff
open Ident (IProp Ty Schema Key)

/-- What the user supplies: the classes, `compare_as` of properties, `compare_item_as` of collection classes,
and python's `repr`. -/
structure Setup where
  S : Schema
  U : Unicode
  text : TextOpts
  /-- `prop.compare_as`, given the object and the value (diff.py:293-300) -/
  compareAs : IProp → Option (Val → Val → Except Exc Val) := fun _ => none
  /-- `coll.compare_item_as` (diff.py:322-323) -/
  compareItemAs : Val → Option (Val → Except Exc Val) := fun _ => none
  repr : Val → String
  /-- python's recursion limit, for `record_id` -/
  depth : Nat
  ord : (α : Type) → List α → List α := fun _ l => l

/-- `_nothing` as a part of an identity. -/
def nothingVal : Val := .atom (.opq 0)

variable (D : Setup)

/-- `normalize_object_slot` and `normalize_slot` (diff.py:270-301). -/
def normalizeObjectSlot (v : Option Val) (p : IProp) (obj : Option Val) : Except Exc (Option Val) :=
  match v with
  | none => .ok none
  | some x =>
    match D.compareAs p with
    | none => .ok (normalizeVal D.U D.text (some x))
    | some f =>
      match f (obj.getD .none) x with
      | .error e => .error e
      | .ok y => .ok (normalizeVal D.U D.text (some y))

/-- `compare_item_as`, if the collection has it. -/
def compareItem (coll : Option Val) (x : Val) : Except Exc Val :=
  match coll.bind D.compareItemAs with
  | none => .ok x
  | some f => f x

/-- `repr(v)` if `v` is not hashable (diff.py:821-822). -/
def hashed (v : Val) : Val := if Ident.hashable D.S v then v else .str (D.repr v)

/-- `normalize_item` (diff.py:303-324), and `repr` if the result is not hashable (diff.py:821-822). -/
def normalizeItem (coll : Option Val) (x : Val) : Except Exc (Option Val) :=
  match compareItem D coll x with
  | .error e => .error e
  | .ok y => .ok ((normalizeVal D.U D.text (some y)).map (hashed D))

/-- `normalize_object_slot` as `record_id` uses it. -/
def slotHook : Ident.SlotHook := fun v p obj =>
  match normalizeObjectSlot D (some v) p (some obj) with
  | .error e => .error e
  | .ok r => .ok (r.getD nothingVal)

/-- The parts of a key. -/
def idOfKey : Key → Id Key
  | .tup ks => .tup ks
  | .raw v => .raw (.raw v)

/-- `DiffOptions.record_id` (diff.py:326-331), and the hash computed when the result is put into a set. -/
def recordIdOf (ty : Option Ty) (sel : Option Heads) (v : Val) : Except Exc (Id Key) :=
  match Ident.rid D.S (some (slotHook D)) D.depth (ty.getD (Ident.typeOf v)) sel v with
  | .error e => .error e
  | .ok k =>
    match Ident.khash D.S D.depth k with
    | .error e => .error e
    | .ok _ => .ok (idOfKey k)

/-- `not v` -/
def falsyVal : Val → Bool
  | .atom a => D.S.falsy a
  | .list xs | .lcoll _ xs => xs.isEmpty
  | .dict xs | .dcoll _ xs => xs.isEmpty
  | .rcd _ _ => false

mutual
/-- `_nested_falsy` (diff.py:532-536). -/
def nestedFalsy : Key → Bool
  | .raw v => decide (v = nothingVal) || falsyVal D v
  | .tup ks => nestedFalsyL ks
/-- `not all(not _nested_falsy(y) for y in x)` -/
def nestedFalsyL : List Key → Bool
  | [] => false
  | k :: ks => nestedFalsy k || nestedFalsyL ks
end

mutual
/-- `_nested_empty` (diff.py:539-543). -/
def nestedEmpty : Key → Bool
  | .raw v => decide (v = nothingVal ∨ v = .none ∨ v = .str "")
  | .tup ks => nestedEmptyL ks
/-- `all(_nested_empty(y) for y in x)` -/
def nestedEmptyL : List Key → Bool
  | [] => true
  | k :: ks => nestedEmpty k && nestedEmptyL ks
end

/-- `DiffOptions` with its default methods. -/
def Setup.hooks : Hooks Key Val where
  S := D.S
  normSlot := normalizeObjectSlot D
  itemId := normalizeItem D
  itemsEqual := Ident.veq D.S
  recId := recordIdOf D
  falsyPart := nestedFalsy D
  emptyPart := nestedEmpty
  ord := D.ord

end Normalize.Diff
