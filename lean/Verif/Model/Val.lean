import Verif.Model.Selector

/-!
# Object trees

The values that selectors, comparison, identity and conversion work on.  Simplification: objects are trees,
so there is no aliasing and no cycle.
-/

namespace Normalize

/-- Objects without parts.  `opq` stands for any other one (float, date, …). -/
inductive Atom
  | none
  | bool (b : Bool)
  | int (i : Int)
  | str (s : String)
  | opq (t : Nat)
  deriving DecidableEq, Repr

/-- A python object.  Dict keys are components (strings,
ints, `None`).  `rcd` is a record with its instance dict; `lcoll` and `dcoll` are `ListCollection` and
`DictCollection` instances with their `_values` (/repo/normalize/coll.py:203-448).  Simplification: extra
properties of collections are not modelled. -/
inductive Val
  | atom (a : Atom)
  | list (xs : List Val)
  | dict (xs : List (Comp × Val))
  | rcd (cls : String) (slots : List (String × Val))
  | lcoll (cls : String) (xs : List Val)
  | dcoll (cls : String) (xs : List (Comp × Val))
  deriving Repr

mutual
/-- Structural equality is decidable. -/
def Val.decEq : (x y : Val) → Decidable (x = y)
  | .atom a, .atom b => if h : a = b then isTrue (by rw [h]) else isFalse (by simp [h])
  | .list a, .list b =>
    match Val.decEqs a b with
    | isTrue h => isTrue (by rw [h])
    | isFalse h => isFalse (by simp [h])
  | .dict a, .dict b =>
    match Val.decEqC a b with
    | isTrue h => isTrue (by rw [h])
    | isFalse h => isFalse (by simp [h])
  | .rcd c a, .rcd d b =>
    if hc : c = d then
      match Val.decEqS a b with
      | isTrue h => isTrue (by rw [h, hc])
      | isFalse h => isFalse (by simp [h])
    else isFalse (by simp [hc])
  | .lcoll c a, .lcoll d b =>
    if hc : c = d then
      match Val.decEqs a b with
      | isTrue h => isTrue (by rw [h, hc])
      | isFalse h => isFalse (by simp [h])
    else isFalse (by simp [hc])
  | .dcoll c a, .dcoll d b =>
    if hc : c = d then
      match Val.decEqC a b with
      | isTrue h => isTrue (by rw [h, hc])
      | isFalse h => isFalse (by simp [h])
    else isFalse (by simp [hc])
  | .atom _, .list _ | .atom _, .dict _ | .atom _, .rcd _ _ | .atom _, .lcoll _ _ | .atom _, .dcoll _ _
  | .list _, .atom _ | .list _, .dict _ | .list _, .rcd _ _ | .list _, .lcoll _ _ | .list _, .dcoll _ _
  | .dict _, .atom _ | .dict _, .list _ | .dict _, .rcd _ _ | .dict _, .lcoll _ _ | .dict _, .dcoll _ _
  | .rcd _ _, .atom _ | .rcd _ _, .list _ | .rcd _ _, .dict _ | .rcd _ _, .lcoll _ _ | .rcd _ _, .dcoll _ _
  | .lcoll _ _, .atom _ | .lcoll _ _, .list _ | .lcoll _ _, .dict _ | .lcoll _ _, .rcd _ _
  | .lcoll _ _, .dcoll _ _
  | .dcoll _ _, .atom _ | .dcoll _ _, .list _ | .dcoll _ _, .dict _ | .dcoll _ _, .rcd _ _
  | .dcoll _ _, .lcoll _ _ => isFalse (by simp)

/-- Equality of lists of values. -/
def Val.decEqs : (x y : List Val) → Decidable (x = y)
  | [], [] => isTrue rfl
  | a :: as, b :: bs =>
    match Val.decEq a b, Val.decEqs as bs with
    | isTrue h, isTrue h' => isTrue (by rw [h, h'])
    | isFalse h, _ => isFalse (by simp [h])
    | _, isFalse h => isFalse (by simp [h])
  | [], _ :: _ | _ :: _, [] => isFalse (by simp)

/-- Equality of dict contents. -/
def Val.decEqC : (x y : List (Comp × Val)) → Decidable (x = y)
  | [], [] => isTrue rfl
  | (k, a) :: as, (l, b) :: bs =>
    if hk : k = l then
      match Val.decEq a b, Val.decEqC as bs with
      | isTrue h, isTrue h' => isTrue (by rw [h, h', hk])
      | isFalse h, _ => isFalse (by simp [h])
      | _, isFalse h => isFalse (by simp [h])
    else isFalse (by simp [hk])
  | [], _ :: _ | _ :: _, [] => isFalse (by simp)

/-- Equality of instance dicts. -/
def Val.decEqS : (x y : List (String × Val)) → Decidable (x = y)
  | [], [] => isTrue rfl
  | (k, a) :: as, (l, b) :: bs =>
    if hk : k = l then
      match Val.decEq a b, Val.decEqS as bs with
      | isTrue h, isTrue h' => isTrue (by rw [h, h', hk])
      | isFalse h, _ => isFalse (by simp [h])
      | _, isFalse h => isFalse (by simp [h])
    else isFalse (by simp [hk])
  | [], _ :: _ | _ :: _, [] => isFalse (by simp)
end

instance : DecidableEq Val := Val.decEq

/-- python's `None` -/
def Val.none : Val := .atom .none

/-- a python string -/
def Val.str (s : String) : Val := .atom (.str s)

/-- a python int -/
def Val.int (i : Int) : Val := .atom (.int i)

/-! ## Association lists (python dicts) -/

section Assoc
variable {κ α : Type} [DecidableEq κ]

/-- `d[k]` / `d.get(k)` -/
def alookup (d : List (κ × α)) (k : κ) : Option α :=
  match d with
  | [] => none
  | (k', v) :: d => if k' = k then some v else alookup d k

/-- `d[k] = v`: in place, or at the end for a new key -/
def aset (d : List (κ × α)) (k : κ) (v : α) : List (κ × α) :=
  match d with
  | [] => [(k, v)]
  | (k', v') :: d => if k' = k then (k', v) :: d else (k', v') :: aset d k v

/-- `del d[k]` for a present key; no effect otherwise -/
def aerase (d : List (κ × α)) (k : κ) : List (κ × α) :=
  match d with
  | [] => []
  | (k', v') :: d => if k' = k then aerase d k else (k', v') :: aerase d k

end Assoc

/-! ## Lists -/

/-- Where python's index `i` lands in a sequence of length `n`, if anywhere. -/
def pyIndex (n : Nat) (i : Int) : Option Nat :=
  if 0 ≤ i then (if i < n then some i.toNat else none)
  else if 0 ≤ i + n then some (i + n).toNat
  else none

/-- `xs[i]` -/
def getIdx {α : Type} (xs : List α) (i : Int) : Option α := (pyIndex xs.length i).bind (fun k => xs[k]?)

/-- `xs[i] = v` where there is an item `i`; no effect otherwise -/
def setIdx {α : Type} (xs : List α) (i : Int) (v : α) : List α :=
  match pyIndex xs.length i with
  | some k => xs.set k v
  | none => xs

/-- `d[k] = v` where there is an entry `k`; no effect otherwise -/
def areplace {κ α : Type} [DecidableEq κ] (d : List (κ × α)) (k : κ) (v : α) : List (κ × α) :=
  if (alookup d k).isSome then aset d k v else d

end Normalize
