import Verif.Model.Val

/-!
# Python's list primitives

Not code of /repo: the semantics of the python `list` operations that `/repo/normalize/coll.py` forwards to
(`PySlice_AdjustIndices`, `list_subscript`, `list_ass_subscript`).
-/

namespace Normalize.Py

variable {α : Type}

/-- A slice object. -/
structure Slice where
  start : Option Int := none
  stop : Option Int := none
  step : Option Int := none
  deriving DecidableEq

/-- A given slice bound, adjusted to a sequence of length `n`. -/
def adjust (n : Nat) (neg : Bool) (i : Int) : Int :=
  if i < 0 then
    if i + n < 0 then (if neg then -1 else 0) else i + n
  else if (n : Int) ≤ i then (if neg then n - 1 else n)
  else i

/-- `slice.step` -/
def Slice.stride (s : Slice) : Int := s.step.getD 1

/-- First position. -/
def Slice.first (s : Slice) (n : Nat) : Int :=
  match s.start with
  | some i => adjust n (s.stride < 0) i
  | none => if s.stride < 0 then n - 1 else 0

/-- Position before which to stop. -/
def Slice.last (s : Slice) (n : Nat) : Int :=
  match s.stop with
  | some i => adjust n (s.stride < 0) i
  | none => if s.stride < 0 then -1 else n

/-- Number of positions. -/
def Slice.count (s : Slice) (n : Nat) : Nat :=
  if s.stride < 0 then
    (if s.last n < s.first n then ((s.first n - s.last n - 1) / (-s.stride) + 1).toNat else 0)
  else (if s.first n < s.last n then ((s.last n - s.first n - 1) / s.stride + 1).toNat else 0)

/-- The positions, in order. -/
def Slice.positions (s : Slice) (n : Nat) : List Nat :=
  (List.range (s.count n)).map (fun k : Nat => (s.first n + (k : Int) * s.stride).toNat)

/-- `xs[s]` -/
def getSlice (xs : List α) (s : Slice) : Except Exc (List α) :=
  if s.stride = 0 then .error .valueError
  else .ok ((s.positions xs.length).filterMap (fun k => xs[k]?))

/-- `xs[s] = ys` -/
def setSlice (xs : List α) (s : Slice) (ys : List α) : Except Exc (List α) :=
  if s.stride = 0 then .error .valueError
  else if s.stride = 1 then
    .ok (xs.take (s.first xs.length).toNat ++ ys ++
      xs.drop (max (s.first xs.length).toNat (s.last xs.length).toNat))
  else if ys.length = s.count xs.length then
    .ok (((s.positions xs.length).zip ys).foldl (fun zs e => zs.set e.1 e.2) xs)
  else .error .valueError

/-- `del xs[s]` -/
def delSlice (xs : List α) (s : Slice) : Except Exc (List α) :=
  if s.stride = 0 then .error .valueError
  else .ok ((xs.zipIdx.filter (fun e => e.2 ∉ s.positions xs.length)).map (·.1))

/-- `xs[i]` -/
def getItem (xs : List α) (i : Int) : Except Exc α :=
  match pyIndex xs.length i with
  | some k =>
    match xs[k]? with
    | some x => .ok x
    | none => .error .indexError
  | none => .error .indexError

/-- `xs[i] = x` -/
def setItem (xs : List α) (i : Int) (x : α) : Except Exc (List α) :=
  match pyIndex xs.length i with
  | some k => .ok (xs.set k x)
  | none => .error .indexError

/-- `del xs[i]` -/
def delItem (xs : List α) (i : Int) : Except Exc (List α) :=
  match pyIndex xs.length i with
  | some k => .ok (xs.eraseIdx k)
  | none => .error .indexError

/-- An iterable: the items it yields, and how it ends if not normally. -/
structure Iter (α : Type) where
  items : List α
  raises : Option Exc := none

end Normalize.Py
