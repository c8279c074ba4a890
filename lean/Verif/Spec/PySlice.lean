import Verif.Model.PyList
import Mathlib.Data.List.Forall2

/-! What python's slices select, as the language reference says it. -/

namespace Normalize.Spec

open Normalize.Py (Slice)

/-- An index, counted from the end if it is negative; it may be out of range. -/
def absolute (n : Nat) (i : Int) : Int := if i < 0 then i + n else i

/-- Where a slice with a positive step starts. -/
def fromBelow (n : Nat) : Option Int → Int
  | some i => max (absolute n i) 0
  | none => 0

/-- Where a slice with a negative step starts. -/
def fromAbove (n : Nat) : Option Int → Int
  | some i => min (absolute n i) (n - 1)
  | none => n - 1

/-- Is position `k` of a sequence of `n` items selected by `start:stop:step`?  For a positive step: the positions from
`start` (or 0) on, in steps, that are before `stop`.  For a negative step: the positions from `start` (or the last) down,
in steps, that are after `stop`. -/
def InSlice (s : Slice) (n k : Nat) : Prop :=
  k < n ∧
  if 0 < s.step.getD 1 then
    (∀ i, s.stop = some i → (k : Int) < absolute n i) ∧ ∃ m : Nat, (k : Int) = fromBelow n s.start + m * s.step.getD 1
  else
    (∀ i, s.stop = some i → absolute n i < k) ∧ ∃ m : Nat, (k : Int) = fromAbove n s.start + m * s.step.getD 1

/-- `ys` are the items of `xs` at these positions, in the order of the positions. -/
def ItemsAt {α : Type} (xs : List α) (ks : List Nat) (ys : List α) : Prop :=
  List.Forall₂ (fun k y => xs[k]? = some y) ks ys

end Normalize.Spec
