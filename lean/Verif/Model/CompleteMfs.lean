/-!
# `MultiFieldSelector.complete_mfs`

Models the class method (`/repo/normalize/selector.py:563, 913-917`), which keeps one selector for everything per class, as
steps of threads that may interleave.  Classes and objects are numbers.
-/

namespace Normalize.CompleteMfs

/-- The attribute `_complete_mfs` of each class that has one of its own (other than the `None` of line 563), and the
objects with their classes. -/
structure Heap where
  own : Nat → Option Nat
  objs : List Nat

/-- Where a call is, and what it returned (`none` is `None`). -/
inductive Pc
  /-- before `isinstance(cls._complete_mfs, cls)` (selector.py:915) -/
  | test
  /-- before `cls([None])` (selector.py:916) -/
  | make
  /-- before the assignment (selector.py:916) -/
  | store (o : Nat)
  /-- before `return cls._complete_mfs` (selector.py:917) -/
  | read
  | done (r : Option Nat)
  deriving DecidableEq

/-- `cls._complete_mfs`: of the first class in the order of resolution that has one (selector.py:563, 915, 917). -/
def attr (mro : Nat → List Nat) (h : Heap) (c : Nat) : Option Nat := (mro c).findSome? h.own

/-- `isinstance(o, cls)` -/
def isInst (mro : Nat → List Nat) (h : Heap) (c o : Nat) : Bool :=
  match h.objs[o]? with
  | some d => decide (c ∈ mro d)
  | none => false

/-- The test (selector.py:915); `None` is no instance. -/
def test (mro : Nat → List Nat) (h : Heap) (c : Nat) : Pc :=
  match attr mro h c with
  | some o => if isInst mro h c o then .read else .make
  | none => .make

/-- One step of a call on the class `c` (selector.py:913-917). -/
def step (mro : Nat → List Nat) (c : Nat) (h : Heap) : Pc → Heap × Pc
  | .test => (h, test mro h c)
  | .make => ({ h with objs := h.objs ++ [c] }, .store h.objs.length)
  | .store o => ({ h with own := fun d => if d = c then some o else h.own d }, .read)
  | .read => (h, .done (attr mro h c))
  | .done r => (h, .done r)

/-- The calls that are going on, each with its class. -/
abbrev World := Heap × List (Nat × Pc)

/-- The call with the given number goes on. -/
def turn (mro : Nat → List Nat) (w : World) (t : Nat) : World :=
  match w.2[t]? with
  | none => w
  | some (c, pc) => ((step mro c w.1 pc).1, w.2.set t (c, (step mro c w.1 pc).2))

/-- A schedule. -/
def run (mro : Nat → List Nat) (w : World) (ts : List Nat) : World := ts.foldl (turn mro) w

/-- The heap before any call, and calls on the given classes. -/
def init (cs : List Nat) : World := (⟨fun _ => none, []⟩, cs.map (fun c => (c, .test)))

end Normalize.CompleteMfs
