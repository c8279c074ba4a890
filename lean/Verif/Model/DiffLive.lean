import Verif.Model.SelectorObj
import Verif.Model.Diff

/-!
# The selectors that a diff hands out

Models which `FieldSelector` objects the generators of `/repo/normalize/diff.py` make, keep and yield.  What they compare is
in `Model/Diff`; here a comparison is what it will do next with selectors.  A filter (`compare_filter`) is left out: it is
asked with the selectors.
-/

namespace Normalize.DiffLive
open SelObj

/-- What a comparison function does with the selectors `fs_a` and `fs_b` that it was called with. -/
inductive Ev
  /-- It yields `fs_a + [ka]` and `fs_b + [kb]`: everything in `compare_record_iter` (diff.py:455-483, where `prop_fs_a` and
  `prop_fs_b`, made at 426-427, are not used after they are yielded), and moved, unchanged and modified items
  (diff.py:742-752, 760-770, 831-841, 869-874, 916-926, 954-959). -/
  | both (kind : Diff.DType) (ka kb : Comp)
  /-- An item that was removed: `fs_a + [ka]`, and `fs_b` itself (diff.py:685-688, 773-780, 847-856, 932-941). -/
  | removed (ka : Comp)
  /-- An item that was added: `fs_a` itself, and `fs_b + [kb]` (diff.py:690-693, 782-789, 858-867, 943-952). -/
  | added (kb : Comp)
  /-- It compares two values or members with `_diff_iter(…, fs_a + [ka], fs_b + [kb], …)` and yields what is yielded
  (diff.py:426-427, 437-446, 679-683, 716-721, 731-739). -/
  | sub (ka kb : Comp) (evs : List Ev)

/-- What a consumer got: the numbers of the two selectors, and whether they were made for it. -/
structure Got where
  kind : Diff.DType
  base : Nat
  other : Nat
  newBase : Bool
  newOther : Bool
  deriving DecidableEq, Repr

/-- The state of a consumer and a generator: the memory, what was yielded so far, what the paths were when it was yielded,
and which selectors the consumer made. -/
structure Session where
  mem : Mem
  got : List Got := []
  read : List (Diff.DType × Row × Row) := []
  mine : List Nat := []

/-- `fs + [k]` (selector.py:432-433): the number of the new selector.  For strings and ints nothing is raised; with this
`FS.init` there is no number if it were. -/
def grow (m : Mem) (i : Nat) (k : Comp) : Mem × Nat := ((SelObj.step m (.plusItems i [.ok k])).1, m.objs.length)

/-- What the consumer does between two differences is its own affair: some operations on selectors. -/
abbrev Consumer := Session → List Op

/-- A difference is yielded, and the consumer goes on until it asks for the next. -/
def deliver (use : Consumer) (s : Session) (g : Got) : Session :=
  let s' : Session := { s with got := s.got ++ [g], read := s.read ++ [(g.kind, s.mem.row g.base, s.mem.row g.other)] }
  let m := (SelObj.run s'.mem (use s')).1
  { s' with
    mem := m
    mine := s'.mine ++ (List.range m.objs.length).drop s'.mem.objs.length }

mutual

/-- The generator runs, and the consumer in between. -/
def play (use : Consumer) (fa fb : Nat) (s : Session) : Ev → Session
  | .both kind ka kb =>
    let (m1, a) := grow s.mem fa ka
    let (m2, b) := grow m1 fb kb
    deliver use { s with mem := m2 } ⟨kind, a, b, true, true⟩
  | .removed ka =>
    let (m1, a) := grow s.mem fa ka
    deliver use { s with mem := m1 } ⟨.removed, a, fb, true, false⟩
  | .added kb =>
    let (m1, b) := grow s.mem fb kb
    deliver use { s with mem := m1 } ⟨.added, fa, b, false, true⟩
  | .sub ka kb evs =>
    let (m1, a) := grow s.mem fa ka
    let (m2, b) := grow m1 fb kb
    playAll use a b { s with mem := m2 } evs

/-- One thing after the other. -/
def playAll (use : Consumer) (fa fb : Nat) (s : Session) : List Ev → Session
  | [] => s
  | e :: es => playAll use fa fb (play use fa fb s e) es

end

/-- `diff_iter` (diff.py:974-1002): both sides start with the same empty selector, `null_fs`. -/
def session (use : Consumer) (evs : List Ev) : Session :=
  playAll use 0 0 { mem := (SelObj.step start (.make [])).1 } evs

end Normalize.DiffLive
