/-!
# Looking up an argument while other threads declare property types

Models the loop over `DUCKWARGS[argname]` in `has` (`/repo/normalize/property/meta.py:62-72`) step by step, and
`DUCKWARGS[kwarg].add((traits, self))` in `MetaProperty.__new__` (`/repo/normalize/property/meta.py:263-265`), which other
threads may do meanwhile.  `Verif.Model.Traits` and `Verif.Model.TraitThreads` do the loop in one step.

A set is the list of its members in the order in which python would iterate over it now; where a new member ends up
depends on its hash, so it is a parameter.  `for` over a set compares the size of the set with that at the start of the
loop, before each round and at the end, and raises `RuntimeError` if it is different (`setiter_iternext` of CPython).
-/

namespace Normalize.DuckThreads

/-- A member: the traits of a type, and the type. -/
abbrev Entry := List String × Nat

/-- `DUCKWARGS` (property/meta.py:25); it is a `defaultdict`, so every name has a set. -/
abbrev Duck := String → List Entry

/-- `DUCKWARGS[kwarg].add((traits, self))` (property/meta.py:264-265); a new member is put at some place. -/
def add (d : Duck) (arg : String) (e : Entry) (at_ : Nat) : Duck :=
  if e ∈ d arg then d
  else fun a => if a = arg then (d arg).take at_ ++ e :: (d arg).drop at_ else d a

/-- Where the thread that declares a property is. -/
inductive Pc
  /-- before the loop (property/meta.py:66) -/
  | start
  /-- in the loop: the size of the set at the start, the number of rounds, and the members with
  `isinstance(proptype, type(self))` so far (property/meta.py:66-70) -/
  | loop (size rounds : Nat) (found : List Entry)
  /-- after the loop (property/meta.py:71) -/
  | done (found : List Entry)
  /-- `RuntimeError: Set changed size during iteration` -/
  | raised
  deriving DecidableEq

/-- The next step of that thread.  `fits` is `isinstance(·, type(self))`. -/
def step (fits : Nat → Bool) (arg : String) (d : Duck) : Pc → Pc
  | .start => .loop (d arg).length 0 []
  | .loop size n found =>
    if (d arg).length ≠ size then .raised
    else
      match (d arg)[n]? with
      | none => .done found
      | some e => .loop size (n + 1) (if fits e.2 then found ++ [e] else found)
  | pc => pc

/-- What happens next: the thread goes on, or another one adds a member. -/
inductive Ev
  | go
  | add (arg : String) (e : Entry) (at_ : Nat)

/-- One event. -/
def event (fits : Nat → Bool) (arg : String) (s : Duck × Pc) : Ev → Duck × Pc
  | .go => (s.1, step fits arg s.1 s.2)
  | .add a e i => (add s.1 a e i, s.2)

/-- A schedule. -/
def run (fits : Nat → Bool) (arg : String) (s : Duck × Pc) (evs : List Ev) : Duck × Pc := evs.foldl (event fits arg) s

end Normalize.DuckThreads
