import Verif.Model.Val

/-!
# How objects are marshalled to JSON, several threads

Models `/repo/normalize/record/json.py:162-190` (`_json_data` with its two caches) as a program of atomic steps, so that
calls made by different threads may interleave.  A step is one access to a cache, or the inspection of an object.

Simplifications: a thread is the sequence of calls of `_json_data` it makes, be they nested or not; it goes on with its
next call after an exception (a thread that does not is one that takes no more steps).  What the method called returns
is not modelled here; see `Verif.Model.Json`.
-/

namespace Normalize.JsonThreads

/-- What `_json_data` does to marshal an object (json.py:172-190). -/
inductive How
  /-- `x.json_data(extraneous=extraneous)` -/
  | withFlag
  /-- `x.json_data()` -/
  | noFlag
  /-- `to_json(x, extraneous)` -/
  | plain
  deriving DecidableEq, Repr

/-- Objects: their type, whether they have a callable attribute `json_data`, and whether this has an argument
`extraneous` or keyword-only arguments (json.py:178, 181-182). -/
structure Objects (X T : Type) where
  ty : X → T
  has : X → Bool
  takes : X → Bool

/-- The two caches (json.py:163-164). -/
structure Caches (T : Type) where
  has : List (T × Bool)
  takes : List (T × Bool)

/-- Where a thread is in `_json_data`. -/
inductive Pc
  /-- before `type(x) in has_json_data` (json.py:172) -/
  | check
  /-- the type was found; before `has_json_data[type(x)]` (json.py:172) -/
  | known
  /-- before `json_data_takes_extraneous[type(x)]` (json.py:173) -/
  | recall
  /-- before `hasattr(x, "json_data") and callable(x.json_data)` (json.py:178) -/
  | look
  /-- before `has_json_data[type(x)] = htj` (json.py:179) -/
  | storeHas (htj : Bool)
  /-- before `inspect.getfullargspec(x.json_data)` (json.py:181-182) -/
  | spec
  /-- before `json_data_takes_extraneous[type(x)] = tjte` (json.py:183) -/
  | storeTakes (tjte : Bool)
  deriving DecidableEq, Repr

/-- A thread: the objects it still has to marshal (the first is the one it is at), where it is, and how those before
were marshalled, the latest first. -/
structure Thread (X : Type) where
  todo : List X
  pc : Pc
  outs : List (Except Exc How)

/-- The caches, and the threads. -/
structure Sys (X T : Type) where
  caches : Caches T
  threads : List (Thread X)

/-- What is known at the end of a call. -/
def how (takes : Bool) : How := if takes then .withFlag else .noFlag

variable {X T : Type} [DecidableEq T]

/-- Next step of a call for object `x` (json.py:172-190): the next place or the outcome. -/
def step (O : Objects X T) (x : X) (c : Caches T) : Pc → (Pc ⊕ Except Exc How) × Caches T
  | .check => (.inl (if (alookup c.has (O.ty x)).isSome then .known else .look), c)
  | .known =>
    match alookup c.has (O.ty x) with
    | none => (.inr (.error .keyError), c)
    | some b => (.inl (if b then .recall else .look), c)
  | .recall =>
    match alookup c.takes (O.ty x) with
    | none => (.inr (.error .keyError), c)
    | some b => (.inr (.ok (how b)), c)
  | .look => (.inl (.storeHas (O.has x)), c)
  | .storeHas b => (if b then .inl .spec else .inr (.ok .plain), { c with has := aset c.has (O.ty x) b })
  | .spec => (.inl (.storeTakes (O.takes x)), c)
  | .storeTakes b => (.inr (.ok (how b)), { c with takes := aset c.takes (O.ty x) b })

/-- The thread after a step. -/
def advance (t : Thread X) (xs : List X) : Pc ⊕ Except Exc How → Thread X
  | .inl pc => { t with pc := pc }
  | .inr r => { todo := xs, pc := .check, outs := r :: t.outs }

/-- Thread `i` takes a step; nothing happens if there is no such thread or it has nothing to do. -/
def tick (O : Objects X T) (s : Sys X T) (i : Nat) : Sys X T :=
  match s.threads[i]? with
  | none => s
  | some t =>
    match t.todo with
    | [] => s
    | x :: xs =>
      { caches := (step O x s.caches t.pc).2
        threads := s.threads.set i (advance t xs (step O x s.caches t.pc).1) }

/-- The threads take steps in the order given by a schedule. -/
def run (O : Objects X T) (s : Sys X T) (sched : List Nat) : Sys X T := sched.foldl (tick O) s

/-- The threads before their first step. -/
def begin (c : Caches T) (calls : List (List X)) : Sys X T := ⟨c, calls.map (fun xs => ⟨xs, .check, []⟩)⟩

/-- The caches when the module was just imported (json.py:163-164). -/
def fresh : Caches T := ⟨[], []⟩

end Normalize.JsonThreads
