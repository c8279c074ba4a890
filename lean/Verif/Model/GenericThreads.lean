import Verif.Model.Generic

/-!
# Generic collection types, several threads

Models `/repo/normalize/coll.py:475-503` (`_make_generic`) as a program of atomic steps, so that calls made by
different threads may interleave.  A step is one access to a dictionary or to a module, or the creation of a class;
the interpreter does not switch threads within one of these.

Simplification: a thread makes one call.  A thread that makes several is the same as several threads, of which each
starts after the one before has finished; schedules with this shape are among all schedules.
-/

namespace Normalize.GenericThreads

open Normalize.Coll Normalize.Generic

/-- Where a thread is in `_make_generic`. -/
inductive Pc
  /-- before `if key in GENERIC_TYPES` (coll.py:491) -/
  | check
  /-- the key was found; before `GENERIC_TYPES[key].itemtype != of` (coll.py:492) -/
  | compare
  /-- the key was not found; before `type(...)` (coll.py:497-499) -/
  | make
  /-- before `GENERIC_TYPES[key] = ` the class made (coll.py:497) -/
  | store (g : GCls)
  /-- before `sys.modules[of.__module__]` (coll.py:500) -/
  | findModule
  /-- before `hasattr(mod, generic_name)` (coll.py:501) -/
  | hasName
  /-- before `GENERIC_TYPES[key]` as argument of `setattr` (coll.py:502) -/
  | getForName
  /-- before `setattr(mod, generic_name, ...)` (coll.py:502) -/
  | setName (g : GCls)
  /-- before `return GENERIC_TYPES[key]` (coll.py:503) -/
  | ret
  /-- the call has returned or raised -/
  | done (r : Except Exc GCls)

/-- A thread: the call it makes and where it is. -/
structure Thread where
  call : Call
  pc : Pc

/-- All that the threads share (coll.py:451 and the modules' attributes), and the threads. -/
structure Sys where
  world : World
  threads : List Thread

/-- Key of a call (coll.py:490). -/
def Call.key (c : Call) : TypeKey := keyOf c.of c.container

/-- Next step of a thread (coll.py:491-503). -/
def step (loaded : String → Bool) (c : Call) (w : World) : Pc → Pc × World
  | .check => (if (alookup w.types (Call.key c)).isSome then .compare else .make, w)
  | .compare =>
    match alookup w.types (Call.key c) with
    | none => (.done (.error .keyError), w)
    | some g => (if g.itemtype ≠ c.of then .done (.error .propertyNotUnique) else .ret, w)
  | .make => (.store (newCls c.of c.container w.next), { w with next := w.next + 1 })
  | .store g => (.findModule, { w with types := aset w.types (Call.key c) g })
  | .findModule => (if loaded c.of.module then .hasName else .done (.error .keyError), w)
  | .hasName =>
    (if (alookup w.attrs (c.of.module, c.of.name ++ c.container.suffix)).isSome then .ret else .getForName, w)
  | .getForName =>
    match alookup w.types (Call.key c) with
    | none => (.done (.error .keyError), w)
    | some g => (.setName g, w)
  | .setName g =>
    (.ret, { w with attrs := aset w.attrs (c.of.module, c.of.name ++ c.container.suffix) g.id })
  | .ret =>
    match alookup w.types (Call.key c) with
    | none => (.done (.error .keyError), w)
    | some g => (.done (.ok g), w)
  | .done r => (.done r, w)

/-- Thread `i` takes a step; nothing happens if there is no such thread. -/
def tick (loaded : String → Bool) (s : Sys) (i : Nat) : Sys :=
  match s.threads[i]? with
  | none => s
  | some t =>
    { world := (step loaded t.call s.world t.pc).2
      threads := s.threads.set i { t with pc := (step loaded t.call s.world t.pc).1 } }

/-- The threads take steps in the order given by a schedule. -/
def run (loaded : String → Bool) (s : Sys) (sched : List Nat) : Sys := sched.foldl (tick loaded) s

/-- At the start no generic type exists and no thread has begun. -/
def begin (attrs : List ((String × String) × Nat)) (n : Nat) (cs : List Call) : Sys :=
  { world := ⟨[], attrs, n⟩, threads := cs.map (fun c => ⟨c, .check⟩) }

end Normalize.GenericThreads
