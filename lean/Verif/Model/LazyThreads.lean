import Verif.Model.Property

/-!
# A lazy property used by several threads

Models the getters, setters and deleters of `LazyProperty`, `ROLazyProperty` and `LazySafeProperty`
(`/repo/normalize/property/__init__.py:280-287, 355-369, 380-397, 408-431`) on one property of one object, as programs
of atomic steps.  A step is one access to the instance dict, or a call to user code (the default, the coerce and
check functions); the interpreter may switch threads between any two steps.

Simplifications: a thread performs one operation (one that performs several is the same as several threads that take
their turns one after the other).  The default is a single step, and does not itself touch the property; what it gives
may differ between evaluations.
-/

namespace Normalize.LazyThreads

open Normalize.Slots

variable {V : Type} [DecidableEq V]

/-- What a thread does with the property. -/
inductive Act (V : Type)
  | read
  | assign (v : V)
  | delete
  deriving DecidableEq

/-- Where a thread is. -/
inductive Pc (V : Type)
  /-- not begun -/
  | start
  /-- `if self.name in obj.__dict__` was true; before `return obj.__dict__[self.name]` (394-395, 428-429) -/
  | hit
  /-- before `if self.name not in obj.__dict__` of `LazyProperty.__get__` (362) -/
  | recheck
  /-- before `self.get_default(obj)` (363) -/
  | default
  /-- before `self.type_safe_value(value)` (364) -/
  | typed (v : V)
  /-- before `obj.__dict__[self.name] = ` a value (364, 412) -/
  | put (v : V)
  /-- before `if self.name not in obj.__dict__` of `Property.__get__` (285) -/
  | present
  /-- before `return obj.__dict__[self.name]` (287) -/
  | fetch
  /-- returned or raised -/
  | done (r : Except Exc V)

/-- A property and what the evaluations of its default give, by number. -/
structure Cfg (V : Type) where
  w : World V
  p : PropDef V
  dflt : Nat → Except Exc V

/-- The slot in the instance dict and the number of evaluations of the default so far. -/
structure Shared (V : Type) where
  slot : Option V
  evals : Nat

/-- First step of an operation.  A plain lazy property is not a data descriptor: the interpreter looks in the instance
dict first, and assignment and deletion go there directly.  Read-only: 380-386. -/
def first (c : Cfg V) (s : Shared V) : Act V → Pc V × Shared V
  | .read =>
    match c.p.kind with
    | .lazy =>
      match s.slot with
      | some v => (.done (.ok v), s)
      | none => (.recheck, s)
    | _ => (if s.slot.isSome then .hit else .recheck, s)
  | .assign v =>
    match c.p.kind with
    | .lazy => (.done (.ok c.w.none), { s with slot := some v })
    | .roLazy => (.done (.error .readOnly), s)
    | _ =>
      match typeSafe c.w c.p v false with
      | .error e => (.done (.error e), s)
      | .ok v' => (.put v', s)
  | .delete =>
    match c.p.kind with
    | .lazy =>
      match s.slot with
      | none => (.done (.error .attributeError), s)
      | some _ => (.done (.ok c.w.none), { s with slot := none })
    | .roLazy => (.done (.error .readOnly), s)
    | _ =>
      if c.p.required then (.done (.error .propertyRequired), s)
      else match s.slot with
        | none => (.done (.error .keyError), s)
        | some _ => (.done (.ok c.w.none), { s with slot := none })

/-- Next step of an operation. -/
def step (c : Cfg V) (a : Act V) (s : Shared V) : Pc V → Pc V × Shared V
  | .start => first c s a
  | .hit =>
    match s.slot with
    | none => (.done (.error .keyError), s)
    | some v => (.done (.ok v), s)
  | .recheck => (if s.slot.isSome then .present else .default, s)
  | .default =>
    match c.dflt s.evals with
    | .error e => (.done (.error e), { s with evals := s.evals + 1 })
    | .ok v => (.typed v, { s with evals := s.evals + 1 })
  | .typed v =>
    match typeSafe c.w c.p v false with
    | .error e => (.done (.error e), s)
    | .ok v' => (.put v', s)
  | .put v => (if a = .read then .present else .done (.ok c.w.none), { s with slot := some v })
  | .present => (if s.slot.isSome then .fetch else .done (.error .attributeError), s)
  | .fetch =>
    match s.slot with
    | none => (.done (.error .keyError), s)
    | some v => (.done (.ok v), s)
  | .done r => (.done r, s)

/-- A thread. -/
structure Thread (V : Type) where
  act : Act V
  pc : Pc V

structure Sys (V : Type) where
  shared : Shared V
  threads : List (Thread V)

/-- Thread `i` takes a step. -/
def tick (c : Cfg V) (s : Sys V) (i : Nat) : Sys V :=
  match s.threads[i]? with
  | none => s
  | some t =>
    { shared := (step c t.act s.shared t.pc).2
      threads := s.threads.set i { t with pc := (step c t.act s.shared t.pc).1 } }

/-- The threads take steps in the order of a schedule. -/
def run (c : Cfg V) (s : Sys V) (sched : List Nat) : Sys V := sched.foldl (tick c) s

/-- The threads before they begin, with the slot as it is. -/
def begin (slot : Option V) (as : List (Act V)) : Sys V :=
  { shared := ⟨slot, 0⟩, threads := as.map (fun a => ⟨a, .start⟩) }

end Normalize.LazyThreads
