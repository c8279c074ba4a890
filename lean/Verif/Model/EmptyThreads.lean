import Verif.Model.Empty

/-!
# Empty placeholders, several threads

Models `/repo/normalize/empty.py:9-16, 60-125` (`placeholder` and what can be done with a placeholder) as a program of
atomic steps, so that threads that follow chains like `p.author.comments[0].text` may interleave.  A step is one access to
`EMPTY_VALS` or to one of the two caches of a placeholder, or the creation of one.

`Verif.Model.Empty` models the same code for one thread, and is used here for what does not change: the classes.
-/

namespace Normalize.EmptyThreads

open Normalize.Empty

/-- Where a thread is in an operation on a placeholder. -/
inductive Pc
  /-- before `attr_name not in self._attrs`, `self._member_type is None`, or the loop over the types (empty.py:61-63,
  98-100, 106-110) -/
  | start
  /-- in `placeholder`: before `typetuple not in EMPTY_VALS` (empty.py:14) -/
  | check (t : Types)
  /-- in `placeholder`: before `EmptyVal(typetuple)` (empty.py:15) -/
  | make (t : Types)
  /-- in `placeholder`: before `EMPTY_VALS[typetuple] = ` the new one (empty.py:15) -/
  | enter (t : Types) (j : Nat)
  /-- in `placeholder`: before `return EMPTY_VALS[typetuple]` (empty.py:16) -/
  | look (t : Types)
  /-- before `self._attrs[attr_name] = ` or `self._member_type = ` (empty.py:78, 122) -/
  | store (j : Nat)
  /-- before `return self._attrs[attr_name]` or `return self._member_type` (empty.py:86, 125) -/
  | fetch
  deriving DecidableEq, Repr

/-- A thread: the placeholder it is at, the operations still to do, where it is in the first of them, and the exception
it has ended with. -/
structure Thread where
  obj : Nat
  todo : List Op
  pc : Pc := .start
  failed : Option EErr := none

/-- The placeholders, and the threads. -/
structure Sys where
  heap : Heap
  threads : List Thread

variable (W : World)

/-- The beginning of an operation (empty.py:60-78, 97-103, 105-122): it ends, or a cached placeholder is to be
fetched, or one for some types is to be found. -/
def first (o : Nat) (ob : Obj) (op : Op) : Pc ⊕ Except EErr Nat :=
  match ob.types with
  | .any => .inr (.ok o)
  | .tuple ts =>
    match op with
    | .attr nm =>
      if (alookup ob.attrs nm).isSome then .inl .fetch
      else if (ts.flatMap (attrFound W nm)).isEmpty then .inr (.error .noSuchAttribute)
      else .inl (.check (typesOf (itertypes ((ts.flatMap (attrFound W nm)).map valuetype))))
    | .item =>
      if ob.member.isSome then .inl .fetch
      else if (ts.flatMap (itemFound W)).isEmpty then .inr (.error .notSubscriptable)
      else .inl (.check (typesOf (itertypes (ts.flatMap (itemFound W)))))
    | .slice => .inr (.ok o)
    | .call => if ts.any (callable W) then .inl (.check .any) else .inr (.error .notCallable)

/-- Is what `placeholder` returns stored in the placeholder at hand (empty.py:78, 122), rather than returned
(empty.py:102)? -/
def stored : Op → Bool
  | .attr _ | .item => true
  | .slice | .call => false

/-- Fill the cache (empty.py:78, 122). -/
def fill (h : Heap) (o j : Nat) : Op → Heap
  | .attr nm => remember h o nm j
  | .item => rememberMember h o j
  | .slice | .call => h

/-- Read the cache (empty.py:86, 125). -/
def cached (ob : Obj) : Op → Option Nat
  | .attr nm => alookup ob.attrs nm
  | .item => ob.member
  | .slice | .call => none

/-- Next step of operation `op` on the placeholder `o` (empty.py:9-16, 60-125).  `badId` stands for what cannot be. -/
def step (o : Nat) (op : Op) (h : Heap) : Pc → (Pc ⊕ Except EErr Nat) × Heap
  | .start =>
    match h.objs[o]? with
    | none => (.inr (.error .badId), h)
    | some ob => (first W o ob op, h)
  | .check t => (.inl (if (alookup h.vals t).isSome then .look t else .make t), h)
  | .make t => (.inl (.enter t h.objs.length), { h with objs := h.objs ++ [{ types := t }] })
  | .enter t j => (.inl (.look t), { h with vals := aset h.vals t j })
  | .look t =>
    match alookup h.vals t with
    | none => (.inr (.error .badId), h)
    | some j => (if stored op then .inl (.store j) else .inr (.ok j), h)
  | .store j => (.inl .fetch, fill h o j op)
  | .fetch =>
    match h.objs[o]? with
    | none => (.inr (.error .badId), h)
    | some ob =>
      match cached ob op with
      | none => (.inr (.error .badId), h)
      | some j => (.inr (.ok j), h)

/-- The thread after a step. -/
def advance (t : Thread) (ops : List Op) : Pc ⊕ Except EErr Nat → Thread
  | .inl pc => { t with pc := pc }
  | .inr (.ok j) => { t with obj := j, todo := ops, pc := .start }
  | .inr (.error e) => { t with failed := some e }

/-- Thread `i` takes a step; nothing happens if there is no such thread or it has ended. -/
def tick (s : Sys) (i : Nat) : Sys :=
  match s.threads[i]? with
  | none => s
  | some t =>
    match t.failed, t.todo with
    | none, op :: ops =>
      { heap := (step W t.obj op s.heap t.pc).2
        threads := s.threads.set i (advance t ops (step W t.obj op s.heap t.pc).1) }
    | _, _ => s

/-- The threads take steps in the order given by a schedule. -/
def run (s : Sys) (sched : List Nat) : Sys := sched.foldl (tick W) s

/-- The threads before their first step: each has a placeholder and a chain of operations. -/
def begin (h : Heap) (cs : List (Nat × List Op)) : Sys := ⟨h, cs.map (fun c => { obj := c.1, todo := c.2 })⟩

end Normalize.EmptyThreads
