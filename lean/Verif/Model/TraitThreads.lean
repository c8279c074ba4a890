import Verif.Model.Traits

/-!
# Choosing the type of a property, several threads

Models `has`, `create_property_type_from_traits` and `MetaProperty.__new__`
(`/repo/normalize/property/meta.py:36-113, 131-216, 224-266`) as a program of atomic steps, so that threads that declare
properties, or types of properties, may interleave.  A step is one access to `PROPERTY_TYPES`.

Threads call `Property(...)` itself, whose `__new__` calls that of `object` next; `Verif.Model.Traits`, which models the
same code for one thread, has the other types.  Simplifications: the traits that are wanted are found in one step,
although `DUCKWARGS` is read for each argument; a new type is entered into `PROPERTY_TYPES` and `DUCKWARGS` in one step.
-/

namespace Normalize.TraitThreads

open Normalize.Traits

/-- The local variables of `create_property_type_from_traits` (property/meta.py:143-172): what is wanted, the keys of
`stock_types`, `longest`, `made_type`, and the rest of `sorted(start_with)`. -/
structure Frame where
  key : List String
  stock : List (List String)
  longest : Nat
  made : Bool
  bases : List (List String)
  deriving DecidableEq, Repr

/-- Where a thread is. -/
inductive Pc
  /-- before `has` (property/meta.py:54) -/
  | start (kw : List (String × Kw))
  /-- before `trait_set_key not in PROPERTY_TYPES` (property/meta.py:105) -/
  | test (key : List String)
  /-- before `list(PROPERTY_TYPES.items())` (property/meta.py:144-147) -/
  | snap (key : List String)
  /-- before `while trait_set not in PROPERTY_TYPES` (property/meta.py:160) -/
  | loop (key : List String) (stock : List (List String))
  /-- in `for other in sorted(stock_types.keys())`, with what is left of them: before `mixed_traits in PROPERTY_TYPES`
  (property/meta.py:185-199) -/
  | scan (f : Frame) (base : List String) (others : List (List String)) (sf : Nat) (mix : Option (List String × List String))
      (last : Option (List String))
  /-- before `PROPERTY_TYPES[base]` (property/meta.py:202) -/
  | base (f : Frame) (base other product : List String)
  /-- before `PROPERTY_TYPES[other]` (property/meta.py:203) -/
  | other (f : Frame) (bt : Nat) (other product : List String)
  /-- in `MetaProperty.__new__`, called from there or by a class statement: before `traits in PROPERTY_TYPES`
  (property/meta.py:251) -/
  | check (d : Decl) (f : Option (Frame × List String))
  /-- before `PROPERTY_TYPES[self.traits] = self` (property/meta.py:261) -/
  | make (d : Decl) (f : Option (Frame × List String))
  /-- before `PROPERTY_TYPES[trait_set_key]` (property/meta.py:107) -/
  | final (key : List String)
  /-- the type of the property, or the new type -/
  | done (i : Nat)
  | failed (e : PErr)
  deriving DecidableEq, Repr

/-- `PROPERTY_TYPES[k] = i` -/
def setT : List (List String × Nat) → List String → Nat → List (List String × Nat)
  | [], k, i => [(k, i)]
  | (k', j) :: rest, k, i => if k' = k then (k', i) :: rest else (k', j) :: setT rest k i

/-- The next round of `for base in sorted(start_with)`, or the end of the loop (property/meta.py:174-180, 211-216). -/
def nextBase (key : List String) (stock : List (List String)) (longest : Nat) (made : Bool) : List (List String) → Pc
  | [] => if made then .loop key stock else .failed .mixinFailure
  | b :: bs =>
    if b.length ≠ longest then nextBase key stock longest made bs
    else .scan ⟨key, stock, longest, made, bs⟩ b (sortK stock) (key.length - b.length) none none

/-- The thread goes on after the creation of a type (property/meta.py:208-210). -/
def resume (i : Nat) : Option (Frame × List String) → Pc
  | none => .done i
  | some (f, product) => nextBase f.key (addKey f.stock product) f.longest true f.bases

/-- The new type, entered without a look at what is there (property/meta.py:257-265). -/
def makeType (r : Reg) (d : Decl) : Except PErr Nat × Reg :=
  match ClassMeta.merge (ClassMeta.total (d.bases.map (mroT r) ++ [d.bases])) (d.bases.map (mroT r) ++ [d.bases]) with
  | none => (.error .mroConflict, r)
  | some m =>
    (.ok r.types.length,
      { types := r.types ++ [{ traits := newTraits r d, trait := d.trait, mro := r.types.length :: m, own := d.own,
                               safe := d.safe, defaults := d.defaults, args := d.args,
                               allArgs := d.args ++ d.bases.flatMap (allArgsT r) }]
        reg := setT r.reg (newTraits r d) r.types.length
        duck := r.duck ++ (if d.trait.isSome then d.args.map (fun a => (a, newTraits r d, r.types.length)) else []) })

/-- One more type is looked at (property/meta.py:185-199). -/
def scanStep (r : Reg) (f : Frame) (base o : List String) (os : List (List String)) (sf : Nat)
    (mix : Option (List String × List String)) : Pc :=
  if (lookupT r.reg (norm (base ++ o))).isSome then .scan f base os sf mix (some o)
  else if shortfall f.key (base ++ o) < sf then
    if shortfall f.key (base ++ o) = 0 then .base f base o (norm (base ++ o))
    else .scan f base os (shortfall f.key (base ++ o)) (some (o, norm (base ++ o))) (some o)
  else .scan f base os sf mix (some o)

/-- After the loop over the types (property/meta.py:201). -/
def scanEnd (f : Frame) (base : List String) : Option (List String × List String) → Option (List String) → Pc
  | some (_, product), some other => .base f base other product
  | _, _ => nextBase f.key f.stock f.longest f.made f.bases

/-- The types to choose from are known (property/meta.py:149-158). -/
def snapStep (r : Reg) (key : List String) : Pc :=
  match missing r key with
  | _ :: _ => .failed .mixinNotPossible
  | [] => .loop key (stockTypes r key)

/-- The head of the `while` loop (property/meta.py:160-174). -/
def loopStep (r : Reg) (key : List String) (stock : List (List String)) : Pc :=
  if (lookupT r.reg key).isSome then .final key
  else
    match startWith key stock with
    | [] => .failed .valueError
    | k :: ks => nextBase key stock (maxLen (k :: ks)) false (sortK (k :: ks))

/-- The check for a clash (property/meta.py:251-256). -/
def checkStep (r : Reg) (d : Decl) (f : Option (Frame × List String)) : Pc :=
  if d.bases.any (fun b => decide (r.types.length ≤ b)) then .failed .badId
  else if (lookupT r.reg (newTraits r d)).isSome then .failed .typeClash
  else .make d f

/-- The wanted traits (property/meta.py:55-103). -/
def startStep (r : Reg) (kw : List (String × Kw)) : Pc :=
  match traitKey r 0 (mixKw (defaultsT r 0) kw) with
  | .error e => .failed e
  | .ok key => .test key

/-- `PROPERTY_TYPES[key]`, and what to do with it. -/
def found (r : Reg) (key : List String) (k : Nat → Pc) : Pc :=
  match lookupT r.reg key with
  | none => .failed .keyError
  | some i => k i

/-- The result of the creation of a type. -/
def madeStep (f : Option (Frame × List String)) : Except PErr Nat × Reg → Reg × Pc
  | (.error e, r) => (r, .failed e)
  | (.ok i, r) => (r, resume i f)

/-- One step of one thread (property/meta.py:36-113, 131-216, 224-266). -/
def step (r : Reg) : Pc → Reg × Pc
  | .start kw => (r, startStep r kw)
  | .test key => (r, if (lookupT r.reg key).isSome then .final key else .snap key)
  | .snap key => (r, snapStep r key)
  | .loop key stock => (r, loopStep r key stock)
  | .scan f b (o :: os) sf mix _ => (r, scanStep r f b o os sf mix)
  | .scan f b [] _ mix last => (r, scanEnd f b mix last)
  | .base f b o p => (r, found r b (fun bt => .other f bt o p))
  | .other f bt o p => (r, found r o (fun ot => .check { bases := [bt, ot] } (some (f, p))))
  | .check d f => (r, checkStep r d f)
  | .make d f => madeStep f (makeType r d)
  | .final key => (r, found r key .done)
  | .done i => (r, .done i)
  | .failed e => (r, .failed e)

/-- The property types, and the threads. -/
structure Sys where
  reg : Reg
  threads : List Pc
  deriving DecidableEq, Repr

/-- One step of the thread `i`. -/
def tick (s : Sys) (i : Nat) : Sys :=
  match s.threads[i]? with
  | none => s
  | some pc => ⟨(step s.reg pc).1, s.threads.set i (step s.reg pc).2⟩

/-- A schedule: which thread makes each step. -/
def run (s : Sys) : List Nat → Sys
  | [] => s
  | i :: is => run (tick s i) is

/-- Threads that each call `Property(...)`. -/
def begin_ (r : Reg) (calls : List (List (String × Kw))) : Sys := ⟨r, calls.map .start⟩

/-- Threads that each run a class statement. -/
def beginTypes (r : Reg) (ds : List Decl) : Sys := ⟨r, ds.map (fun d => .check d none)⟩

end Normalize.TraitThreads
