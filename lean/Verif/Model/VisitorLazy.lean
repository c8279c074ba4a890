import Verif.Model.Val

/-!
# The generators of a visit

Models `/repo/normalize/visitor.py:590-689` as what happens when: `map_record` and `map_collection` are generators, which a
`reduce` or `aggregate` (or `produce`, `collect`, …) of a sub-class may consume when it likes, or hand on.  `Model/Visitor` has
the case where it consumes them at once.
-/

namespace Normalize.VisitGen

/-- What is visited, as it is unpacked: a value that is given to `apply`, a record, or a collection, with properties if
`unpack` gives a function for them. -/
inductive Node
  | leaf
  | rcd (props : List (Comp × Node))
  | coll (items : List (Comp × Node)) (props : Option (List (Comp × Node)))

/-- A generator object. -/
structure Gen where
  /-- made by `map_collection`, not `map_record` -/
  isColl : Bool := false
  /-- the argument `visitor` -/
  parent : Nat := 0
  /-- the variable `rv`; unset before the generator is started (visitor.py:643, 679) -/
  own : Option Nat := none
  /-- what it has still to map -/
  rest : List (Comp × Node) := []
  /-- the key that is pushed on `rv`, and the generators that were made for what is there -/
  cur : Option (Comp × List Nat) := none
  /-- where the object is that it maps (not in the program) -/
  place : List Comp := []

/-- A call of `map` that is not over: `aggregate` or `reduce` is running. -/
structure Frame where
  /-- the generator that called it, if it is not the outermost -/
  gen : Option Nat
  /-- the argument `visitor` -/
  visitor : Nat
  /-- where the object is (not in the program) -/
  place : List Comp
  /-- the properties, while `aggregate` is running -/
  pending : Option (List (Comp × Node))

/-- The state of a visit: the cues of the visitors, the generators, the calls that are not over, and what `apply` and the
filter were called with: where the value is, and the cue they saw. -/
structure St where
  nV : Nat := 1
  cue : Nat → List Comp := fun _ => []
  nG : Nat := 0
  gen : Nat → Gen := fun _ => {}
  stack : List Frame := []
  applied : List (List Comp × List Comp) := []
  asked : List (List Comp × List Comp) := []

/-- What the functions of the sub-class do, and whoever has their results: take the next item of a generator, or return. -/
inductive Ev
  | next (g : Nat)
  | ret
  deriving DecidableEq, Repr

/-- `d[k] = v` -/
def upd {α : Type} (f : Nat → α) (i : Nat) (a : α) : Nat → α := fun j => if j = i then a else f j

/-- Remember that the generator `h` was made for what `g` is at. -/
def remember (h : Nat) (G : Gen) : Gen := { G with cur := G.cur.map (fun c => (c.1, h :: c.2)) }

/-- A generator is made and handed to the function that the call runs (visitor.py:619-633). -/
def handOut (s : St) (f : Frame) (isColl : Bool) (xs : List (Comp × Node)) : St :=
  { s with
    nG := s.nG + 1
    gen := upd (match f.gen with | some g => upd s.gen g (remember s.nG (s.gen g)) | none => s.gen) s.nG
      { isColl := isColl, parent := f.visitor, rest := xs, place := f.place } }

/-- `map(visitor, value, value_type)` up to the call of `aggregate` or `reduce` (visitor.py:607-639).  Values are given to
`apply` elsewhere. -/
def begin (s : St) (g : Option Nat) (v : Nat) (p : List Comp) : Node → St
  | .leaf => s
  | .rcd ps => handOut { s with stack := ⟨g, v, p, none⟩ :: s.stack } ⟨g, v, p, none⟩ false ps
  | .coll xs ps => handOut { s with stack := ⟨g, v, p, ps⟩ :: s.stack } ⟨g, v, p, ps⟩ true xs

/-- The generator with its own visitor. -/
def Gen.withOwn (G : Gen) (r : Nat) : Gen := { G with own := some r }

/-- The generator with what is left, and the item it is at. -/
def Gen.withPos (G : Gen) (rest : List (Comp × Node)) (cur : Option (Comp × List Nat)) : Gen := { G with rest := rest, cur := cur }

/-- `rv = visitor.copy()` (visitor.py:105-119, 643, 679) -/
def start (s : St) (g : Nat) : St :=
  match (s.gen g).own with
  | some _ => s
  | none =>
    { s with
      nV := s.nV + 1
      cue := upd s.cue s.nV (s.cue (s.gen g).parent)
      gen := upd s.gen g ((s.gen g).withOwn s.nV) }

/-- The cue after `rv.pop(name)`, if the generator is at a property that it yielded (visitor.py:675). -/
def popped (s : St) (g r : Nat) : List Comp := if (s.gen g).cur.isSome then (s.cue r).dropLast else s.cue r

/-- The generator gets here: its cue, what is left, and the item it is at. -/
def moveTo (s : St) (g r : Nat) (cue : List Comp) (rest : List (Comp × Node)) (cur : Option (Comp × List Nat)) : St :=
  { s with cue := upd s.cue r cue, gen := upd s.gen g ((s.gen g).withPos rest cur) }

/-- The next item: `map_record` is suspended before it pops the name (visitor.py:674-675), `map_collection` afterwards
(visitor.py:681-689).  Items that are left out (`ignore_none`, `ignore_empty_string`) are yielded here; the generator goes
on, as if it was asked for the next at once.  Errors are not modelled. -/
def advance (s : St) (g r : Nat) (base : List Comp) : List (Comp × Node) → St
  | [] => moveTo s g r base [] none
  | (k, .leaf) :: rest =>
    { (if (s.gen g).isColl then moveTo s g r base rest none else moveTo s g r (base ++ [k]) rest (some (k, []))) with
      applied := s.applied ++ [((s.gen g).place ++ [k], base ++ [k])] }
  | (k, v) :: rest => begin (moveTo s g r (base ++ [k]) rest (some (k, []))) (some g) r ((s.gen g).place ++ [k]) v

/-- `is_filtered` (visitor.py:88-91) skips properties of records (visitor.py:645-646); `keep` is the filter. -/
def remaining (keep : List Comp → Bool) (s : St) (g : Nat) (base : List Comp) : List (Comp × Node) :=
  if (s.gen g).isColl then (s.gen g).rest else (s.gen g).rest.dropWhile (fun e => !keep (base ++ [e.1]))

/-- What the filter is asked about on the way. -/
def questions (keep : List Comp → Bool) (s : St) (g : Nat) (base : List Comp) : List (List Comp × List Comp) :=
  if (s.gen g).isColl then []
  else
    ((s.gen g).rest.takeWhile (fun e => !keep (base ++ [e.1])) ++
      ((s.gen g).rest.dropWhile (fun e => !keep (base ++ [e.1]))).take 1).map
      (fun e => ((s.gen g).place ++ [e.1], base ++ [e.1]))

/-- The generator goes on. -/
def resume (keep : List Comp → Bool) (s : St) (g : Nat) : St :=
  match (s.gen g).own with
  | none => s
  | some r =>
    advance { s with asked := s.asked ++ questions keep s g (popped s g r) } g r (popped s g r)
      (remaining keep s g (popped s g r))

/-- `aggregate` or `reduce` returns.  After `aggregate` comes `reduce` (visitor.py:624-639); then `map` is over, and the
generator that called it yields (visitor.py:668-674, 681-689). -/
def return_ (s : St) : St :=
  match s.stack with
  | [] => s
  | f :: st =>
    match f.pending, f.gen with
    | some ps, _ => handOut { s with stack := { f with pending := none } :: st } f false ps
    | none, some g =>
      if (s.gen g).isColl then
        moveTo { s with stack := st } g f.visitor (s.cue f.visitor).dropLast (s.gen g).rest none
      else { s with stack := st }
    | none, none => { s with stack := st }

/-- One thing happens.  A generator that is running cannot be asked for the next item (python raises `ValueError`). -/
def step (keep : List Comp → Bool) (s : St) : Ev → St
  | .next g => if g < s.nG ∧ some g ∉ s.stack.map (·.gen) then resume keep (start s g) g else s
  | .ret => return_ s

/-- `visit` and `cast` (visitor.py:182-193, 379-384), up to the first call of `aggregate` or `reduce`. -/
def visiting (v : Node) : St := begin {} none 0 [] v

/-- A history. -/
def run (keep : List Comp → Bool) (s : St) : List Ev → St
  | [] => s
  | e :: es => run keep (step keep s e) es

end Normalize.VisitGen
