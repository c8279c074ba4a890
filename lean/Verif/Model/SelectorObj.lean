import Verif.Model.Selector

/-!
# Field selectors as objects

Models `/repo/normalize/selector.py:42-118` and `361-457`: a `FieldSelector` is an object with an attribute `selectors`,
a list, which `add_property`, `add_index`, `add_full_collection` and `extend` change in place.
-/

namespace Normalize.SelObj

/-- The contents of a list of components. -/
abbrev Row := List RawComp

/-- The lists in memory by address, and for every field selector the address of its `selectors` (selector.py:64). -/
structure Mem where
  lists : List Row
  objs : List Nat
  deriving DecidableEq, Repr

/-- What is in the list `selectors` of the object.  Objects that do not exist have no components; no program has
them. -/
def Mem.row (m : Mem) (i : Nat) : Row :=
  match m.objs[i]? with
  | some a => m.lists.getD a []
  | none => []

/-- What a program does with selectors; objects are numbered in the order in which they were made. -/
inductive Op
  /-- `FieldSelector(xs)` of an iterable that is no selector -/
  | make (xs : Row)
  /-- `FieldSelector(other)` -/
  | remake (i : Nat)
  | addProperty (i : Nat) (e : RawComp)
  | addIndex (i : Nat) (e : RawComp)
  | addFullCollection (i : Nat)
  /-- `a.extend(b)` -/
  | extend (i j : Nat)
  /-- `a + b` -/
  | plus (i j : Nat)
  /-- `a + xs` of an iterable that is no selector -/
  | plusItems (i : Nat) (xs : Row)
  /-- `a + x` of anything else -/
  | plusComp (i : Nat) (e : RawComp)
  /-- `a[lo:hi]` -/
  | slice (i : Nat) (lo hi : Option Int)
  /-- `copy.copy(a)` -/
  | copy (i : Nat)
  /-- `copy.deepcopy(a)` or `pickle.loads(pickle.dumps(a))` -/
  | deepcopy (i : Nat)
  deriving DecidableEq, Repr

/-- A new selector whose list is new.  `__init__` makes an empty list first and drops it (selector.py:64, 83), which is
left out. -/
def newObj (m : Mem) (r : Row) : Mem × Except Exc (Option Nat) :=
  (⟨m.lists ++ [r], m.objs ++ [m.lists.length]⟩, .ok (some m.objs.length))

/-- `FieldSelector(expr)` of these components (selector.py:54-83): `expr_selectors[:]` is a new list. -/
def construct (m : Mem) (r : Row) : Mem × Except Exc (Option Nat) :=
  match FS.init r with
  | .ok r => newObj m r
  | .error e => (m, .error e)

/-- The list of the object gets these contents: `self.selectors.append(x)` and `self.selectors.extend(xs)`
(selector.py:92, 99, 104, 111). -/
def Mem.store (m : Mem) (i : Nat) (r : Row) : Mem :=
  match m.objs[i]? with
  | some a => { m with lists := m.lists.set a r }
  | none => m

/-- A method that changes the list or raises, and returns `None` (selector.py:85-104). -/
def inPlace (m : Mem) (i : Nat) (x : Except Exc Row) : Mem × Except Exc (Option Nat) :=
  match x with
  | .ok r => (m.store i r, .ok none)
  | .error e => (m, .error e)

/-- `extend` (selector.py:106-112), which returns the object itself. -/
def extendObj (m : Mem) (i j : Nat) : Mem × Except Exc (Option Nat) :=
  (m.store i (FS.extend (m.row i) (m.row j)), .ok (some i))

/-- `type(self)(self).extend(other)` (selector.py:434-435): a `FieldSelector` has no `__iter__`, so it is not an
`Iterable`.  The list of `other` is read before the new object is made here, which makes no difference to it. -/
def plusObj (m : Mem) (i j : Nat) : Mem × Except Exc (Option Nat) :=
  match construct m (m.row i) with
  | (m', .ok (some k)) => (m'.store k (FS.extend (m'.row k) (m.row j)), .ok (some k))
  | (m', x) => (m', x)

/-- `self.selectors[key]` for a slice with step 1. -/
def rowSlice (a : Row) (lo hi : Option Int) : Row :=
  (a.take ((hi.map (FS.clampIdx a.length)).getD a.length)).drop ((lo.map (FS.clampIdx a.length)).getD 0)

/-- One step of the program.  Pickling and `deepcopy` make the object with `object.__new__`, which ignores the arguments
of `__getnewargs__` (selector.py:114-118) as the class has an `__init__`, and then give it a copy of the instance dict;
`copy.copy` gives it the same list. -/
def step (m : Mem) : Op → Mem × Except Exc (Option Nat)
  | .make xs => construct m xs
  | .remake i => construct m (m.row i)
  | .addProperty i e => inPlace m i (FS.addProperty (m.row i) e)
  | .addIndex i e => inPlace m i (FS.addIndex (m.row i) e)
  | .addFullCollection i => inPlace m i (.ok (FS.addFullCollection (m.row i)))
  | .extend i j => extendObj m i j
  | .plus i j => plusObj m i j
  | .plusItems i xs => construct m (m.row i ++ xs)
  | .plusComp i (.ok (.str s)) => construct m (m.row i ++ [.ok (.str s)])
  | .plusComp i (.ok (.int n)) => construct m (m.row i ++ [.ok (.int n)])
  | .plusComp _ _ => (m, .error .typeError)
  | .slice i lo hi => construct m (rowSlice (m.row i) lo hi)
  | .copy i =>
    match m.objs[i]? with
    | some a => (⟨m.lists, m.objs ++ [a]⟩, .ok (some m.objs.length))
    | none => newObj m []
  | .deepcopy i => newObj m (m.row i)

/-- A program: what it leaves in memory, and what every step returned or raised. -/
def run (m : Mem) : List Op → Mem × List (Except Exc (Option Nat))
  | [] => (m, [])
  | op :: ops => ((run (step m op).1 ops).1, (step m op).2 :: (run (step m op).1 ops).2)

/-- No selectors. -/
def start : Mem := ⟨[], []⟩

/-! ## Comparing -/

/-- What a selector may be compared with. -/
inductive Thing
  | sel (i : Nat)
  /-- something else; whether it has an attribute `selectors`, and if so what -/
  | other (n : Nat) (selectors : Option Row)
  deriving DecidableEq, Repr

/-- `fs == thing` (selector.py:361-368).  Components that are no strings, ints or `None`, which are falsy (see C11), count as
equal. -/
def eqThing (m : Mem) (i : Nat) : Thing → Except Exc Bool
  | .sel j => .ok (decide (m.row i = m.row j))
  | .other _ _ => .error .typeError

/-- `fs != thing` (selector.py:373-379). -/
def neThing (m : Mem) (i : Nat) : Thing → Except Exc Bool
  | .sel j => .ok (decide (m.row i ≠ m.row j))
  | .other _ (some r) => .ok (decide (m.row i ≠ r))
  | .other _ none => .error .attributeError

/-- `fs in things` for a python list: identical objects are found without comparing. -/
def inList (m : Mem) (i : Nat) : List Thing → Except Exc Bool
  | [] => .ok false
  | t :: ts =>
    if t = .sel i then .ok true
    else
      match eqThing m i t with
      | .ok true => .ok true
      | .ok false => inList m i ts
      | .error e => .error e

/-- `hash(fs)` is `object.__hash__` (selector.py:370-371): it depends on which object it is. -/
def hashOf (H : Nat → Int) (i : Nat) : Int := H i

/-- `d.get(fs)` for a python dict with these keys and values: a key is taken if it has the same hash, and is the same
object or equal.  The dict has the hashes that the keys had when they were stored, which are those they have now. -/
def dictGet {V : Type} (H : Nat → Int) (m : Mem) (i : Nat) : List (Nat × V) → Option V
  | [] => none
  | (j, v) :: d =>
    if hashOf H j = hashOf H i ∧ (j = i ∨ m.row j = m.row i) then some v else dictGet H m i d

end Normalize.SelObj
