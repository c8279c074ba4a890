import Verif.Model.Exc

/-!
# FieldSelector as a list of components

Models the parts of `/repo/normalize/selector.py:42-500` that do not touch a record.
-/

namespace Normalize

/-- A `FieldSelector`; only its `selectors` list is modelled (selector.py:64). -/
abbrev FS := List Comp

namespace Comp

/-- `type(self_selector) != type(other_selector)` (selector.py:394). -/
def sameType : Comp → Comp → Bool
  | str _, str _ => true
  | int _, int _ => true
  | none, none => true
  | _, _ => false

/-- `self_selector < other_selector` for components of one type (selector.py:402).  `None < None` is a
`TypeError` in python but is never evaluated, because equal components were skipped before; it is
`false` here. -/
def ltSame : Comp → Comp → Bool
  | str a, str b => decide (a < b)
  | int a, int b => decide (a < b)
  | _, _ => false

end Comp

namespace FS

/-- `FieldSelector.__eq__` between two selectors (selector.py:361-368). -/
def eq (a b : FS) : Bool := decide (a = b)

/-- `FieldSelector.__ne__` (selector.py:373-379). -/
def ne (a b : FS) : Bool := decide (a ≠ b)

/-- `FieldSelector.__lt__` (selector.py:381-406).  The index loop over the common length is a
simultaneous recursion; when it runs out, lengths are compared. -/
def lt : FS → FS → Except Exc Bool
  | x :: xs, y :: ys =>
    if x = y then lt xs ys
    else if !Comp.sameType x y then .error .typeError
    else .ok (Comp.ltSame x y)
  | [], [] => .ok false
  | [], _ :: _ => .ok true
  | _ :: _, [] => .ok false

/-- `__le__` as generated by `functools.total_ordering` from `__lt__` (selector.py:42):
`op_result or self == other`. -/
def le (a b : FS) : Except Exc Bool := do
  let r ← lt a b
  return r || eq a b

/-- `__gt__` as generated by `functools.total_ordering` (selector.py:42):
`not op_result and self != other`. -/
def gt (a b : FS) : Except Exc Bool := do
  let r ← lt a b
  return !r && ne a b

/-- `__ge__` as generated by `functools.total_ordering` (selector.py:42): `not op_result`. -/
def ge (a b : FS) : Except Exc Bool := do
  let r ← lt a b
  return !r

/-- `FieldSelector.__add__` with another selector or a list of components (selector.py:417-439);
a `FieldSelector` is iterable (through `__getitem__`/`__len__`) or extended, with the same result. -/
def add (a b : FS) : FS := a ++ b

/-- `FieldSelector.__add__` with a single string or int (selector.py:430-431). -/
def addComp (a : FS) (c : Comp) : FS := a ++ [c]

/-- Python's clamping of a slice bound for a sequence of length `n`. -/
def clampIdx (n : Nat) (i : Int) : Nat :=
  if i < 0 then (i + n).toNat else min i.toNat n

/-- `fs[i:j]` with step 1 and optional bounds (selector.py:454-455). -/
def slice (a : FS) (i j : Option Int) : FS :=
  let lo := match i with | some i => clampIdx a.length i | .none => 0
  let hi := match j with | some j => clampIdx a.length j | .none => a.length
  (a.take hi).drop lo

/-- `fs[i]` (selector.py:456-457): python list indexing. -/
def item (a : FS) (i : Int) : Except Exc Comp :=
  let k : Int := if i < 0 then i + a.length else i
  if k < 0 then .error .indexError
  else match a[k.toNat]? with
    | some c => .ok c
    | Option.none => .error .indexError

/-- `FieldSelector.startswith` with a selector, list or tuple (selector.py:474-479).  `all(...)` over
`key_or_fs[i] == self.selectors[i]` stops at the first mismatch and raises `IndexError` when it runs
past the end of `self.selectors`. -/
def startsWith : FS → FS → Except Exc Bool
  | _, [] => .ok true
  | [], _ :: _ => .error .indexError
  | x :: xs, p :: ps => if p = x then startsWith xs ps else .ok false

/-- `FieldSelector.startswith` with a single component (selector.py:480-481). -/
def startsWithComp : FS → Comp → Except Exc Bool
  | [], _ => .error .indexError
  | x :: _, c => .ok (decide (x = c))

end FS

/-- What may be passed as one element of a selector expression: a valid component, or some other python
object of which only the truth value matters (selector.py:73-77). -/
inductive RawComp
  | ok (c : Comp)
  | bad (truthy : Bool)
  deriving DecidableEq, Repr

/-- `isinstance(e, str) or isinstance(e, int) or e is None` (selector.py:75). -/
def RawComp.valid : RawComp → Bool
  | ok _ => true
  | bad _ => false

/-- Truth value of an element. -/
def RawComp.truthy : RawComp → Bool
  | ok (.str s) => decide (s ≠ "")
  | ok (.int i) => decide (i ≠ 0)
  | ok .none => false
  | bad b => b

/-- `FieldSelector.__init__` (selector.py:54-83) on an iterable of elements.  `any(e for e in … if not
valid)` looks at the truth value of the invalid elements themselves. -/
def FS.init (expr : List RawComp) : Except Exc (List RawComp) :=
  if (expr.filter (fun e => !e.valid)).any RawComp.truthy then .error .valueError
  else .ok expr

/-- `add_property` (selector.py:85-92). -/
def FS.addProperty (a : List RawComp) (e : RawComp) : Except Exc (List RawComp) :=
  match e with
  | .ok (.str _) => .ok (a ++ [e])
  | _ => .error .valueError

/-- `add_index` (selector.py:94-99). -/
def FS.addIndex (a : List RawComp) (e : RawComp) : Except Exc (List RawComp) :=
  match e with
  | .ok (.int _) => .ok (a ++ [e])
  | _ => .error .valueError

/-- `add_full_collection` (selector.py:101-104). -/
def FS.addFullCollection (a : List RawComp) : List RawComp := a ++ [.ok .none]

/-- `extend` (selector.py:106-112). -/
def FS.extend (a b : List RawComp) : List RawComp := a ++ b

end Normalize
