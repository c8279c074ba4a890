import Verif.Model.Selector
import Verif.Model.Util

/-!
# MultiFieldSelector: construction, membership, subscripting, iteration

Models `/repo/normalize/selector.py:558-782, 913-917` (the parts that do not touch an object).
-/

namespace Normalize

/-- What a head of a `MultiFieldSelector` maps to (selector.py:596-599): the builtin `all`, or another
`MultiFieldSelector`, of which only `heads` is kept (a dict, here an association list in insertion
order). -/
inductive MTree
  | all
  | node (heads : List (Comp × MTree))

/-- The `heads` dict of a `MultiFieldSelector`. -/
abbrev Heads := List (Comp × MTree)

/-- A constructor argument (selector.py:578-585): another `MultiFieldSelector`, or a `FieldSelector` (or
anything `FieldSelector(...)` accepts). -/
inductive MArg
  | fs (q : FS)
  | mfs (h : Heads)

namespace Mfs

/-- dict lookup in `heads`. -/
def lookup (h : Heads) (c : Comp) : Option MTree :=
  (h.find? (fun e => decide (e.1 = c))).map (·.2)

/-- `has_int` (selector.py:603). -/
def hasInt (h : Heads) : Bool := h.any (fun e => match e.1 with | .int _ => true | _ => false)

/-- `has_string` (selector.py:604). -/
def hasString (h : Heads) : Bool := h.any (fun e => match e.1 with | .str _ => true | _ => false)

/-- `has_none` (selector.py:605). -/
def hasNone (h : Heads) : Bool := h.any (fun e => match e.1 with | .none => true | _ => false)

/-- `complete` (selector.py:606): `has_none and heads[None] is all`. -/
def complete (h : Heads) : Bool :=
  hasNone h && (match lookup h .none with | some .all => true | _ => false)

/-- A member of the set collected under one head (selector.py:577, 581, 592, 594): `all` or something
that is passed on to the nested constructor. -/
inductive Tail
  | all
  | arg (a : MArg)

/-- What is collected from a `FieldSelector` argument (selector.py:587-594). -/
def fsEntry : FS → Comp × Tail
  | [] => (.none, .all)
  | [c] => (c, .all)
  | c :: d :: r => (c, .arg (.fs (d :: r)))

/-- What is collected from a `MultiFieldSelector` argument (selector.py:579-581). -/
def mfsEntry : Comp × MTree → Comp × Tail
  | (c, .all) => (c, .all)
  | (c, .node h) => (c, .arg (.mfs h))

/-- The `(head, tail)` pairs in the order they are added to `heads` (selector.py:578-594): first those of
the `MultiFieldSelector` arguments, then those of the selectors. -/
def entries (args : List MArg) : List (Comp × Tail) :=
  (args.flatMap fun a => match a with | .mfs h => h.map mfsEntry | .fs _ => []) ++
  (args.flatMap fun a => match a with | .fs q => [fsEntry q] | .mfs _ => [])

/-- First-occurrence order of the heads (insertion order of the defaultdict). -/
def headKeys : List (Comp × Tail) → List Comp
  | [] => []
  | e :: es => e.1 :: (headKeys es).filter (fun c => decide (c ≠ e.1))

/-- The tails collected under one head. -/
def tailsOf (es : List (Comp × Tail)) (c : Comp) : List Tail :=
  (es.filter (fun e => decide (e.1 = c))).map (·.2)

/-- `all in tail`. -/
def anyAll (ts : List Tail) : Bool := ts.any (fun t => match t with | .all => true | _ => false)

/-- Arguments for the nested constructor. -/
def tailArgs (ts : List Tail) : List MArg :=
  ts.filterMap (fun t => match t with | .all => none | .arg a => some a)

/-- The sanity assertion (selector.py:602-612). -/
def sane (h : Heads) : Bool := !(hasNone h && (hasInt h || hasString h))

/-- `MultiFieldSelector.__init__` (selector.py:565-612).  `ord` is the iteration order of the python set
collected under each head (any function returning the same members).  `fuel` bounds the nesting; `init`
below supplies enough (`Verif.Lemmas.Mfs`, `buildN_enough`).  The condition `heads[None] is not all` of
line 599 is always true (a set is never `all`), so only the first branch is modelled. -/
def buildN (ord : List MArg → List MArg) : Nat → List MArg → Except Exc Heads
  | 0, _ => .error .assertionError
  | n + 1, args =>
    let es := entries args
    let heads := mapE (fun c =>
      let ts := tailsOf es c
      if anyAll ts then .ok (c, MTree.all)
      else match buildN ord n (ord (tailArgs ts)) with
        | .ok sub => .ok (c, MTree.node sub)
        | .error e => .error e) (headKeys es)
    match heads with
    | .error e => .error e
    | .ok h => if sane h then .ok h else .error .valueError

mutual
/-- Nesting depth of a head's target. -/
def depth : MTree → Nat
  | .all => 0
  | .node h => depthL h + 1
/-- Nesting depth of a `heads` dict. -/
def depthL : List (Comp × MTree) → Nat
  | [] => 0
  | (_, t) :: es => max (depth t) (depthL es)
end

/-- Nesting an argument can cause. -/
def argDepth : MArg → Nat
  | .fs q => q.length
  | .mfs h => depthL h

/-- Enough fuel for `buildN`. -/
def fuelFor (args : List MArg) : Nat := args.foldr (fun a n => max (argDepth a) n) 0 + 1

/-- `MultiFieldSelector(*others)` (selector.py:565-612). -/
def init (ord : List MArg → List MArg) (args : List MArg) : Except Exc Heads :=
  buildN ord (fuelFor args) args

/-- `heads` of `complete_mfs()` = `MultiFieldSelector([None])` (selector.py:913-917); the caching in a
class attribute is not modelled. -/
def completeHeads : Heads := [(.none, .all)]

/-- `__getitem__` with a single component (selector.py:689-690, 720-724). `none` is python's `None`. -/
def getComp (h : Heads) (c : Comp) : Option Heads :=
  if complete h then some h
  else match lookup h c with
    | none => none
    | some .all => some completeHeads
    | some (.node s) => some s

/-- The key looked up for the first component of a path (selector.py:697, 765). -/
def headKey (h : Heads) (c : Comp) : Comp := if hasNone h then .none else c

/-- `__getitem__` with a selector, tuple or list (selector.py:689-710). -/
def getPath : Heads → FS → Option Heads
  | h, [] => some h
  | h, c :: p =>
    if complete h then some h
    else match lookup h (headKey h c) with
      | none => none
      | some .all => some completeHeads
      | some (.node s) => getPath s p

/-- `__contains__` with a single component (selector.py:758-759). -/
def containsComp (h : Heads) (c : Comp) : Bool := hasNone h || (lookup h c).isSome

/-- `any in mfs`, and `__bool__` (selector.py:643-644, 760-761). -/
def nonEmpty (h : Heads) : Bool := !h.isEmpty

/-- `__contains__` with a selector, tuple or list (selector.py:762-769).  The `none` branch of the match
is unreachable (`index[1:] in None` in python): a present key always subscripts to something, see
`getComp_isSome`. -/
def containsPath : Heads → FS → Bool
  | h, [] => complete h
  | h, c :: p =>
    let k := headKey h c
    if (lookup h k).isSome then
      match getComp h k with
      | some s => containsPath s p
      | none => false
    else false

mutual
/-- The selectors one `(head, tail)` item contributes to `__iter__` (selector.py:661-670). -/
def iterT (c : Comp) : MTree → List FS
  | .all => [[c]]
  | .node h => (iter h).map (fun x => FS.add [c] x)
/-- `__iter__` (selector.py:646-670); also what `__repr__` prints (selector.py:771-782). -/
def iter : List (Comp × MTree) → List FS
  | [] => []
  | (c, t) :: es => iterT c t ++ iter es
end

end Mfs
end Normalize
