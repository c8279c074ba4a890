import Verif.Model.PyList
import Verif.Model.Util

/-!
# ListCollection and DictCollection

Models `/repo/normalize/coll.py:41-448` as transition systems over the underlying list or dict.  `V` is the
type of python objects, `K` that of dict keys.  User code (`itemtype` as an `isinstance` test, `coerceitem`,
`==` of items) is arbitrary.  Simplifications: `==` of items does not raise; extra properties of collections
are not modelled; `sort` sorts by a total preorder.
-/

namespace Normalize.Coll

open Normalize.Py

variable {V K : Type}

/-- A collection class (coll.py:66-85): `isinstance(·, itemtype)`, `coerceitem`, and `==`. -/
structure CT (V : Type) where
  inst : V → Bool
  coerce : V → Except Exc V
  eq : V → V → Bool
  /-- `iter(x)`; `none` when `x` is not iterable -/
  iterOf : V → Option (Iter V)
  /-- `itemtype` is one class, rather than a tuple of them -/
  single : Bool := true

variable (C : CT V)

/-- What `coerce_value` raises (coll.py:143-149): a `CollectionItemCoerceError`; creating it fails with
`AttributeError` when `itemtype` is a tuple, since the message asks for its `__name__` (exc.py:166-170). -/
def badItem : Exc := if C.single then .collectionItemCoerce else .attributeError

/-- `coerce_value` (coll.py:135-149). -/
def coerceValue (v : V) : Except Exc V :=
  if C.inst v then .ok v
  else
    match C.coerce v with
    | .ok w => .ok w
    | .error _ => .error (badItem C)

/-- What a loop over `coerce_value(item) for item in it` has yielded, and how it ended. -/
def coerceIter : List V → Option Exc → List V × Option Exc
  | [], r => ([], r)
  | v :: vs, r =>
    match coerceValue C v with
    | .error e => ([], some e)
    | .ok w => (w :: (coerceIter vs r).1, (coerceIter vs r).2)

/-- Consume all of it, as `list(...)` and slice assignment do: all or nothing. -/
def coerceAll (it : Iter V) : Except Exc (List V) :=
  match coerceIter C it.items it.raises with
  | (ws, none) => .ok ws
  | (_, some e) => .error e

/-- What can be passed to the constructor. -/
inductive Input (V K : Type)
  | str
  /-- a `Mapping`, in its order, and with its keys sorted; `none` when they cannot be -/
  | mapping (xs : List (K × V)) (sorted : Option (List (K × V)))
  /-- a `Sequence` that is not a string -/
  | seq (xs : List V)
  /-- an iterator (it has `__next__`): each item is given with its reading as a 2-tuple, if it is one -/
  | iterator (xs : List (V × Option (K × V))) (raises : Option Exc)
  /-- any other iterable, such as a set or another collection; `entries` are those of a `DictCollection` -/
  | iterable (it : Iter V) (entries : Option (List (K × V)))
  /-- anything else; `falsy` for `None`, `0`, … -/
  | other (falsy : Bool)

/-- `ListCollection.__init__` (coll.py:88-106, 304-340). -/
def listInit : Input V K → Except Exc (List V)
  | .str => .error .collectionCoerce
  | .mapping _ (some xs) => coerceAll C ⟨xs.map (·.2), none⟩
  | .mapping _ none => .error .typeError
  | .seq xs => coerceAll C ⟨xs, none⟩
  | .iterator xs r => coerceAll C ⟨xs.map (·.1), r⟩
  | .iterable it _ => coerceAll C it
  | .other true => .ok []
  | .other false => .error .collectionCoerce

/-! ## ListCollection -/

/-- A method call on a `ListCollection`. -/
inductive LOp (V : Type)
  | append (v : V)
  | extend (it : Iter V)
  | getItem (i : Int)
  | getSlice (s : Slice)
  | setItem (i : Int) (v : V)
  | setSlice (s : Slice) (it : Iter V)
  | delItem (i : Int)
  | delSlice (s : Slice)
  | insert (i : Int) (v : V)
  | pop (i : Int)
  | remove (v : V)
  | index (v : V) (i : Int) (j : Option Int)
  | count (v : V)
  | contains (v : V)
  | reverse
  /-- `sort` with a key or comparison that amounts to this total preorder -/
  | sort (le : V → V → Bool)
  | len
  | iter
  /-- `coll + other` with a plain list -/
  | addList (xs : List V)
  /-- `coll + other` with another collection -/
  | addColl (xs : List V)

/-- What a call returns. -/
inductive LRet (V : Type)
  | unit
  | item (v : V)
  | items (vs : List V)
  | nat (n : Nat)
  | bool (b : Bool)
  /-- a new collection of the same class -/
  | coll (vs : List V)
  deriving DecidableEq

/-- `index` from a position on (coll.py:368-370): `self[k] == x` for `k` in `range(i, j)`. -/
def indexLoop (xs : List V) (x : V) : Nat → Nat → Except Exc Nat
  | 0, _ => .error .valueError
  | n + 1, k =>
    match xs[k]? with
    | none => .error .indexError
    | some y => if C.eq y x then .ok k else indexLoop xs x n (k + 1)

/-- `if i < 0: i += len; if i < 0: i = 0` (coll.py:358-361, 375-377, 381-384). -/
def clamp (n : Nat) (i : Int) : Nat := if i < 0 then (i + n).toNat else i.toNat

/-- `j` of `index` (coll.py:362-367). -/
def stopOf (n : Nat) : Option Int → Nat
  | none => n
  | some j => clamp n j

/-- `index(x, i, j)` (coll.py:356-371). -/
def index (xs : List V) (x : V) (i : Int) (j : Option Int) : Except Exc Nat :=
  indexLoop C xs x (stopOf xs.length j - clamp xs.length i) (clamp xs.length i)

/-- A call that leaves the collection alone. -/
def pureRet (xs : List V) (r : Except Exc (LRet V)) : Except Exc (LRet V) × List V := (r, xs)

/-- A call that replaces the contents, or raises and leaves them. -/
def update (xs : List V) : Except Exc (List V) → Except Exc (LRet V) × List V
  | .ok ys => (.ok .unit, ys)
  | .error e => (.error e, xs)

/-- Slice assignment of coerced items (coll.py:398-400); python looks at the slice before it takes the
items. -/
def assignSlice (xs : List V) (s : Slice) (items : Except Exc (List V)) : Except Exc (List V) :=
  if s.stride = 0 then .error .valueError
  else
    match items with
    | .error e => .error e
    | .ok ys => Py.setSlice xs s ys

/-- Item assignment of a coerced item (coll.py:196-197). -/
def assignItem (xs : List V) (i : Int) : Except Exc V → Except Exc (List V)
  | .error e => .error e
  | .ok v => Py.setItem xs i v

/-- `pop` (coll.py:380-387). -/
def popAt (xs : List V) (i : Int) : Except Exc (LRet V) × List V :=
  match Py.getItem xs (clamp xs.length i) with
  | .error e => (.error e, xs)
  | .ok x =>
    match Py.delItem xs (clamp xs.length i) with
    | .error e => (.error e, xs)
    | .ok ys => (.ok (.item x), ys)

/-- `remove` (coll.py:389-390). -/
def removeItem (xs : List V) (x : V) : Except Exc (List V) :=
  match index C xs x 0 none with
  | .error e => .error e
  | .ok k => Py.delItem xs k

/-- `insert` (coll.py:373-378): the item is assigned to an empty slice, so it is iterated over. -/
def insertAt (xs : List V) (i : Int) (v : V) : Except Exc (List V) :=
  match C.iterOf v with
  | none => .error .typeError
  | some it =>
    assignSlice xs ⟨some (clamp xs.length i), some (clamp xs.length i), none⟩ (coerceAll C it)

/-- Wrap a result. -/
def ret {α : Type} (f : α → LRet V) : Except Exc α → Except Exc (LRet V)
  | .ok a => .ok (f a)
  | .error e => .error e

/-- `item in coll` (coll.py:112-113). -/
def containsItem (xs : List V) (v : V) : Except Exc Bool :=
  match coerceValue C v with
  | .ok w => .ok (xs.any (fun y => C.eq y w))
  | .error e => .error e

/-- `coll + other` for a plain list (coll.py:423-427): the list is converted, then the concatenation. -/
def addPlain (xs ys : List V) : Except Exc (List V) :=
  match coerceAll C ⟨ys, none⟩ with
  | .error e => .error e
  | .ok zs => coerceAll C ⟨xs ++ zs, none⟩

/-- One method call on a `ListCollection` (coll.py:108-133, 192-200, 342-448): its outcome, and the
contents afterwards. -/
def lstep (o : LOp V) (xs : List V) : Except Exc (LRet V) × List V :=
  match o with
  | .append v =>
    match coerceValue C v with
    | .ok w => (.ok .unit, xs ++ [w])
    | .error e => (.error e, xs)
  | .extend it =>
    match coerceIter C it.items it.raises with
    | (ws, none) => (.ok .unit, xs ++ ws)
    | (ws, some e) => (.error e, xs ++ ws)
  | .getItem i => pureRet xs (ret .item (Py.getItem xs i))
  | .getSlice s => pureRet xs (ret .items (Py.getSlice xs s))
  | .setItem i v => update xs (assignItem xs i (coerceValue C v))
  | .setSlice s it => update xs (assignSlice xs s (coerceAll C it))
  | .delItem i => update xs (Py.delItem xs i)
  | .delSlice s => update xs (Py.delSlice xs s)
  | .insert i v => update xs (insertAt C xs i v)
  | .pop i => popAt xs i
  | .remove v => update xs (removeItem C xs v)
  | .index v i j => pureRet xs (ret .nat (index C xs v i j))
  | .count v => pureRet xs (.ok (.nat (xs.countP (fun y => C.eq y v))))
  | .contains v => pureRet xs (ret .bool (containsItem C xs v))
  | .reverse => (.ok .unit, xs.reverse)
  | .sort le => (.ok .unit, xs.mergeSort le)
  | .len => pureRet xs (.ok (.nat xs.length))
  | .iter => pureRet xs (.ok (.items xs))
  | .addList ys => pureRet xs (ret .coll (addPlain C xs ys))
  | .addColl ys => pureRet xs (ret .coll (coerceAll C ⟨xs ++ ys, none⟩))

/-- A sequence of calls; the caller catches exceptions and goes on. -/
def lrun : List (LOp V) → List V → List (Except Exc (LRet V)) × List V
  | [], xs => ([], xs)
  | o :: os, xs => ((lstep C o xs).1 :: (lrun os (lstep C o xs).2).1, (lrun os (lstep C o xs).2).2)

/-! ## DictCollection -/

/-- A method call on a `DictCollection`. -/
inductive DOp (V K : Type)
  | getItem (k : K)
  | setItem (k : K) (v : V)
  | delItem (k : K)
  | clear
  | pop (k : K)
  | popitem
  /-- the first argument as a sequence of pairs (from a mapping or an iterable), how its iteration ends,
  and the keyword arguments -/
  | update (kvs : List (K × V)) (raises : Option Exc) (kw : List (K × V))
  | contains (k : K)
  | keys
  | values
  | items
  | len
  | iter

/-- What a call returns. -/
inductive DRet (V K : Type)
  | unit
  | item (v : V)
  | items (vs : List V)
  | nat (n : Nat)
  | bool (b : Bool)
  | pair (k : K) (v : V)
  | keys (ks : List K)
  | pairs (xs : List (K × V))
  deriving DecidableEq

variable [DecidableEq K]

/-- The loop of `update` (coll.py:264-274): each value is coerced, and coerced again by `__setitem__`. -/
def updateLoop : List (K × V) → List (K × V) → Option Exc × List (K × V)
  | [], d => (none, d)
  | (k, v) :: kvs, d =>
    match coerceValue C v with
    | .error e => (some e, d)
    | .ok w =>
      match coerceValue C w with
      | .error e => (some e, d)
      | .ok w' => updateLoop kvs (aset d k w')

/-- The two loops of `update`. -/
def updateDict (kvs : List (K × V)) (raises : Option Exc) (kw d : List (K × V)) :
    Except Exc (DRet V K) × List (K × V) :=
  match updateLoop C kvs d with
  | (some e, d') => (.error e, d')
  | (none, d') =>
    match raises with
    | some e => (.error e, d')
    | none =>
      match updateLoop C kw d' with
      | (some e, d'') => (.error e, d'')
      | (none, d'') => (.ok .unit, d'')

/-- A call that needs a present key. -/
def withKey (d : List (K × V)) (k : K) (f : V → Except Exc (DRet V K) × List (K × V)) :
    Except Exc (DRet V K) × List (K × V) :=
  match alookup d k with
  | some v => f v
  | none => (.error .keyError, d)

/-- `dict.popitem()`: the last entry. -/
def popLast (d : List (K × V)) : Except Exc (DRet V K) × List (K × V) :=
  match d.getLast? with
  | some (k, v) => (.ok (.pair k v), d.dropLast)
  | none => (.error .keyError, d)

/-- One method call on a `DictCollection` (coll.py:192-200, 240-294). -/
def dstep (o : DOp V K) (d : List (K × V)) : Except Exc (DRet V K) × List (K × V) :=
  match o with
  | .getItem k => withKey d k (fun v => (.ok (.item v), d))
  | .setItem k v =>
    match coerceValue C v with
    | .ok w => (.ok .unit, aset d k w)
    | .error e => (.error e, d)
  | .delItem k => withKey d k (fun _ => (.ok .unit, aerase d k))
  | .clear => (.ok .unit, [])
  | .pop k => withKey d k (fun v => (.ok (.item v), aerase d k))
  | .popitem => popLast d
  | .update kvs r kw => updateDict C kvs r kw d
  | .contains k => (.ok (.bool (alookup d k).isSome), d)
  | .keys => (.ok (.keys (d.map (·.1))), d)
  | .values => (.ok (.items (d.map (·.2))), d)
  | .items => (.ok (.pairs d), d)
  | .len => (.ok (.nat d.length), d)
  | .iter => (.ok (.keys (d.map (·.1))), d)

/-- A sequence of calls. -/
def drun : List (DOp V K) → List (K × V) → List (Except Exc (DRet V K)) × List (K × V)
  | [], d => ([], d)
  | o :: os, d => ((dstep C o d).1 :: (drun os (dstep C o d).2).1, (drun os (dstep C o d).2).2)

/-- `dict(generator of coerced pairs)` (coll.py:213-217, 151-159). -/
def dictOf : List (K × V) → Option Exc → List (K × V) → Except Exc (List (K × V))
  | [], none, d => .ok d
  | [], some e, _ => .error e
  | (k, v) :: kvs, r, d =>
    match coerceValue C v with
    | .error e => .error e
    | .ok w => dictOf kvs r (aset d k w)

/-- `DictCollection.__init__` (coll.py:88-106, 219-238); `num` is the key for a position.  Anything that is
neither a mapping, a sequence nor an iterator (another `DictCollection`, for one) gives no items. -/
def dictInit (num : Nat → K) : Input V K → Except Exc (List (K × V))
  | .str => .error .collectionCoerce
  | .mapping xs _ => dictOf C xs none []
  | .seq xs => dictOf C (xs.zipIdx.map (fun x => (num x.2, x.1))) none []
  | .iterator xs r => dictOf C (xs.zipIdx.map (fun x => x.1.2.getD (num x.2, x.1.1))) r []
  | .iterable _ _ => .ok []
  | .other _ => .ok []

end Normalize.Coll
