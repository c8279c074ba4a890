import Verif.Model.Val
import Verif.Model.Util
import Verif.Model.Mfs
import Mathlib.Data.List.Sort

/-!
# Record equality, record_id and hashing

Models `/repo/normalize/record/__init__.py:119-150` (`__eq__`, `__ne__`, `__pk__`, `__hash__`),
`/repo/normalize/coll.py:115-128` (`Collection.__eq__`) and `/repo/normalize/identity.py:23-112`.

Simplifications: an attribute read gives the instance dict entry or what the unset property reads as
(an object without parts); objects without parts have none of the properties' names as attributes and are
not iterable, strings excepted; `is` on trees is equality of trees (it is only used against `None` and the
`_nothing` marker).
-/

namespace Normalize.Ident

/-- A type given as `isa=` or `itemtype`. -/
inductive Ty
  /-- a `Record` subclass (collections included) -/
  | cls (name : String)
  /-- any other class: it has no `primary_key` -/
  | other (n : Nat)
  deriving DecidableEq, Repr

/-- `itemtype` of a collection class: a class or a tuple of classes. -/
inductive ItemTy
  | one (t : Ty)
  | tup (ts : List Ty)
  deriving DecidableEq, Repr

/-- The underlying container (`colltype`, coll.py:210, 302). -/
inductive CollKind
  | list
  | dict
  deriving DecidableEq, Repr

/-- A property as comparison and identity see it (property/__init__.py:54-160). -/
structure IProp where
  name : String
  extraneous : Bool := false
  /-- `valuetype` as a tuple; empty when there is none -/
  types : List Ty := []
  /-- what the unset property reads as (`V1Property`) -/
  unset : Option Atom := .none
  deriving DecidableEq, Repr

/-- A record class (record/meta.py:27-99). -/
structure ICls where
  /-- `properties.values()`, in declaration order -/
  props : List IProp := []
  /-- `primary_key` -/
  pk : List IProp := []
  /-- for a collection class, its container and `itemtype` -/
  coll : Option (CollKind × ItemTy) := .none

/-- The declared classes and what python's builtin `==` and `hash` do on objects without parts. -/
structure Schema where
  cls : String → ICls
  atomEq : Atom → Atom → Bool
  /-- `none` for an unhashable object -/
  atomHash : Atom → Option Int
  /-- `not obj` -/
  falsy : Atom → Bool
  /-- how python combines the hashes of the members of a tuple -/
  tupleHash : List Int → Int
  /-- what comparing a `ListCollection` of a class, with given members, to a plain list gives
  (coll.py:120-124: the list is converted, which may raise); see `Verif.Model.Coll` -/
  mixL : String → List Val → List Val → Except Exc Bool
  /-- the same for a `DictCollection` and a plain dict -/
  mixD : String → List (Comp × Val) → List (Comp × Val) → Except Exc Bool

variable (S : Schema)

/-- `itemtype` of a collection class. -/
def itemOf (c : String) : Option ItemTy := (S.cls c).coll.map (·.2)

/-- The property of that name in a class. -/
def propOf (c nm : String) : Option IProp := (S.cls c).props.find? (fun p => p.name == nm)

/-- What an unset attribute reads as. -/
def unsetOf (c nm : String) : Option Atom := (propOf S c nm).bind (·.unset)

/-- `getattr(obj, name)`; `none` for `AttributeError`. -/
def readAttr : Val → String → Option Val
  | .rcd c s, nm =>
    match alookup s nm with
    | some v => some v
    | .none => (unsetOf S c nm).map Val.atom
  | _, _ => .none

/-! ## Equality -/

/-- An object without parts compared to anything. -/
def atomVs (a : Atom) : Val → Except Exc Bool
  | .atom b => .ok (S.atomEq a b)
  | _ => .ok false

/-- The loop over the members of two lists of the same length. -/
def eqLoop : List (Val → Except Exc Bool) → List Val → Except Exc Bool
  | f :: fs, y :: ys =>
    match f y with
    | .error e => .error e
    | .ok false => .ok false
    | .ok true => eqLoop fs ys
  | _, _ => .ok true

/-- The loop over the entries of two dicts of the same length. -/
def eqLoopD : List (Comp × (Val → Except Exc Bool)) → List (Comp × Val) → Except Exc Bool
  | (k, f) :: fs, d =>
    match alookup d k with
    | .none => .ok false
    | some y =>
      match f y with
      | .error e => .error e
      | .ok false => .ok false
      | .ok true => eqLoopD fs d
  | [], _ => .ok true

/-- One comparison of `Record.__eq__` (record/__init__.py:128-130): `_Unset` stands for a missing
attribute. -/
def eqRead : Option (Val → Except Exc Bool) → Option Val → Except Exc Bool
  | .none, .none => .ok true
  | some f, some y => f y
  | _, _ => .ok false

/-- The loop of `Record.__eq__` over the properties (record/__init__.py:126-132). -/
def eqProps : List IProp → (String → Option (Val → Except Exc Bool)) → (String → Option Val) → Except Exc Bool
  | [], _, _ => .ok true
  | p :: ps, l, r =>
    if p.extraneous then eqProps ps l r
    else
      match eqRead (l p.name) (r p.name) with
      | .error e => .error e
      | .ok false => .ok false
      | .ok true => eqProps ps l r

/-- `getattr(self, propname, _Unset)` in `Record.__eq__`, given the instance dict. -/
def leftRead (c : String) (s : List (String × (Val → Except Exc Bool))) (nm : String) :
    Option (Val → Except Exc Bool) :=
  match alookup s nm with
  | some f => some f
  | .none => (unsetOf S c nm).map (atomVs S)

mutual
/-- `a == b`: `Record.__eq__` (record/__init__.py:119-132), `Collection.__eq__` (coll.py:115-124), and
python's `==` on lists and dicts (of which the members are compared in order, after the lengths). -/
def veq : Val → Val → Except Exc Bool
  | .atom a, w => atomVs S a w
  | .list xs, w =>
    match w with
    | .list ys => if xs.length = ys.length then eqLoop (veqL xs) ys else .ok false
    | .lcoll c ys => S.mixL c ys xs
    | _ => .ok false
  | .dict xs, w =>
    match w with
    | .dict ys => if xs.length = ys.length then eqLoopD (veqC xs) ys else .ok false
    | .dcoll c ys => S.mixD c ys xs
    | _ => .ok false
  | .rcd c s, w =>
    match w with
    | .rcd d t =>
      if c = d then eqProps (S.cls c).props (leftRead S c (veqS s)) (readAttr S (.rcd d t)) else .ok false
    | _ => .ok false
  | .lcoll c xs, w =>
    match w with
    | .list ys => S.mixL c xs ys
    | .lcoll d ys =>
      if itemOf S c = itemOf S d then
        if xs.length = ys.length then eqLoop (veqL xs) ys else .ok false
      else .ok false
    | _ => .ok false
  | .dcoll c xs, w =>
    match w with
    | .dict ys => S.mixD c xs ys
    | .dcoll d ys =>
      if itemOf S c = itemOf S d then
        if xs.length = ys.length then eqLoopD (veqC xs) ys else .ok false
      else .ok false
    | _ => .ok false
/-- `==` of each member of a list. -/
def veqL : List Val → List (Val → Except Exc Bool)
  | [] => []
  | x :: xs => (fun w => veq x w) :: veqL xs
/-- `==` of each entry of a dict. -/
def veqC : List (Comp × Val) → List (Comp × (Val → Except Exc Bool))
  | [] => []
  | (k, x) :: xs => (k, fun w => veq x w) :: veqC xs
/-- `==` of each entry of an instance dict. -/
def veqS : List (String × Val) → List (String × (Val → Except Exc Bool))
  | [] => []
  | (k, x) :: xs => (k, fun w => veq x w) :: veqS xs
end

/-- `a != b` (record/__init__.py:134-136, coll.py:126-128). -/
def vne (a b : Val) : Except Exc Bool :=
  match veq S a b with
  | .ok r => .ok (!r)
  | .error e => .error e

/-! ## Identity -/

/-- What `record_id` returns: a tuple, or an object itself. -/
inductive Key
  | raw (v : Val)
  | tup (ks : List Key)

mutual
/-- Structural equality of keys is decidable. -/
def Key.decEq : (x y : Key) → Decidable (x = y)
  | .raw a, .raw b => if h : a = b then isTrue (by rw [h]) else isFalse (by simp [h])
  | .tup a, .tup b =>
    match Key.decEqs a b with
    | isTrue h => isTrue (by rw [h])
    | isFalse h => isFalse (by simp [h])
  | .raw _, .tup _ | .tup _, .raw _ => isFalse (by simp)
/-- Equality of lists of keys. -/
def Key.decEqs : (x y : List Key) → Decidable (x = y)
  | [], [] => isTrue rfl
  | a :: as, b :: bs =>
    match Key.decEq a b, Key.decEqs as bs with
    | isTrue h, isTrue h' => isTrue (by rw [h, h'])
    | isFalse h, _ => isFalse (by simp [h])
    | _, isFalse h => isFalse (by simp [h])
  | [], _ :: _ | _ :: _, [] => isFalse (by simp)
end

instance : DecidableEq Key := Key.decEq

/-- `type(obj)`. -/
def typeOf : Val → Ty
  | .rcd c _ | .lcoll c _ | .dcoll c _ => .cls c
  | _ => .other 0

/-- `obj.__hash__` is not `None`: collections define `__eq__` only (coll.py:115). -/
def hashable : Val → Bool
  | .atom a => (S.atomHash a).isSome
  | .rcd _ _ => true
  | _ => false

/-- Are two keys comparable with `<`? -/
def Comp.sameSort : Comp → Comp → Bool
  | .str _, .str _ | .int _, .int _ => true
  | _, _ => false

/-- `<=` of two dict keys of one sort. -/
def Comp.le : Comp → Comp → Bool
  | .str a, .str b => decide (a ≤ b)
  | .int a, .int b => decide (a ≤ b)
  | _, _ => true

/-- `sorted(coll.keys())` and the values (coll.py:326-329); keys that cannot be compared raise
`TypeError`.  The index stays 0. -/
def sortedEntries (d : List (Comp × Val)) : Except Exc (List (Comp × Val)) :=
  if d.length ≤ 1 || d.all (fun x => d.all (fun y => Comp.sameSort x.1 y.1)) then
    .ok ((d.insertionSort (fun a b => Comp.le a.1 b.1 = true)).map (fun x => (Comp.int 0, x.2)))
  else .error .typeError

/-- Number the members of a sequence. -/
def enum (xs : List Val) : List (Comp × Val) := xs.zipIdx.map (fun x => (Comp.int x.2, x.1))

/-- `object_.itertuples() if hasattr(object_, "itertuples") else type_.coll_to_tuples(object_)`
(identity.py:54-57; coll.py:219-239, 310-340, 406-407). -/
def collTuples (k : CollKind) (v : Val) : Except Exc (List (Comp × Val)) :=
  match v, k with
  | .lcoll _ xs, _ => .ok (enum xs)
  | .dcoll _ xs, _ => .ok xs
  | .list xs, _ => .ok (enum xs)
  | .dict d, .dict => .ok d
  | .dict d, .list => sortedEntries d
  | .atom (.str _), _ => .error .collectionCoerce
  | .atom a, .list => if S.falsy a then .ok [] else .error .collectionCoerce
  | .atom _, .dict => .ok []
  | .rcd _ _, .list => .error .collectionCoerce
  | .rcd _ _, .dict => .ok []

/-- `type_` after identity.py:32-33, for an item. -/
def itemTy (t : ItemTy) (v : Val) : Ty :=
  match t with
  | .one t => t
  | .tup _ => typeOf v

/-- `_sorted_properties` (record/meta.py:85-88). -/
def sortedProps (c : ICls) : List IProp :=
  (c.props.filter (fun p => !p.extraneous)).insertionSort (fun a b => a.name ≤ b.name)

/-- `selector[(k,)]` as a condition; everything passes when there is no selector (identity.py:45-47,
60-62, 72-75). -/
def passes (sel : Option Heads) (k : Comp) : Bool :=
  match sel with
  | .none => true
  | some h =>
    if Mfs.nonEmpty h then
      match Mfs.getPath h [k] with
      | some s => Mfs.nonEmpty s
      | .none => false
    else true

/-- `selector[k] if selector else None` (identity.py:61, 95). -/
def subSel (sel : Option Heads) (k : Comp) : Option Heads :=
  match sel with
  | .none => .none
  | some h => if Mfs.nonEmpty h then Mfs.getComp h k else .none

/-- The `normalize_object_slot` hook: given the value, the property and the object. -/
abbrev SlotHook := Val → IProp → Val → Except Exc Val

/-- `normalize_object_slot(val, prop, object_)`, if there is one (identity.py:79-84). -/
def runHook (nos : Option SlotHook) (v : Val) (p : IProp) (o : Val) : Except Exc Val :=
  match nos with
  | .none => .ok v
  | some f => f v p o

/-- `x is not None` -/
def Key.isSet : Key → Bool
  | .raw v => decide (v ≠ Val.none)
  | .tup _ => true

/-- Number of members that are not `None` (identity.py:97). -/
def setElements (ks : List Key) : Nat := ks.countP Key.isSet

/-- `record_id` of a `Record` type always returns a tuple. -/
def Key.members : Key → List Key
  | .tup ks => ks
  | .raw _ => []

/-- The loop over the types of a property (identity.py:90-101). -/
def bestKey (idOf : String → Except Exc Key) : List Ty → List Key → Nat → Except Exc (List Key)
  | [], best, _ => .ok best
  | .other _ :: ts, best, n => bestKey idOf ts best n
  | .cls c :: ts, best, n =>
    match idOf c with
    | .error e => .error e
    | .ok k =>
      if best.isEmpty || n < setElements k.members then
        bestKey idOf ts k.members (setElements k.members)
      else bestKey idOf ts best n

/-- `except TypeError` (exc.py:82: coercion errors are type errors). -/
def isType (e : Exc) : Bool := e.isCoercion || e == .typeError

/-- `val_pk or val`, and the check that it can be hashed (identity.py:103-110). -/
def checkedKey (hash : Key → Except Exc Int) (best : List Key) (v : Val) : Except Exc Key :=
  match hash (if best.isEmpty then .raw v else .tup best) with
  | .ok _ => .ok (if best.isEmpty then .raw v else .tup best)
  | .error e => if isType e then .error .keyHash else .error e

/-- What one property contributes (identity.py:78-112). -/
def slotKey (nos : Option SlotHook) (idOf : String → Option Heads → Val → Except Exc Key)
    (hash : Key → Except Exc Int) (sel : Option Heads) (o : Val) (p : IProp) : Except Exc Key :=
  match runHook nos ((readAttr S o p.name).getD .none) p o with
  | .error e => .error e
  | .ok v =>
    match runHook nos .none p o with
    | .error e => .error e
    | .ok none' =>
      if v ≠ none' ∧ p.types ≠ [] then
        match bestKey (fun c => idOf c (subSel sel (.str p.name)) v) p.types [] 0 with
        | .error e => .error e
        | .ok best => checkedKey hash best v
      else .ok (.raw v)

/-- `pk_cols` after the filter check (identity.py:37, 45-48). -/
def pkCols (c : ICls) (sel : Option Heads) : List IProp :=
  if c.pk.all (fun p => passes sel (.str p.name)) then c.pk else []

/-- `pk_cols or all_properties` (identity.py:69-77). -/
def idProps (c : ICls) (sel : Option Heads) : List IProp :=
  if (pkCols c sel).isEmpty then (sortedProps c).filter (fun p => passes sel (.str p.name)) else pkCols c sel

/-- `tuple(generator)` -/
def asTuple : Except Exc (List Key) → Except Exc Key
  | .ok ks => .ok (.tup ks)
  | .error e => .error e

mutual
/-- `record_id(object_, type_, selector, normalize_object_slot)` (identity.py:23-112) with `type_` a class.
The number stands for python's recursion limit. -/
def rid (nos : Option SlotHook) : Nat → Ty → Option Heads → Val → Except Exc Key
  | 0, _, _, _ => .error (.user 0)
  | n + 1, .other _, _, v => if hashable S v then .ok (.raw v) else .error .identityCrisis
  | n + 1, .cls c, sel, v =>
    match (S.cls c).coll, (pkCols (S.cls c) sel).isEmpty with
    | some (k, it), true =>
      match collTuples S k v with
      | .error e => .error e
      | .ok xs =>
        asTuple (mapE (fun x => rid nos n (itemTy it x.2) (subSel sel x.1) x.2)
          (xs.filter (fun x => passes sel x.1)))
    | _, _ =>
      asTuple (mapE (slotKey S nos (fun c' s w => rid nos n (.cls c') s w) (fun k => khash n k) sel v)
        (idProps (S.cls c) sel))

/-- `hash(key)`; a record's is that of its `record_id` (record/__init__.py:138-150), collections, lists and
dicts are not hashable. -/
def khash : Nat → Key → Except Exc Int
  | 0, _ => .error (.user 0)
  | _ + 1, .raw (.atom a) =>
    match S.atomHash a with
    | some h => .ok h
    | .none => .error .typeError
  | n + 1, .raw (.rcd c s) =>
    match rid .none n (.cls c) .none (.rcd c s) with
    | .error e => .error e
    | .ok k => khash n k
  | _ + 1, .raw _ => .error .typeError
  | n + 1, .tup ks =>
    match mapE (fun k => khash n k) ks with
    | .error e => .error e
    | .ok hs => .ok (S.tupleHash hs)
end

/-- `record_id(record)`: `__pk__` (record/__init__.py:138-145). -/
def recordId (n : Nat) (v : Val) : Except Exc Key := rid S .none n (typeOf v) .none v

/-- `hash(obj)` (record/__init__.py:147-150). -/
def hash (n : Nat) (v : Val) : Except Exc Int := khash S n (.raw v)

mutual
/-- `==` of keys: tuples are compared member by member. -/
def keyEq : Key → Key → Except Exc Bool
  | .raw a, w =>
    match w with
    | .raw b => veq S a b
    | .tup _ => .ok false
  | .tup ks, w =>
    match w with
    | .raw _ => .ok false
    | .tup ls => if ks.length = ls.length then keyEqL ks ls else .ok false
/-- The loop over the members of two tuples. -/
def keyEqL : List Key → List Key → Except Exc Bool
  | k :: ks, w =>
    match w with
    | [] => .ok true
    | l :: ls =>
      match keyEq k l with
      | .error e => .error e
      | .ok false => .ok false
      | .ok true => keyEqL ks ls
  | [], _ => .ok true
end

end Normalize.Ident
