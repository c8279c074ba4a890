import Verif.Model.MfsAccess

/-!
# Objects with an identity

`/repo/normalize/selector.py:32-39, 120-359, 784-904` once more, this time on a memory of mutable objects that
refer to each other, so that an object can be part of several others.  `Verif.Model.Access` and
`Verif.Model.MfsAccess` model the same code on trees; `Verif.Props.MemTree` relates the two.

Simplifications, beside those of `Verif.Model.Access`: the list inside a collection (`_values`) belongs to the
collection, so the two are one object; objects that were made before an exception and that nothing refers to
are not kept; `for x in record` loops over the items that were there when the loop began (python sees
changes made meanwhile, which needs an object that is part of itself).
-/

namespace Normalize.Mem

/-- What a variable, slot or item holds: an object without parts, which cannot change, or a reference to
the object with a given identity. -/
inductive Ref
  | atom (a : Atom)
  | ptr (l : Nat)
  deriving DecidableEq, Repr

/-- An object and what it refers to; compare `Val`. -/
inductive Obj
  | atom (a : Atom)
  | list (xs : List Ref)
  | dict (xs : List (Comp × Ref))
  | rcd (cls : String) (slots : List (String × Ref))
  | lcoll (cls : String) (xs : List Ref)
  | dcoll (cls : String) (xs : List (Comp × Ref))
  deriving DecidableEq, Repr

/-- The objects that exist; an object's place in the list is its identity. -/
abbrev Mem := List Obj

/-- The object referred to. -/
def deref (m : Mem) : Ref → Obj
  | .atom a => .atom a
  | .ptr l => (m[l]?).getD (.atom .none)

/-- A new object. -/
def alloc (m : Mem) (o : Obj) : Mem × Ref := (m ++ [o], .ptr m.length)

/-- Change an object in place. -/
def store (m : Mem) : Ref → Obj → Mem
  | .atom _, _ => m
  | .ptr l, o => m.set l o

/-- A property as seen through `getattr`/`setattr`/`delattr`; compare `Normalize.Attr`. -/
structure Attr where
  /-- `setattr`: given what the slot holds, what it holds afterwards -/
  assign : Mem → Option Ref → Ref → Except Exc (Mem × Option Ref)
  /-- `delattr` -/
  remove : Mem → Option Ref → Except Exc Unit
  /-- what an unset property reads as -/
  unset : Option Atom
  /-- calling `prop.valuetype` -/
  make : Option (Mem → Option (String × Ref) → Except Exc (Mem × Ref))

/-- The classes; compare `Normalize.Env` and `Normalize.Ctors`. -/
structure Env where
  /-- `type(record).properties.get(name)` -/
  attr : String → String → Option Attr
  /-- `Collection.coerce_value` (coll.py:135-149) -/
  coerceItem : String → Mem → Ref → Except Exc (Mem × Ref)
  /-- `itemtype(**kwarg)` -/
  makeItem : String → Mem → Option (String × Ref) → Except Exc (Mem × Ref)
  /-- `cls(**kwargs)` of a record class -/
  rcd : String → Mem → List (String × Ref) → Except Exc (Mem × Ref)
  /-- `type(obj)()` of an object without parts -/
  atom : Atom → Except Exc Atom

/-! ## Reading -/

/-- `_try_index` (selector.py:32-39). -/
def tryIndex : Obj → Comp → Bool
  | .atom (.str _), _ => false
  | _, .int _ => true
  | .list _, _ | .dict _, _ | .lcoll _ _, _ | .dcoll _ _, _ => true
  | _, _ => false

/-- `record[selector]` for an int or string selector (python lists and dicts; coll.py:193-194). -/
def getItem : Obj → Comp → Except Exc Ref
  | .list xs, .int i | .lcoll _ xs, .int i =>
    match getIdx xs i with
    | some v => .ok v
    | .none => .error .indexError
  | .dict xs, c | .dcoll _ xs, c =>
    match alookup xs c with
    | some v => .ok v
    | .none => .error .keyError
  | _, _ => .error .typeError

/-- `getattr(record, selector)`. -/
def getAttr (E : Env) : Obj → Comp → Except Exc Ref
  | .rcd cls sl, .str nm =>
    match alookup sl nm with
    | some v => .ok v
    | .none =>
      match (E.attr cls nm).bind (·.unset) with
      | some v => .ok (.atom v)
      | .none => .error .attributeError
  | _, .str _ => .error .attributeError
  | _, _ => .error .typeError

/-- One non-`None` step of `get` (selector.py:155-167). -/
def step (E : Env) (o : Obj) (c : Comp) : Except Exc Ref :=
  if tryIndex o c then
    match getItem o c with
    | .ok v => .ok v
    | .error .indexError => .error (.fsKey c)
    | .error e => .error e
  else
    match getAttr E o c with
    | .ok v => .ok v
    | .error .attributeError =>
      .error (.fsAttribute (match c with | .str nm => nm | _ => ""))
    | .error e => .error e

/-- What a dict key is as an object. -/
def ofComp : Comp → Ref
  | .str s => .atom (.str s)
  | .int i => .atom (.int i)
  | .none => .atom .none

/-- `for r in record` (coll.py:108-112). -/
def iterObj : Obj → Except Exc (List Ref)
  | .list xs | .lcoll _ xs => .ok xs
  | .dict xs | .dcoll _ xs => .ok (xs.map (fun x => ofComp x.1))
  | .atom (.str s) => .ok (s.toList.map (fun c => .atom (.str (String.singleton c))))
  | _ => .error .typeError

/-- The loop of a wildcard `get` (selector.py:142-157); `rv` is a new list. -/
def wildGet (f : Ref → Mem → Except Exc (Mem × Ref)) :
    List Ref → AllExc → List Ref → Mem → Except Exc (Mem × Ref)
  | [], .exc e, _, _ => .error e
  | [], _, rv, m => .ok (alloc m (.list rv))
  | x :: xs, s, rv, m =>
    match f x m with
    | .ok (m', v) => wildGet f xs s.success (rv ++ [v]) m'
    | .error e => if e.isFieldSelector then wildGet f xs (s.failure e) (rv ++ [.atom .none]) m else .error e

/-- `FieldSelector.get` (selector.py:120-170). -/
def get (E : Env) : FS → Ref → Mem → Except Exc (Mem × Ref)
  | [], x, m => .ok (m, x)
  | .none :: p, x, m =>
    match iterObj (deref m x) with
    | .error e => .error e
    | .ok items => wildGet (get E p) items .start [] m
  | c :: p, x, m =>
    match step E (deref m x) c with
    | .error e => .error e
    | .ok y => get E p y m

/-! ## Writing -/

/-- An operation's outcome, and the objects afterwards. -/
abbrev Eff (α : Type) := Except Exc α × Mem

/-- `record[selector] = value` (python lists and dicts; coll.py:196-197, 398-402). -/
def setItem (E : Env) (r : Ref) (c : Comp) (v : Ref) (m : Mem) : Eff Unit :=
  match deref m r, c with
  | .list xs, .int i =>
    match pyIndex xs.length i with
    | some _ => (.ok (), store m r (.list (setIdx xs i v)))
    | .none => (.error .indexError, m)
  | .lcoll cls xs, .int i =>
    match E.coerceItem cls m v with
    | .error e => (.error e, m)
    | .ok (m', v') =>
      match pyIndex xs.length i with
      | some _ => (.ok (), store m' r (.lcoll cls (setIdx xs i v')))
      | .none => (.error .indexError, m)
  | .lcoll cls _, _ =>
    match E.coerceItem cls m v with
    | .error e => (.error e, m)
    | .ok _ => (.error .typeError, m)
  | .dict xs, c => (.ok (), store m r (.dict (aset xs c v)))
  | .dcoll cls xs, c =>
    match E.coerceItem cls m v with
    | .error e => (.error e, m)
    | .ok (m', v') => (.ok (), store m' r (.dcoll cls (aset xs c v')))
  | _, _ => (.error .typeError, m)

/-- The instance dict with one slot set or emptied. -/
def setSlot (sl : List (String × Ref)) (nm : String) : Option Ref → List (String × Ref)
  | some v => aset sl nm v
  | .none => aerase sl nm

/-- `setattr(record, selector, value)`; undeclared names are plain instance attributes. -/
def setAttr (E : Env) (r : Ref) (c : Comp) (v : Ref) (m : Mem) : Eff Unit :=
  match deref m r, c with
  | .rcd cls sl, .str nm =>
    match E.attr cls nm with
    | .none => (.ok (), store m r (.rcd cls (aset sl nm v)))
    | some a =>
      match a.assign m (alookup sl nm) v with
      | .error e => (.error e, m)
      | .ok (m', s) => (.ok (), store m' r (.rcd cls (setSlot sl nm s)))
  | _, .str _ => (.error .attributeError, m)
  | _, _ => (.error .typeError, m)

/-- Convert values in order, stopping at an exception. -/
def mapM (f : Mem → Ref → Except Exc (Mem × Ref)) : List Ref → Mem → Except Exc (Mem × List Ref)
  | [], m => .ok (m, [])
  | x :: xs, m =>
    match f m x with
    | .error e => .error e
    | .ok (m', y) =>
      match mapM f xs m' with
      | .error e => .error e
      | .ok (m'', ys) => .ok (m'', y :: ys)

/-- `record[:] = value` (python lists; coll.py:398-400). -/
def setAll (E : Env) (r v : Ref) (m : Mem) : Eff Unit :=
  match deref m r with
  | .list _ =>
    match iterObj (deref m v) with
    | .error e => (.error e, m)
    | .ok vs => (.ok (), store m r (.list vs))
  | .lcoll cls _ =>
    match iterObj (deref m v) with
    | .error e => (.error e, m)
    | .ok vs =>
      match mapM (E.coerceItem cls) vs m with
      | .error e => (.error e, m)
      | .ok (m', vs') => (.ok (), store m' r (.lcoll cls vs'))
  | .dcoll cls _ =>
    match E.coerceItem cls m v with
    | .error e => (.error e, m)
    | .ok _ => (.error .typeError, m)
  | _ => (.error .typeError, m)

/-- `put` with a single component (selector.py:194-212). -/
def put1 (E : Env) (c : Comp) (v r : Ref) (m : Mem) : Eff Unit :=
  match c with
  | .none => setAll E r v m
  | c =>
    if tryIndex (deref m r) c then
      match setItem E r c v m with
      | (.error e, m') => (.error (if e.isLookup then .fsException else e), m')
      | q => q
    else
      match setAttr E r c v m with
      | (.error e, m') => (.error (if e.isAttribute then .fsException else e), m')
      | q => q

/-- One step of `put` with more to come (selector.py:220-236). -/
def stepPut (E : Env) (o : Obj) (c : Comp) : Except Exc Ref :=
  if tryIndex o c then
    match getItem o c with
    | .ok v => .ok v
    | .error e => .error (if e.isIndex then .fsException else e)
  else
    match getAttr E o c with
    | .ok v => .ok v
    | .error e => .error (if e.isAttribute then .fsException else e)

/-- Apply an operation to each item in order, stopping at an exception. -/
def forItems (f : Ref → Mem → Eff Unit) : List Ref → Mem → Eff Unit
  | [], m => (.ok (), m)
  | x :: xs, m =>
    match f x m with
    | (.error e, m') => (.error e, m')
    | (.ok (), m') => forItems f xs m'

/-- `FieldSelector.put` (selector.py:184-237). -/
def put (E : Env) : FS → Ref → Ref → Mem → Eff Unit
  | [], _, _, m => (.error .indexError, m)
  | [c], v, x, m => put1 E c v x m
  | .none :: p, v, x, m =>
    match iterObj (deref m x) with
    | .error e => (.error e, m)
    | .ok items => forItems (put E p v) items m
  | c :: p, v, x, m =>
    match stepPut E (deref m x) c with
    | .error e => (.error e, m)
    | .ok y => put E p v y m

/-! ## post -/

/-- The keyword argument for a created item (selector.py:263-264). -/
def kwarg : FS → Ref → Option (Comp × Ref)
  | [.none], _ => none
  | [d], v => some (d, v)
  | _, _ => none

/-- `f(**kwarg)`: keywords must be strings. -/
def callKw (f : Mem → Option (String × Ref) → Except Exc (Mem × Ref)) (m : Mem) :
    Option (Comp × Ref) → Except Exc (Mem × Ref)
  | .none => f m .none
  | some (.str s, v) => f m (some (s, v))
  | some _ => .error .typeError

/-- `type(record).itemtype(**kwarg)`; only collections have an `itemtype`. -/
def newItem (E : Env) (m : Mem) : Obj → Option (Comp × Ref) → Except Exc (Mem × Ref)
  | .lcoll cls _, kw | .dcoll cls _, kw => callKw (E.makeItem cls) m kw
  | _, _ => .error .attributeError

/-- `record.append(item)` (coll.py:342-345). -/
def append (E : Env) (r v : Ref) (m : Mem) : Eff Unit :=
  match deref m r with
  | .list xs => (.ok (), store m r (.list (xs ++ [v])))
  | .lcoll cls xs =>
    match E.coerceItem cls m v with
    | .error e => (.error e, m)
    | .ok (m', v') => (.ok (), store m' r (.lcoll cls (xs ++ [v'])))
  | _ => (.error .attributeError, m)

/-- `len(record)`. -/
def lenObj : Obj → Nat
  | .list xs | .lcoll _ xs => xs.length
  | .dict xs | .dcoll _ xs => xs.length
  | _ => 0

/-- The value made for a missing attribute (selector.py:287-294). -/
def newAttr (E : Env) (m : Mem) (o : Obj) (c : Comp) (kw : Option (Comp × Ref)) : Except Exc (Mem × Ref) :=
  match o, c with
  | .rcd cls _, .str nm =>
    match E.attr cls nm with
    | .none => .error .keyError
    | some a =>
      match a.make with
      | .none => .error .fsException
      | some f => callKw f m kw
  | _, _ => .error .attributeError

/-- How one step of `post` (selector.py:254-297) leaves things; compare `Normalize.Walk`. -/
inductive Walk
  /-- the exception that ends the call -/
  | fail (e : Exc)
  /-- go on with the part found at the component -/
  | child (y : Ref)
  /-- go on with the same record (selector.py:281-284) -/
  | same

/-- One non-`None` step of `post` before the last component (selector.py:254-297). -/
def stepPost (E : Env) (r : Ref) (c : Comp) (kw : Option (Comp × Ref)) (m : Mem) : Mem × Bool × Walk :=
  if tryIndex (deref m r) c then
    match getItem (deref m r) c with
    | .ok y => (m, false, .child y)
    | .error .indexError =>
      if c = .int (lenObj (deref m r)) then
        match newItem E m (deref m r) kw with
        | .error e => (m, false, .fail e)
        | .ok (m1, it) =>
          match append E r it m1 with
          | (.error e, m2) => (m2, false, .fail e)
          | (.ok (), m2) =>
            match getItem (deref m2 r) c with
            | .error e => (m2, false, .fail e)
            | .ok y => (m2, kw.isSome, .child y)
      else (m, false, .fail .valueError)
    | .error .keyError =>
      match newItem E m (deref m r) kw with
      | .error e => (m, false, .fail e)
      | .ok (m1, it) =>
        match setItem E r c it m1 with
        | (.error e, m2) => (m2, false, .fail e)
        | (.ok (), m2) => (m2, kw.isSome, .same)
    | .error e => (m, false, .fail e)
  else
    match getAttr E (deref m r) c with
    | .ok y => (m, false, .child y)
    | .error .attributeError =>
      match newAttr E m (deref m r) c kw with
      | .error e => (m, false, .fail e)
      | .ok (m1, v) =>
        match setAttr E r c v m1 with
        | (.error e, m2) => (m2, false, .fail e)
        | (.ok (), m2) =>
          match getAttr E (deref m2 r) c with
          | .error e => (m2, false, .fail e)
          | .ok y => (m2, kw.isSome, .child y)
    | .error e => (m, false, .fail e)

/-- `FieldSelector.post` (selector.py:239-301). -/
def post (E : Env) : FS → Ref → Ref → Mem → Eff Nat
  | [], _, _, m => (.error .indexError, m)
  | [c], v, x, m =>
    match put1 E c v x m with
    | (.error e, m') => (.error e, m')
    | (.ok (), m') => (.ok 1, m')
  | .none :: _, _, x, m =>
    match iterObj (deref m x) with
    | .error e => (.error e, m)
    | .ok [] => (.ok 0, m)
    | .ok _ => (.error .typeError, m)
  | c :: p, v, x, m =>
    match stepPost E x c (kwarg p v) m with
    | (m', _, .fail e) => (.error e, m')
    | (m', true, _) => (.ok 1, m')
    | (m', false, .child y) => post E p v y m'
    | (m', false, .same) => post E p v x m'

/-! ## delete -/

/-- `del record[selector]` (python lists and dicts; coll.py:199-200). -/
def delItem (r : Ref) (c : Comp) (m : Mem) : Eff Unit :=
  match deref m r, c with
  | .list xs, .int i =>
    match pyIndex xs.length i with
    | some k => (.ok (), store m r (.list (xs.eraseIdx k)))
    | .none => (.error .indexError, m)
  | .lcoll cls xs, .int i =>
    match pyIndex xs.length i with
    | some k => (.ok (), store m r (.lcoll cls (xs.eraseIdx k)))
    | .none => (.error .indexError, m)
  | .dict xs, c =>
    if (alookup xs c).isSome then (.ok (), store m r (.dict (aerase xs c))) else (.error .keyError, m)
  | .dcoll cls xs, c =>
    if (alookup xs c).isSome then (.ok (), store m r (.dcoll cls (aerase xs c))) else (.error .keyError, m)
  | _, _ => (.error .typeError, m)

/-- `delattr(record, name)` after `hasattr` said yes. -/
def delAttr (E : Env) (r : Ref) (nm : String) (m : Mem) : Eff Unit :=
  match deref m r with
  | .rcd cls sl =>
    match E.attr cls nm with
    | .none => (.ok (), store m r (.rcd cls (aerase sl nm)))
    | some a =>
      match a.remove m (alookup sl nm) with
      | .error e => (.error e, m)
      | .ok () => (.ok (), store m r (.rcd cls (aerase sl nm)))
  | _ => (.error .attributeError, m)

/-- `record.clear()` or `record[:] = ()` (selector.py:350-354). -/
def clearObj : Obj → Obj
  | .list _ => .list []
  | .lcoll cls _ => .lcoll cls []
  | .dict _ => .dict []
  | .dcoll cls _ => .dcoll cls []
  | o => o

/-- The last component of `delete` (selector.py:347-359). -/
def delete1 (E : Env) (c : Comp) (r : Ref) (m : Mem) : Eff Unit :=
  if tryIndex (deref m r) c then
    match c with
    | .none => (.ok (), store m r (clearObj (deref m r)))
    | c => delItem r c m
  else
    match c with
    | .str nm =>
      match getAttr E (deref m r) c with
      | .ok _ => delAttr E r nm m
      | .error .attributeError => (.ok (), m)
      | .error e => (.error e, m)
    | _ => (.error .typeError, m)

/-- The loop of a wildcard `delete` (selector.py:330-344). -/
def wildDelete (f : Ref → Mem → Eff Unit) : List Ref → AllExc → Mem → Eff Unit
  | [], .exc e, m => (.error e, m)
  | [], _, m => (.ok (), m)
  | x :: xs, s, m =>
    match f x m with
    | (.ok (), m') => wildDelete f xs s.success m'
    | (.error e, m') => if e.isFieldSelector then wildDelete f xs (s.failure e) m' else (.error e, m')

/-- `FieldSelector.delete` (selector.py:303-359). -/
def delete (E : Env) : FS → Ref → Mem → Eff Unit
  | [], _, m => (.error .indexError, m)
  | [c], x, m => delete1 E c x m
  | .none :: p, x, m =>
    match iterObj (deref m x) with
    | .error e => (.error e, m)
    | .ok items => wildDelete (delete E p) items .start m
  | c :: p, x, m =>
    match step E (deref m x) c with
    | .error e => (.error e, m)
    | .ok y => delete E p y m

/-! ## copy.deepcopy -/

/-- A reference, moved. -/
def shiftRef (n : Nat) : Ref → Ref
  | .atom a => .atom a
  | .ptr l => .ptr (l + n)

/-- An object whose references are moved. -/
def shiftObj (n : Nat) : Obj → Obj
  | .atom a => .atom a
  | .list xs => .list (xs.map (shiftRef n))
  | .dict xs => .dict (xs.map (fun e => (e.1, shiftRef n e.2)))
  | .rcd cls sl => .rcd cls (sl.map (fun e => (e.1, shiftRef n e.2)))
  | .lcoll cls xs => .lcoll cls (xs.map (shiftRef n))
  | .dcoll cls xs => .dcoll cls (xs.map (fun e => (e.1, shiftRef n e.2)))

/-- `copy.deepcopy(obj)`: new objects which refer to each other as the old ones do.  Simplification: all
objects are copied, not just the parts of `obj`; nothing refers to the others. -/
def deepcopy (m : Mem) (r : Ref) : Mem × Ref := (m ++ m.map (shiftObj m.length), shiftRef m.length r)

/-! ## MultiFieldSelector -/

/-- What `_get(·, tail)` does for each head (selector.py:784-788). -/
abbrev Getters := List (Comp × (Ref → Mem → Except Exc (Mem × Ref)))

/-- `sorted(self.heads.items())` where all heads are ints (selector.py:807-810). -/
def sortHeads (gs : Getters) : Getters := gs.insertionSort (fun a b => Mfs.idxOf a.1 ≤ Mfs.idxOf b.1)

/-- `self._get(obj[head], tail)` (selector.py:808, 824). -/
def getPart (o : Obj) (g : Comp × (Ref → Mem → Except Exc (Mem × Ref))) (m : Mem) : Except Exc (Mem × Ref) :=
  match getItem o g.1 with
  | .error e => .error e
  | .ok y => g.2 y m

/-- A loop that makes one value after the other. -/
def collect {α : Type} (f : α → Mem → Except Exc (Mem × Ref)) : List α → Mem → Except Exc (Mem × List Ref)
  | [], m => .ok (m, [])
  | x :: xs, m =>
    match f x m with
    | .error e => .error e
    | .ok (m', y) =>
      match collect f xs m' with
      | .error e => .error e
      | .ok (m'', ys) => .ok (m'', y :: ys)

/-- The items of a filtered list (selector.py:798-811). -/
def listVals (gs : Getters) (o : Obj) (xs : List Ref) (m : Mem) : Except Exc (Mem × List Ref) :=
  match alookup gs .none with
  | some g => collect g xs m
  | none => collect (getPart o) (sortHeads gs) m

/-- What the constructor of a dict does to each value: nothing, or item type conversion. -/
def thenCoerce (E : Env) (cls : String) (r : Except Exc (Mem × Ref)) : Except Exc (Mem × Ref) :=
  match r with
  | .error e => .error e
  | .ok (m, v) => E.coerceItem cls m v

/-- The keys and values of a filtered dict (selector.py:817-827). -/
def dictVals (gs : Getters) (o : Obj) (xs : List (Comp × Ref))
    (post : Except Exc (Mem × Ref) → Except Exc (Mem × Ref)) (m : Mem) :
    Except Exc (Mem × List (Comp × Ref)) :=
  match alookup gs .none with
  | some g =>
    match collect (fun e m => post (g e.2 m)) xs m with
    | .error e => .error e
    | .ok (m', vs) => .ok (m', (xs.map (·.1)).zip vs)
  | none =>
    match collect (fun g m => post (getPart o g m)) (gs.filter (fun g => (alookup xs g.1).isSome)) m with
    | .error e => .error e
    | .ok (m', vs) => .ok (m', ((gs.filter (fun g => (alookup xs g.1).isSome)).map (·.1)).zip vs)

/-- The keyword arguments for the filtered record (selector.py:838-842). -/
def kwVals (E : Env) (o : Obj) : Getters → Mem → Except Exc (Mem × List (String × Ref))
  | [], m => .ok (m, [])
  | (.str nm, g) :: gs, m =>
    match getAttr E o (.str nm) with
    | .error .attributeError => kwVals E o gs m
    | .error e => .error e
    | .ok v =>
      if v = .atom .none then kwVals E o gs m
      else
        match g v m with
        | .error e => .error e
        | .ok (m', v') =>
          match kwVals E o gs m' with
          | .error e => .error e
          | .ok (m'', r) => .ok (m'', (nm, v') :: r)
  | _ :: _, _ => .error .typeError

/-- `ctor(**kwargs)` (selector.py:843). -/
def construct (E : Env) (o : Obj) (kw : List (String × Ref)) (m : Mem) : Except Exc (Mem × Ref) :=
  match o with
  | .rcd cls _ => E.rcd cls m kw
  | .atom a =>
    match E.atom a with
    | .error e => .error e
    | .ok b => .ok (m, .atom b)
  | _ => .error .typeError

/-- `MultiFieldSelector.get` (selector.py:790-843), given the heads `h` and what each does. -/
def getWith (E : Env) (h : Heads) (gs : Getters) (x : Ref) (m : Mem) : Except Exc (Mem × Ref) :=
  match deref m x with
  | .list xs =>
    if Mfs.hasString h then .error .typeError
    else match listVals gs (.list xs) xs m with
      | .error e => .error e
      | .ok (m', vs) => .ok (alloc m' (.list vs))
  | .lcoll cls xs =>
    if Mfs.hasString h then .error .typeError
    else match listVals gs (.lcoll cls xs) xs m with
      | .error e => .error e
      | .ok (m', vs) =>
        match mapM (E.coerceItem cls) vs m' with
        | .error e => .error e
        | .ok (m'', vs') => .ok (alloc m'' (.lcoll cls vs'))
  | .dict xs =>
    match dictVals gs (.dict xs) xs id m with
    | .error e => .error e
    | .ok (m', vs) => .ok (alloc m' (.dict vs))
  | .dcoll cls xs =>
    match dictVals gs (.dcoll cls xs) xs (thenCoerce E cls) m with
    | .error e => .error e
    | .ok (m', vs) => .ok (alloc m' (.dcoll cls vs))
  | o =>
    if Mfs.hasInt h || (Mfs.hasNone h && !Mfs.complete h) then .error .typeError
    else if Mfs.hasNone h then .ok (deepcopy m x)
    else
      match kwVals E o gs m with
      | .error e => .error e
      | .ok (m', kw) => construct E o kw m'

mutual
/-- `_get(obj, tail)` (selector.py:784-788). -/
def getT (E : Env) : MTree → Ref → Mem → Except Exc (Mem × Ref)
  | .all, x, m => .ok (deepcopy m x)
  | .node h, x, m => getWith E h (getters E h) x m
/-- What each head does. -/
def getters (E : Env) : List (Comp × MTree) → Getters
  | [] => []
  | (c, t) :: es => (c, getT E t) :: getters E es
end

/-- `mfs.get(obj)` (selector.py:790-843). -/
def mget (E : Env) (h : Heads) (x : Ref) (m : Mem) : Except Exc (Mem × Ref) := getWith E h (getters E h) x m

/-- `for fs in self: fs.get(obj)` (selector.py:857-861); what is read is not kept. -/
def checkAll (E : Env) : List FS → Ref → Mem → Except Exc Unit
  | [], _, _ => .ok ()
  | fs :: r, x, m =>
    match get E fs x m with
    | .error e => .error e
    | .ok _ => checkAll E r x m

/-- `for fs in self: fs.delete(obj)`, passing over `FieldSelectorException` (selector.py:863-868). -/
def deleteAll (E : Env) : List FS → Ref → Mem → Eff Unit
  | [], _, m => (.ok (), m)
  | fs :: r, x, m =>
    match delete E fs x m with
    | (.error e, m') => if e.isFieldSelector then deleteAll E r x m' else (.error e, m')
    | (.ok (), m') => deleteAll E r x m'

/-- `MultiFieldSelector.delete` (selector.py:845-868). -/
def mdelete (E : Env) (h : Heads) (force : Bool) (x : Ref) (m : Mem) : Eff Unit :=
  if force then deleteAll E (Mfs.iter h) x m
  else
    match checkAll E (Mfs.iter h) x m with
    | .error e => (.error e, m)
    | .ok () => deleteAll E (Mfs.iter h) x m

/-- The values to set, `none` standing for `_None` (selector.py:886-893). -/
def fetch (E : Env) (source : Ref) : List FS → Mem → Except Exc (Mem × List (FS × Option Ref))
  | [], m => .ok (m, [])
  | fs :: r, m =>
    match get E fs source m with
    | .ok (m', v) =>
      match fetch E source r m' with
      | .error e => .error e
      | .ok (m'', l) => .ok (m'', (fs, some v) :: l)
    | .error e =>
      if e.isAttribute then
        match fetch E source r m with
        | .error e => .error e
        | .ok (m', l) => .ok (m', (fs, none) :: l)
      else .error e

/-- The writes (selector.py:898-902); `copy` is the copying function, if any. -/
def storeAll (E : Env) (copy : Option (Mem → Ref → Except Exc (Mem × Ref))) :
    List (FS × Option Ref) → Ref → Mem → Eff Unit
  | [], _, m => (.ok (), m)
  | (fs, none) :: r, x, m =>
    match delete E fs x m with
    | (.error e, m') => (.error e, m')
    | (.ok (), m') => storeAll E copy r x m'
  | (fs, some v) :: r, x, m =>
    match copy with
    | .none =>
      match post E fs v x m with
      | (.error e, m') => (.error e, m')
      | (.ok _, m') => storeAll E copy r x m'
    | some f =>
      match f m v with
      | .error e => (.error e, m)
      | .ok (m1, v1) =>
        match post E fs v1 x m1 with
        | (.error e, m') => (.error e, m')
        | (.ok _, m') => storeAll E copy r x m'

/-- What `copy=True` stands for (selector.py:895-896). -/
def deep (m : Mem) (r : Ref) : Except Exc (Mem × Ref) := .ok (deepcopy m r)

/-- `MultiFieldSelector.patch` (selector.py:870-902). -/
def mpatch (E : Env) (h : Heads) (copy : Option (Mem → Ref → Except Exc (Mem × Ref))) (target source : Ref)
    (m : Mem) : Eff Unit :=
  match fetch E source (Mfs.iter h) m with
  | .error e => (.error e, m)
  | .ok (m', l) => storeAll E copy l target m'

end Normalize.Mem
