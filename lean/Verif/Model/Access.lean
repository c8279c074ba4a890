import Verif.Model.Val
import Verif.Model.Util

/-!
# FieldSelector access: get, put, post, delete

Models `/repo/normalize/selector.py:32-39, 120-359`.  Classes are abstracted by `Env`: what the properties
of each record class and the item types of each collection class do.  `Verif.Model.Property` models where
these come from (`Env.assign` is `setattr`, see `Verif.Props.Access`).

Simplifications: attributes are the instance dict and what unset `V1Property`s read as, not methods or class
attributes; a lazy property is one that has been read already; `v1_none` is an object without
parts.  Python before 3.12 (slices are not hashable).
-/

namespace Normalize

/-- A declared property as seen through `getattr`/`setattr`/`delattr` (property/__init__.py). -/
structure Attr where
  /-- `setattr`: given what the slot holds, the new slot, or an exception (then nothing changes) -/
  assign : Option Val → Val → Except Exc (Option Val)
  /-- `delattr`: may the slot be emptied? -/
  remove : Option Val → Except Exc Unit
  /-- what an unset property reads as (`V1Property`); `none` for `AttributeError` -/
  unset : Option Atom
  /-- calling `prop.valuetype` with no or one keyword argument; `none` when there is no `valuetype` -/
  make : Option (Option (String × Val) → Except Exc Val)

/-- The classes. -/
structure Env where
  /-- `type(record).properties.get(name)` -/
  attr : String → String → Option Attr
  /-- `Collection.coerce_value` (coll.py:135-149) -/
  coerceItem : String → Val → Except Exc Val
  /-- `itemtype(**kwarg)` -/
  makeItem : String → Option (String × Val) → Except Exc Val

/-- `_try_index` (selector.py:32-39). -/
def tryIndex : Val → Comp → Bool
  | .atom (.str _), _ => false
  | _, .int _ => true
  | .list _, _ | .dict _, _ | .lcoll _ _, _ | .dcoll _ _, _ => true
  | _, _ => false

/-- `record[selector]` for an int or string selector (python lists and dicts; coll.py:193-194). -/
def getItem : Val → Comp → Except Exc Val
  | .list xs, .int i | .lcoll _ xs, .int i =>
    match getIdx xs i with
    | some v => .ok v
    | .none => .error .indexError
  | .dict xs, c | .dcoll _ xs, c =>
    match alookup xs c with
    | some v => .ok v
    | .none => .error .keyError
  | _, _ => .error .typeError

/-- `getattr(record, selector)`. -/
def getAttr (E : Env) : Val → Comp → Except Exc Val
  | .rcd cls sl, .str nm =>
    match alookup sl nm with
    | some v => .ok v
    | .none =>
      match (E.attr cls nm).bind (·.unset) with
      | some v => .ok (.atom v)
      | .none => .error .attributeError
  | _, .str _ => .error .attributeError
  | _, _ => .error .typeError

/-- One non-`None` step of `get` (selector.py:155-167). -/
def step (E : Env) (x : Val) (c : Comp) : Except Exc Val :=
  if tryIndex x c then
    match getItem x c with
    | .ok v => .ok v
    | .error .indexError => .error (.fsKey c)
    | .error e => .error e
  else
    match getAttr E x c with
    | .ok v => .ok v
    | .error .attributeError =>
      .error (.fsAttribute (match c with | .str nm => nm | _ => ""))
    | .error e => .error e

/-- What a dict key or character is as an object. -/
def ofComp : Comp → Val
  | .str s => .str s
  | .int i => .int i
  | .none => .none

/-- `for r in record`: dicts and dict collections iterate over their keys, strings over their characters
(coll.py:108-112). -/
def iterVal : Val → Except Exc (List Val)
  | .list xs | .lcoll _ xs => .ok xs
  | .dict xs | .dcoll _ xs => .ok (xs.map (fun x => ofComp x.1))
  | .atom (.str s) => .ok (s.toList.map (fun c => .str (String.singleton c)))
  | _ => .error .typeError

/-- `all_exc` while a loop over a collection runs (selector.py:143-152, 331-340). -/
inductive AllExc
  /-- `None`: no item seen -/
  | start
  /-- `False`: some item succeeded -/
  | good
  /-- the first exception, no success so far -/
  | exc (e : Exc)

/-- An item succeeded. -/
def AllExc.success (_ : AllExc) : AllExc := .good

/-- An item raised `FieldSelectorException`. -/
def AllExc.failure (s : AllExc) (e : Exc) : AllExc :=
  match s with
  | .start => .exc e
  | s => s

/-- The loop of a wildcard `get` (selector.py:142-157), over the results of the items in order. -/
def wildGet : List (Except Exc Val) → AllExc → List Val → Except Exc Val
  | [], .exc e, _ => .error e
  | [], _, rv => .ok (.list rv)
  | .ok v :: rs, s, rv => wildGet rs s.success (rv ++ [v])
  | .error e :: rs, s, rv =>
    if e.isFieldSelector then wildGet rs (s.failure e) (rv ++ [.none]) else .error e

/-- `FieldSelector.get` (selector.py:120-170). -/
def get (E : Env) : FS → Val → Except Exc Val
  | [], x => .ok x
  | .none :: p, x =>
    match iterVal x with
    | .error e => .error e
    | .ok items => wildGet (items.map (get E p)) .start []
  | c :: p, x =>
    match step E x c with
    | .error e => .error e
    | .ok y => get E p y

/-- `FieldSelector.get_or_none` (selector.py:172-182). -/
def getOrNone (E : Env) (fs : FS) (x : Val) : Except Exc Val :=
  match get E fs x with
  | .ok v => .ok v
  | .error e => if e.isFieldSelector then .ok .none else .error e

/-! ## Writing -/

/-- An operation's outcome, and the object afterwards. -/
abbrev Eff (α : Type) := Except Exc α × Val

/-- The object after one of its parts was changed in place.  An unset attribute has no such part. -/
def replaceChild : Val → Comp → Val → Val
  | .list xs, .int i, y => .list (setIdx xs i y)
  | .lcoll cls xs, .int i, y => .lcoll cls (setIdx xs i y)
  | .dict xs, c, y => .dict (areplace xs c y)
  | .dcoll cls xs, c, y => .dcoll cls (areplace xs c y)
  | .rcd cls sl, .str nm, y => .rcd cls (areplace sl nm y)
  | x, _, _ => x

/-- `record[selector] = value` (python lists and dicts; coll.py:196-197, 398-402). -/
def setItem (E : Env) (x : Val) (c : Comp) (v : Val) : Eff Unit :=
  match x, c with
  | .list xs, .int i =>
    match pyIndex xs.length i with
    | some _ => (.ok (), .list (setIdx xs i v))
    | .none => (.error .indexError, x)
  | .lcoll cls xs, .int i =>
    match E.coerceItem cls v with
    | .error e => (.error e, x)
    | .ok v' =>
      match pyIndex xs.length i with
      | some _ => (.ok (), .lcoll cls (setIdx xs i v'))
      | .none => (.error .indexError, x)
  | .lcoll cls _, _ =>
    match E.coerceItem cls v with
    | .error e => (.error e, x)
    | .ok _ => (.error .typeError, x)
  | .dict xs, c => (.ok (), .dict (aset xs c v))
  | .dcoll cls xs, c =>
    match E.coerceItem cls v with
    | .error e => (.error e, x)
    | .ok v' => (.ok (), .dcoll cls (aset xs c v'))
  | x, _ => (.error .typeError, x)

/-- The instance dict with one slot set or emptied. -/
def setSlot (sl : List (String × Val)) (nm : String) : Option Val → List (String × Val)
  | some v => aset sl nm v
  | .none => aerase sl nm

/-- `setattr(record, selector, value)`; undeclared names are plain instance attributes. -/
def setAttr (E : Env) (x : Val) (c : Comp) (v : Val) : Eff Unit :=
  match x, c with
  | .rcd cls sl, .str nm =>
    match E.attr cls nm with
    | .none => (.ok (), .rcd cls (aset sl nm v))
    | some a =>
      match a.assign (alookup sl nm) v with
      | .error e => (.error e, x)
      | .ok s => (.ok (), .rcd cls (setSlot sl nm s))
  | x, .str _ => (.error .attributeError, x)
  | x, _ => (.error .typeError, x)

/-- `record[:] = value` (python lists; coll.py:398-400, the generator is consumed before the list is
changed). -/
def setAll (E : Env) (x v : Val) : Eff Unit :=
  match x with
  | .list _ =>
    match iterVal v with
    | .error e => (.error e, x)
    | .ok vs => (.ok (), .list vs)
  | .lcoll cls _ =>
    match iterVal v with
    | .error e => (.error e, x)
    | .ok vs =>
      match mapE (E.coerceItem cls) vs with
      | .error e => (.error e, x)
      | .ok vs' => (.ok (), .lcoll cls vs')
  | .dcoll cls _ =>
    match E.coerceItem cls v with
    | .error e => (.error e, x)
    | .ok _ => (.error .typeError, x)
  | x => (.error .typeError, x)

/-- `put` with a single component (selector.py:194-212). -/
def put1 (E : Env) (c : Comp) (v x : Val) : Eff Unit :=
  match c with
  | .none => setAll E x v
  | c =>
    if tryIndex x c then
      match setItem E x c v with
      | (.error e, x') => (.error (if e.isLookup then .fsException else e), x')
      | r => r
    else
      match setAttr E x c v with
      | (.error e, x') => (.error (if e.isAttribute then .fsException else e), x')
      | r => r

/-- One step of `put` with more to come (selector.py:220-236). -/
def stepPut (E : Env) (x : Val) (c : Comp) : Except Exc Val :=
  if tryIndex x c then
    match getItem x c with
    | .ok v => .ok v
    | .error e => .error (if e.isIndex then .fsException else e)
  else
    match getAttr E x c with
    | .ok v => .ok v
    | .error e => .error (if e.isAttribute then .fsException else e)

/-- Apply an operation to each item in order, stopping at an exception; all items are returned. -/
def forItems (f : Val → Eff Unit) : List Val → Except Exc Unit × List Val
  | [] => (.ok (), [])
  | x :: xs =>
    match f x with
    | (.error e, x') => (.error e, x' :: xs)
    | (.ok (), x') =>
      let r := forItems f xs
      (r.1, x' :: r.2)

/-- The container after its items were changed in place; keys and characters do not change. -/
def withItems : Val → List Val → Val
  | .list _, xs => .list xs
  | .lcoll cls _, xs => .lcoll cls xs
  | x, _ => x

/-- `FieldSelector.put` (selector.py:184-237). -/
def put (E : Env) : FS → Val → Val → Eff Unit
  | [], _, x => (.error .indexError, x)
  | [c], v, x => put1 E c v x
  | .none :: p, v, x =>
    match iterVal x with
    | .error e => (.error e, x)
    | .ok items =>
      let r := forItems (put E p v) items
      (r.1, withItems x r.2)
  | c :: p, v, x =>
    match stepPut E x c with
    | .error e => (.error e, x)
    | .ok y =>
      let r := put E p v y
      (r.1, replaceChild x c r.2)

/-! ## post -/

/-- The keyword argument for a created item: `{last: value}` when the component before the last is being
created (selector.py:263-264). -/
def kwarg : FS → Val → Option (Comp × Val)
  | [.none], _ => none
  | [d], v => some (d, v)
  | _, _ => none

/-- `f(**kwarg)`: keywords must be strings. -/
def callKw (f : Option (String × Val) → Except Exc Val) : Option (Comp × Val) → Except Exc Val
  | .none => f .none
  | some (.str s, v) => f (some (s, v))
  | some _ => .error .typeError

/-- `type(record).itemtype(**kwarg)`; only collections have an `itemtype`. -/
def newItem (E : Env) : Val → Option (Comp × Val) → Except Exc Val
  | .lcoll cls _, kw | .dcoll cls _, kw => callKw (E.makeItem cls) kw
  | _, _ => .error .attributeError

/-- `record.append(item)` (coll.py:342-345). -/
def append (E : Env) (x v : Val) : Eff Unit :=
  match x with
  | .list xs => (.ok (), .list (xs ++ [v]))
  | .lcoll cls xs =>
    match E.coerceItem cls v with
    | .error e => (.error e, x)
    | .ok v' => (.ok (), .lcoll cls (xs ++ [v']))
  | x => (.error .attributeError, x)

/-- `len(record)` of a list-like. -/
def lenVal : Val → Nat
  | .list xs | .lcoll _ xs => xs.length
  | .dict xs | .dcoll _ xs => xs.length
  | _ => 0

/-- The value made for a missing attribute (selector.py:287-294). -/
def newAttr (E : Env) (x : Val) (c : Comp) (kw : Option (Comp × Val)) : Except Exc Val :=
  match x, c with
  | .rcd cls _, .str nm =>
    match E.attr cls nm with
    | .none => .error .keyError
    | some a =>
      match a.make with
      | .none => .error .fsException
      | some f => callKw f kw
  | _, _ => .error .attributeError

/-- How one step of `post` (selector.py:254-297) leaves things. -/
inductive Walk
  /-- the exception that ends the call -/
  | fail (e : Exc)
  /-- go on with the part found at the component -/
  | child (y : Val)
  /-- go on with the same record: the `KeyError` branch does not rebind `record` (selector.py:281-284) -/
  | same

/-- One non-`None` step of `post` before the last component: the record afterwards, whether the value was
already passed to a constructor (`put_final`), and where to go on. -/
def stepPost (E : Env) (x : Val) (c : Comp) (kw : Option (Comp × Val)) : Val × Bool × Walk :=
  if tryIndex x c then
    match getItem x c with
    | .ok y => (x, false, .child y)
    | .error .indexError =>
      if c = .int (lenVal x) then
        match newItem E x kw with
        | .error e => (x, false, .fail e)
        | .ok it =>
          match append E x it with
          | (.error e, x') => (x', false, .fail e)
          | (.ok (), x') =>
            match getItem x' c with
            | .error e => (x', false, .fail e)
            | .ok y => (x', kw.isSome, .child y)
      else (x, false, .fail .valueError)
    | .error .keyError =>
      match newItem E x kw with
      | .error e => (x, false, .fail e)
      | .ok it =>
        match setItem E x c it with
        | (.error e, x') => (x', false, .fail e)
        | (.ok (), x') => (x', kw.isSome, .same)
    | .error e => (x, false, .fail e)
  else
    match getAttr E x c with
    | .ok y => (x, false, .child y)
    | .error .attributeError =>
      match newAttr E x c kw with
      | .error e => (x, false, .fail e)
      | .ok v =>
        match setAttr E x c v with
        | (.error e, x') => (x', false, .fail e)
        | (.ok (), x') =>
          match getAttr E x' c with
          | .error e => (x', false, .fail e)
          | .ok y => (x', kw.isSome, .child y)
    | .error e => (x, false, .fail e)

/-- `FieldSelector.post` (selector.py:239-301).  `sub_field_selector.post(r)` on line 258 lacks an argument,
so it raises `TypeError` if there is an item. -/
def post (E : Env) : FS → Val → Val → Eff Nat
  | [], _, x => (.error .indexError, x)
  | [c], v, x =>
    match put1 E c v x with
    | (.error e, x') => (.error e, x')
    | (.ok (), x') => (.ok 1, x')
  | .none :: _, _, x =>
    match iterVal x with
    | .error e => (.error e, x)
    | .ok [] => (.ok 0, x)
    | .ok _ => (.error .typeError, x)
  | c :: p, v, x =>
    match stepPost E x c (kwarg p v) with
    | (x', _, .fail e) => (.error e, x')
    | (x', true, _) => (.ok 1, x')
    | (x', false, .child y) =>
      let r := post E p v y
      (r.1, replaceChild x' c r.2)
    | (x', false, .same) => post E p v x'

/-! ## delete -/

/-- `del record[selector]` (python lists and dicts; coll.py:199-200). -/
def delItem (x : Val) (c : Comp) : Eff Unit :=
  match x, c with
  | .list xs, .int i =>
    match pyIndex xs.length i with
    | some k => (.ok (), .list (xs.eraseIdx k))
    | .none => (.error .indexError, x)
  | .lcoll cls xs, .int i =>
    match pyIndex xs.length i with
    | some k => (.ok (), .lcoll cls (xs.eraseIdx k))
    | .none => (.error .indexError, x)
  | .dict xs, c =>
    if (alookup xs c).isSome then (.ok (), .dict (aerase xs c)) else (.error .keyError, x)
  | .dcoll cls xs, c =>
    if (alookup xs c).isSome then (.ok (), .dcoll cls (aerase xs c)) else (.error .keyError, x)
  | x, _ => (.error .typeError, x)

/-- `delattr(record, name)` after `hasattr` said yes. -/
def delAttr (E : Env) (x : Val) (nm : String) : Eff Unit :=
  match x with
  | .rcd cls sl =>
    match E.attr cls nm with
    | .none => (.ok (), .rcd cls (aerase sl nm))
    | some a =>
      match a.remove (alookup sl nm) with
      | .error e => (.error e, x)
      | .ok () => (.ok (), .rcd cls (aerase sl nm))
  | x => (.error .attributeError, x)

/-- `record.clear()` or `record[:] = ()` (selector.py:350-354). -/
def clearVal : Val → Val
  | .list _ => .list []
  | .lcoll cls _ => .lcoll cls []
  | .dict _ => .dict []
  | .dcoll cls _ => .dcoll cls []
  | x => x

/-- The last component of `delete` (selector.py:347-359). -/
def delete1 (E : Env) (c : Comp) (x : Val) : Eff Unit :=
  if tryIndex x c then
    match c with
    | .none => (.ok (), clearVal x)
    | c => delItem x c
  else
    match c with
    | .str nm =>
      match getAttr E x c with
      | .ok _ => delAttr E x nm
      | .error .attributeError => (.ok (), x)
      | .error e => (.error e, x)
    | _ => (.error .typeError, x)

/-- The loop of a wildcard `delete` (selector.py:330-344). -/
def wildDelete (f : Val → Eff Unit) : List Val → AllExc → Except Exc Unit × List Val
  | [], .exc e => (.error e, [])
  | [], _ => (.ok (), [])
  | x :: xs, s =>
    match f x with
    | (.ok (), x') =>
      let r := wildDelete f xs s.success
      (r.1, x' :: r.2)
    | (.error e, x') =>
      if e.isFieldSelector then
        let r := wildDelete f xs (s.failure e)
        (r.1, x' :: r.2)
      else (.error e, x' :: xs)

/-- `FieldSelector.delete` (selector.py:303-359). -/
def delete (E : Env) : FS → Val → Eff Unit
  | [], x => (.error .indexError, x)
  | [c], x => delete1 E c x
  | .none :: p, x =>
    match iterVal x with
    | .error e => (.error e, x)
    | .ok items =>
      let r := wildDelete (delete E p) items .start
      (r.1, withItems x r.2)
  | c :: p, x =>
    match step E x c with
    | .error e => (.error e, x)
    | .ok y =>
      let r := delete E p y
      (r.1, replaceChild x c r.2)

end Normalize
