import Verif.Model.Coll

/-!
# Python's own list and dict, and what "on the coerced items" means

`pyList` and `pyDict` say what the python methods of the same name do.
-/

namespace Normalize.Coll

open Normalize.Py

variable {V K : Type} [DecidableEq K]

/-- Where `list.insert(i, …)` puts the item. -/
def insertPos (n : Nat) (i : Int) : Nat := if i < 0 then (i + n).toNat else min i.toNat n

/-- `list.index(x, i, j)`: the first position between the bounds that holds an equal item. -/
def pyFind (eq : V → V → Bool) (xs : List V) (x : V) (i : Int) (j : Option Int) : Option Nat :=
  (List.range xs.length).find? (fun k =>
    decide ((if i < 0 then i + xs.length else i) ≤ (k : Int)) &&
    decide ((k : Int) < (match j with | none => (xs.length : Int) | some j => if j < 0 then j + xs.length else j)) &&
    (match xs[k]? with | some y => eq y x | none => false))

/-- What a python list does. -/
def pyList (eq : V → V → Bool) (o : LOp V) (xs : List V) : Except Exc (LRet V) × List V :=
  match o with
  | .append v => (.ok .unit, xs ++ [v])
  | .extend it =>
    (match it.raises with | none => .ok .unit | some e => .error e, xs ++ it.items)
  | .getItem i => (ret .item (Py.getItem xs i), xs)
  | .getSlice s => (ret .items (Py.getSlice xs s), xs)
  | .setItem i v =>
    match Py.setItem xs i v with | .ok ys => (.ok .unit, ys) | .error e => (.error e, xs)
  | .setSlice s it =>
    if s.stride = 0 then (.error .valueError, xs)
    else
      match it.raises with
      | some e => (.error e, xs)
      | none => match Py.setSlice xs s it.items with | .ok ys => (.ok .unit, ys) | .error e => (.error e, xs)
  | .delItem i => match Py.delItem xs i with | .ok ys => (.ok .unit, ys) | .error e => (.error e, xs)
  | .delSlice s => match Py.delSlice xs s with | .ok ys => (.ok .unit, ys) | .error e => (.error e, xs)
  | .insert i v => (.ok .unit, xs.take (insertPos xs.length i) ++ v :: xs.drop (insertPos xs.length i))
  | .pop i =>
    match pyIndex xs.length i with
    | none => (.error .indexError, xs)
    | some k =>
      match xs[k]? with
      | some x => (.ok (.item x), xs.eraseIdx k)
      | none => (.error .indexError, xs)
  | .remove v =>
    match pyFind eq xs v 0 none with
    | some k => (.ok .unit, xs.eraseIdx k)
    | none => (.error .valueError, xs)
  | .index v i j =>
    match pyFind eq xs v i j with
    | some k => (.ok (.nat k), xs)
    | none => (.error .valueError, xs)
  | .count v => (.ok (.nat (xs.filter (fun y => eq y v)).length), xs)
  | .contains v => (.ok (.bool (xs.any (fun y => eq y v))), xs)
  | .reverse => (.ok .unit, xs.reverse)
  | .sort le => (.ok .unit, xs.mergeSort le)
  | .len => (.ok (.nat xs.length), xs)
  | .iter => (.ok (.items xs), xs)
  | .addList ys => (.ok (.coll (xs ++ ys)), xs)
  | .addColl ys => (.ok (.coll (xs ++ ys)), xs)

variable (C : CT V)

/-- The same call with its items coerced; an exception if one cannot be. -/
def coerceOp : LOp V → Except Exc (LOp V)
  | .append v => ret' .append (coerceValue C v)
  | .extend it => ret' (fun l => .extend ⟨l, it.raises⟩) (mapE (coerceValue C) it.items)
  | .setItem i v => ret' (.setItem i) (coerceValue C v)
  | .setSlice s it => ret' (fun l => .setSlice s ⟨l, it.raises⟩) (mapE (coerceValue C) it.items)
  | .insert i v => ret' (.insert i) (coerceValue C v)
  | .contains v => ret' .contains (coerceValue C v)
  | .addList ys => ret' .addList (mapE (coerceValue C) ys)
  | .addColl ys => ret' .addColl (mapE (coerceValue C) ys)
  | o => .ok o
where
  /-- pass an exception on -/
  ret' {α : Type} (f : α → LOp V) : Except Exc α → Except Exc (LOp V)
    | .ok a => .ok (f a)
    | .error e => .error e

/-- `coerceitem` returns items of the right type. -/
def ItemOK : Prop := ∀ v w, C.coerce v = .ok w → C.inst w = true

/-- Every member is of the item type. -/
def AllItems (xs : List V) : Prop := ∀ x ∈ xs, C.inst x = true

/-- Every value is of the item type. -/
def AllValues (d : List (K × V)) : Prop := ∀ x ∈ d, C.inst x.2 = true

/-- Calls on which `ListCollection` agrees with `list`: not `insert`, `pop` not before the start, `index` not
told to look past the end. -/
def Agrees (o : LOp V) (xs : List V) : Prop :=
  match o with
  | .insert _ _ => False
  | .pop i => -(xs.length : Int) ≤ i
  | .index _ _ (some j) => j ≤ xs.length
  | _ => True

/-! ## dict -/

/-- `dict.update` with pairs. -/
def setAll : List (K × V) → List (K × V) → List (K × V)
  | [], d => d
  | (k, v) :: kvs, d => setAll kvs (aset d k v)

/-- What a python dict does. -/
def pyDict (o : DOp V K) (d : List (K × V)) : Except Exc (DRet V K) × List (K × V) :=
  match o with
  | .getItem k => (match alookup d k with | some v => .ok (.item v) | none => .error .keyError, d)
  | .setItem k v => (.ok .unit, aset d k v)
  | .delItem k => (if (alookup d k).isSome then .ok .unit else .error .keyError, aerase d k)
  | .clear => (.ok .unit, [])
  | .pop k => (match alookup d k with | some v => .ok (.item v) | none => .error .keyError, aerase d k)
  | .popitem =>
    match d.getLast? with
    | some (k, v) => (.ok (.pair k v), d.dropLast)
    | none => (.error .keyError, d)
  | .update kvs none kw => (.ok .unit, setAll kw (setAll kvs d))
  | .update kvs (some e) _ => (.error e, setAll kvs d)
  | .contains k => (.ok (.bool (alookup d k).isSome), d)
  | .keys => (.ok (.keys (d.map (·.1))), d)
  | .values => (.ok (.items (d.map (·.2))), d)
  | .items => (.ok (.pairs d), d)
  | .len => (.ok (.nat d.length), d)
  | .iter => (.ok (.keys (d.map (·.1))), d)

/-- Coerce the value of a pair. -/
def coercePair (x : K × V) : Except Exc (K × V) :=
  match coerceValue C x.2 with
  | .ok w => .ok (x.1, w)
  | .error e => .error e

/-- Coerce the values of pairs. -/
def coercePairs (kvs : List (K × V)) : Except Exc (List (K × V)) := mapE (coercePair C) kvs

/-- The same call with its items coerced. -/
def coerceDOp : DOp V K → Except Exc (DOp V K)
  | .setItem k v => match coerceValue C v with | .ok w => .ok (.setItem k w) | .error e => .error e
  | .update kvs r kw =>
    match coercePairs C kvs with
    | .error e => .error e
    | .ok kvs' =>
      match coercePairs C kw with
      | .error e => .error e
      | .ok kw' => .ok (.update kvs' r kw')
  | o => .ok o

/-- The mapping a call leaves behind, seen as a function of the key. -/
def mapAfter (o : DOp V K) (m : K → Option V) (last : Option K) : K → Option V :=
  match o with
  | .setItem k v => fun x => if x = k then some v else m x
  | .delItem k | .pop k => fun x => if x = k then none else m x
  | .clear => fun _ => none
  | .popitem => fun x => if some x = last then none else m x
  | .update kvs r kw => fun x =>
    ((match r with | none => kvs ++ kw | some _ => kvs : List (K × V)).reverse.find? (fun (e : K × V) => decide (e.1 = x))).elim
      (m x) (fun e => some e.2)
  | _ => m

end Normalize.Coll
