import Verif.Model.Coll
import Verif.Model.Property

/-!
# Collections with properties

Collection classes are record classes, so they may have properties of their own besides their items
(`/repo/normalize/coll.py:88-106`, `/repo/normalize/record/json.py:363-372`).  A collection object is its items
(`_values`) together with the slots of its properties.

Simplifications: a default does not look at the items; no property is called `values` or `_values`.
-/

namespace Normalize.CollExtra

open Normalize.Coll Normalize.Slots

variable {V D : Type}

/-- A collection object: `_values`, and the slots of the properties. -/
structure Obj (V D : Type) where
  items : D
  st : State V

/-- A call on a collection object: of a method of the collection, or an attribute operation on a property. -/
inductive COp (V O : Type)
  | coll (o : O)
  | attr (o : Op V)

/-- What a call returns. -/
inductive COut (V R : Type)
  | coll (r : Except Exc R)
  | attr (r : Except Exc V)

/-- One call; `step` is what the method does to `_values` (coll.py:192-200, 240-294, 342-418). -/
def cstep {O R : Type} [DecidableEq V] (step : O → D → Except Exc R × D) (w : World V) (c : Cls V) (n : Nat)
    (o : COp V O) (x : Obj V D) : Option (COut V R × Obj V D) :=
  match o with
  | .coll o => some (.coll (step o x.items).1, { x with items := (step o x.items).2 })
  | .attr o =>
    match exec w c n x.st o with
    | none => none
    | some (r, st') => some (.attr r, { x with st := st' })

/-- A sequence of calls. -/
def crun {O R : Type} [DecidableEq V] (step : O → D → Except Exc R × D) (w : World V) (c : Cls V) (n : Nat) :
    List (COp V O) → Obj V D → Option (List (COut V R) × Obj V D)
  | [], x => some ([], x)
  | o :: os, x =>
    match cstep step w c n o x with
    | none => none
    | some (r, x') =>
      match crun step w c n os x' with
      | none => none
      | some (rs, x'') => some (r :: rs, x'')

variable [DecidableEq V]

/-- The second half of `Collection.__init__` (coll.py:106): `Record.__init__` with the keyword arguments. -/
def withProps (w : World V) (c : Cls V) (n : Nat) (ord : List String → List String) (kw : List (String × V)) (d : D) :
    Option (Except Exc (Obj V D)) :=
  match Slots.construct w c n ord [] kw with
  | none => none
  | some (.error e, _) => some (.error e)
  | some (.ok (), st) => some (.ok ⟨d, st⟩)

/-- `Collection.__init__` (coll.py:88-106): the items first, then the properties. -/
def new (w : World V) (c : Cls V) (n : Nat) (ord : List String → List String) (items : Except Exc D)
    (kw : List (String × V)) : Option (Except Exc (Obj V D)) :=
  match items with
  | .error e => some (.error e)
  | .ok d => withProps w c n ord kw d

variable (C : CT V) (w : World V) (c : Cls V) (n : Nat) (ord : List String → List String)

/-- `type(self)(values)` for a list collection. -/
def newList (xs : List V) (kw : List (String × V)) : Option (Except Exc (Obj V (List V))) :=
  new w c n ord (coerceAll C ⟨xs, none⟩) kw

/-- `coll + other` with another collection (coll.py:427). -/
def add (x : Obj V (List V)) (ys : List V) : Option (Except Exc (Obj V (List V))) :=
  newList C w c n ord (x.items ++ ys) []

/-- `coll + other` with a plain list (coll.py:423-427). -/
def addPlain (x : Obj V (List V)) (ys : List V) : Option (Except Exc (Obj V (List V))) :=
  match newList C w c n ord ys [] with
  | none => none
  | some (.error e) => some (.error e)
  | some (.ok y) => add C w c n ord x y.items

/-- `==` of lists. -/
def listEq (eq : V → V → Bool) : List V → List V → Bool
  | [], [] => true
  | a :: as, b :: bs => eq a b && listEq eq as bs
  | _, _ => false

/-- `==` of two collections of the same class (coll.py:115-124). -/
def ceq (x y : Obj V (List V)) : Bool := listEq C.eq x.items y.items

/-- `==` of a collection and a plain list (coll.py:120-124). -/
def ceqPlain (x : Obj V (List V)) (ys : List V) : Option (Except Exc Bool) :=
  match newList C w c n ord ys [] with
  | none => none
  | some (.error e) => some (.error e)
  | some (.ok y) => some (.ok (ceq C x y))

/-- `to_json` of a list collection (record/json.py:225-231, 422-425). -/
def toJson {J : Type} (out : V → Except Exc J) (x : Obj V (List V)) : Except Exc (List J) := mapE out x.items

/-- `from_json` for a class of `JsonRecordList` (record/json.py:363-420), with the conversion of one item. -/
def fromJson {J : Type} (inn : J → Except Exc V) (js : List J) : Option (Except Exc (Obj V (List V))) :=
  match mapE inn js with
  | .error e => some (.error e)
  | .ok xs => newList C w c n ord xs []

/-- Pickling then unpickling an object of a collection class defined with `class` (record/__init__.py:69-83): the
instance dict has the items and the properties.  `copy` is what pickling does to each value. -/
def repickled (copy : V → V) (x : Obj V (List V)) : Obj V (List V) := ⟨x.items.map copy, repickle copy x.st⟩

/-- Pickling then unpickling an object of a class that derives from `list_of(…)` (coll.py:454-472): the constructor of
the generated class, which has no properties, is called with the items. -/
def repickledGeneric (copy : V → V) (x : Obj V (List V)) : Option (Except Exc (Obj V (List V))) :=
  newList C w ⟨[]⟩ n ord (x.items.map copy) []

/-- A difference between two collections: of a property, or of the items. -/
inductive Change (I : Type)
  | added (prop : String)
  | removed (prop : String)
  | modified (prop : String)
  | item (i : I)
  deriving DecidableEq

/-- One round of `compare_record_iter` for a property whose values are not compared further (diff.py:401-484). -/
def slotDiff {I : Type} (x y : Obj V D) (nm : String) : Option (Change I) :=
  match x.st.slots nm, y.st.slots nm with
  | none, none => none
  | none, some _ => some (.added nm)
  | some _, none => some (.removed nm)
  | some a, some b => if w.eq a b then none else some (.modified nm)

/-- `diff_iter` of two collections (diff.py:962-968, 1005-1017): the items (`compare_collection_iter`), then the
properties (`compare_record_iter`), which are given in order. -/
def cdiff {I : Type} (names : List String) (itemDiff : D → D → List I) (x y : Obj V D) : List (Change I) :=
  (itemDiff x.items y.items).map .item ++ names.filterMap (slotDiff w x y)

end Normalize.CollExtra
