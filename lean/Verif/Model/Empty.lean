import Verif.Model.Val

/-!
# Empty placeholders

Models `/repo/normalize/empty.py` and `EmptyAuxProp` (`/repo/normalize/property/__init__.py:312-322`).

Classes are names; a `World` says what their `__dict__`s hold.  Simplifications: attributes of metaclasses are not
found by `getattr(type_, name)`; the members of the tuples are classes or `any`, not tuples again; the item type of a
collection class is a class, `any` or a tuple of these.  The global `EMPTY_VALS`, and the two caches of each `EmptyVal`,
are the heap that is passed along; an object is its index.
-/

namespace Normalize.Empty

/-- A class, or the builtin `any` (empty.py:12). -/
inductive PTy
  | any
  | ty (n : String)
  deriving DecidableEq, Repr

/-- What `itertypes` is given (empty.py:23-32). -/
inductive Entry
  | one (t : PTy)
  | many (ts : List PTy)
  deriving DecidableEq, Repr

/-- `if type_ not in seen: …`, for each of the tuple (empty.py:25-28); what is yielded, and `seen`. -/
def eachType : List PTy → List PTy → List PTy × List PTy
  | [], seen => ([], seen)
  | t :: ts, seen =>
    if t ∈ seen then eachType ts seen
    else (t :: (eachType ts (t :: seen)).1, (eachType ts (t :: seen)).2)

/-- The loop of `itertypes` (empty.py:23-32). -/
def eachEntry : List Entry → List PTy → List PTy
  | [], _ => []
  | .many ts :: es, seen => (eachType ts seen).1 ++ eachEntry es (eachType ts seen).2
  | .one t :: es, seen => if t ∈ seen then eachEntry es seen else t :: eachEntry es (t :: seen)

/-- `itertypes` (empty.py:19-32). -/
def itertypes (es : List Entry) : List PTy := eachEntry es []

/-- A class attribute: `None`, something without a (true) `valuetype`, or something with one. -/
inductive Attr
  | pyNone
  | plain
  | typed (e : Entry)
  deriving DecidableEq

/-- The classes. -/
structure World where
  /-- `cls.__mro__` -/
  mro : String → List String
  /-- `cls.__dict__` -/
  dict : String → String → Option Attr
  /-- `cls.itemtype`, for the subclasses of `Collection` -/
  coll : String → Option Entry

variable (W : World)

/-- The first attribute along the `__mro__`. -/
def lookup (nm : String) : List String → Option Attr
  | [] => none
  | c :: cs =>
    match W.dict c nm with
    | some a => some a
    | none => lookup nm cs

/-- `getattr(type_, attr_name, None)` (empty.py:65), without a found `None`. -/
def getattr (c nm : String) : Option Attr :=
  match lookup W nm (W.mro c) with
  | some .pyNone => none
  | r => r

/-- `_typetuple` (empty.py:56). -/
inductive Types
  | any
  | tuple (ts : List PTy)
  deriving DecidableEq, Repr

/-- An `EmptyVal` (empty.py:55-58). -/
structure Obj where
  types : Types
  attrs : List (String × Nat) := []
  member : Option Nat := none

/-- `EMPTY_VALS` and the objects. -/
structure Heap where
  vals : List (Types × Nat) := []
  objs : List Obj := []

/-- `any in typetuple` (empty.py:12-13). -/
def typesOf (ts : List PTy) : Types := if .any ∈ ts then .any else .tuple ts

/-- `placeholder` of a tuple; a type is a tuple of one (empty.py:9-16). -/
def placeholder (h : Heap) (ts : List PTy) : Nat × Heap :=
  match alookup h.vals (typesOf ts) with
  | some i => (i, h)
  | none => (h.objs.length, ⟨aset h.vals (typesOf ts) h.objs.length, h.objs ++ [{ types := typesOf ts }]⟩)

/-- Exceptions (exc.py:135-139, 303-319); `badId` is no exception of python: there is no such object. -/
inductive EErr
  | noSuchAttribute
  | notSubscriptable
  | notCallable
  | badAssignment
  | badId
  deriving DecidableEq, Repr

/-- One round of the loop over the types (empty.py:64-70); `none` stands for `None` in `attrs_found`. -/
def attrFound (nm : String) : PTy → List (Option Attr)
  | .any => []
  | .ty c =>
    match getattr W c nm with
    | some a => [some a]
    | none => if (W.dict c "__getattr__").isSome then [none] else []

/-- `getattr(attr, "valuetype", False) or any` (empty.py:81). -/
def valuetype : Option Attr → Entry
  | some (.typed e) => e
  | _ => .one .any

/-- Store the `i`th object. -/
def Heap.put (h : Heap) (i : Nat) (o : Obj) : Heap := { h with objs := h.objs.set i o }

/-- Store the object for an attribute (empty.py:78-85). -/
def remember (h : Heap) (i : Nat) (nm : String) (j : Nat) : Heap :=
  match h.objs[i]? with
  | none => h
  | some o => h.put i { o with attrs := aset o.attrs nm j }

/-- `__getattr__` (empty.py:60-86), for names that `EmptyVal` itself does not have. -/
def access (h : Heap) (i : Nat) (nm : String) : Except EErr (Nat × Heap) :=
  match h.objs[i]? with
  | none => .error .badId
  | some o =>
    match o.types with
    | .any => .ok (i, h)
    | .tuple ts =>
      match alookup o.attrs nm with
      | some j => .ok (j, h)
      | none =>
        if (ts.flatMap (attrFound W nm)).isEmpty then .error .noSuchAttribute
        else
          .ok ((placeholder h (itertypes ((ts.flatMap (attrFound W nm)).map valuetype))).1,
            remember (placeholder h (itertypes ((ts.flatMap (attrFound W nm)).map valuetype))).2 i nm
              (placeholder h (itertypes ((ts.flatMap (attrFound W nm)).map valuetype))).1)

/-- `__setattr__` (empty.py:88-92); the three names are used by `EmptyVal` itself. -/
def setattr (nm : String) : Except EErr Unit :=
  if nm = "_typetuple" ∨ nm = "_attrs" ∨ nm = "_member_type" then .ok () else .error .badAssignment

/-- `__setitem__` (empty.py:94-95). -/
def setitem : Except EErr Unit := .error .badAssignment

/-- Is the entry there, and true? -/
def truthy : Option Attr → Bool
  | none | some .pyNone => false
  | _ => true

/-- `type_.__dict__.get("__call__", False)` (empty.py:101). -/
def callable : PTy → Bool
  | .any => false
  | .ty c => truthy (W.dict c "__call__")

/-- `__call__` (empty.py:97-103). -/
def call (h : Heap) (i : Nat) : Except EErr (Nat × Heap) :=
  match h.objs[i]? with
  | none => .error .badId
  | some o =>
    match o.types with
    | .any => .ok (i, h)
    | .tuple ts => if ts.any (callable W) then .ok (placeholder h [.any]) else .error .notCallable

/-- One round of the loop over the types (empty.py:112-117). -/
def itemFound : PTy → List Entry
  | .any => []
  | .ty c =>
    match W.coll c with
    | some e => [e]
    | none => if (W.dict c "__getitem__").isSome then [.one .any] else []

/-- Store the object for items (empty.py:122). -/
def rememberMember (h : Heap) (i j : Nat) : Heap :=
  match h.objs[i]? with
  | none => h
  | some o => h.put i { o with member := some j }

/-- `__getitem__` (empty.py:105-125). -/
def subscript (h : Heap) (i : Nat) (isSlice : Bool) : Except EErr (Nat × Heap) :=
  match h.objs[i]? with
  | none => .error .badId
  | some o =>
    match o.types with
    | .any => .ok (i, h)
    | .tuple ts =>
      if isSlice then .ok (i, h)
      else
        match o.member with
        | some j => .ok (j, h)
        | none =>
          if (ts.flatMap (itemFound W)).isEmpty then .error .notSubscriptable
          else
            .ok ((placeholder h (itertypes (ts.flatMap (itemFound W)))).1,
              rememberMember (placeholder h (itertypes (ts.flatMap (itemFound W)))).2 i
                (placeholder h (itertypes (ts.flatMap (itemFound W)))).1)

/-- `__bool__` (empty.py:127-128). -/
def truth (_ : Obj) : Bool := false

/-- What can be done with a placeholder. -/
inductive Op
  | attr (nm : String)
  | item
  | slice
  | call
  deriving DecidableEq

/-- Do it. -/
def run (h : Heap) (i : Nat) : Op → Except EErr (Nat × Heap)
  | .attr nm => access W h i nm
  | .item => subscript W h i false
  | .slice => subscript W h i true
  | .call => call W h i

/-- A chain like `p.author.comments[0].text`. -/
def chain (h : Heap) (i : Nat) : List Op → Except EErr (Nat × Heap)
  | [] => .ok (i, h)
  | op :: ops =>
    match run W h i op with
    | .error e => .error e
    | .ok (j, h') => chain h' j ops

/-- What the attribute `foo0` gives: a value, or a placeholder. -/
inductive Got (α : Type)
  | value (a : α)
  | empty (i : Nat)

/-- `valuetype or any`, as a tuple (property/__init__.py:315; empty.py:11). -/
def auxTypes : Option Entry → List PTy
  | none => [.any]
  | some (.one t) => [t]
  | some (.many ts) => ts

/-- `EmptyAuxProp.__get__` (property/__init__.py:317-322), where `get` is what `self.prop.__get__(obj)` does. -/
def auxGet {α : Type} (h : Heap) (vt : Option Entry) (get : Except Exc α) : Except Exc (Got α × Heap) :=
  match get with
  | .ok a => .ok (.value a, h)
  | .error e =>
    if e.isAttribute then .ok (.empty (placeholder h (auxTypes vt)).1, (placeholder h (auxTypes vt)).2) else .error e

end Normalize.Empty
