import Verif.Model.Generic

/-!
# Declaring collection properties

Models `CollectionProperty.__init__`, `ListProperty.__init__` and `DictProperty.__init__`
(`/repo/normalize/property/coll.py:33-61, 75-89, 96-107`): which type of collection a declaration gives, along a history
of declarations and of `list_of`/`dict_of`, which share the registry of generated types (`Generic`).

Simplifications: what is passed for `of`, `coll` and `isa` are classes, or nothing; what is passed for `coll` is a
collection class that was not generated; other arguments are left out (`PropInit` has their way through the
constructors).
-/

namespace Normalize.CollProp

open Normalize.Generic

/-- A collection class: written by someone, or generated. -/
inductive CRef
  | cls (c : Container)
  | gen (g : GCls)
  deriving DecidableEq, Repr

/-- The classes. -/
structure Classes where
  /-- `issubclass` of item types -/
  subItem : PyType → PyType → Bool
  /-- `issubclass` of collection classes -/
  subColl : Container → Container → Bool
  /-- the `itemtype` of a collection class, if it is declared (coll.py:64-69) -/
  itemtype : Container → Option PyType
  /-- `sys.modules` -/
  loaded : String → Bool

/-- Exceptions. -/
inductive CErr
  | collRequired
  | collTypeMismatch
  | collectionDefinition
  | listOfWhat
  | dictOfWhat
  | mustDeriveList
  | mustDeriveDict
  | attributeError
  | typeError
  | propertyNotUnique
  | keyError
  deriving DecidableEq, Repr

variable (W : Classes)

/-- `issubclass(isa, coll)`; a generated class has two bases, the container and `_Generic` (coll.py:494-496). -/
def isSub (i : CRef) (c : Container) : Bool :=
  match i with
  | .cls k => W.subColl k c
  | .gen g => W.subColl g.base c

/-- `isa.itemtype` -/
def itemOf (i : CRef) : Option PyType :=
  match i with
  | .cls k => W.itemtype k
  | .gen g => some g.itemtype

/-- `_make_generic` (coll.py:475-503); without a type, `of.__module__` raises. -/
def generic (of : Option PyType) (coll : Container) (w : World) : Except CErr CRef × World :=
  match of with
  | none => (.error .attributeError, w)
  | some t =>
    match makeGeneric W.loaded t coll w with
    | (.ok g, w') => (.ok (.gen g), w')
    | (.error .propertyNotUnique, w') => (.error .propertyNotUnique, w')
    | (.error _, w') => (.error .keyError, w')

/-- `CollectionProperty.__init__` (property/coll.py:33-61). -/
def collType (of : Option PyType) (coll : Option Container) (isa : Option CRef) (w : World) : Except CErr CRef × World :=
  match isa, coll with
  | none, none => (.error .collRequired, w)
  | none, some c => generic W of c w
  | some i, coll =>
    if coll.any (fun c => !isSub W i c) then (.error .collTypeMismatch, w)
    else
      match itemOf W i with
      | none => (.error .collectionDefinition, w)
      | some t => if of.any (fun o => !W.subItem o t) then (.error .collTypeMismatch, w) else (.ok i, w)

/-- A declaration: `CollectionProperty(of=, coll=, isa=)`, `ListProperty(list_of=, of=, coll=, isa=)` with the `coll_type`
of the class, the same for dicts, and `list_of` or `dict_of`. -/
inductive CDecl
  | coll (of : Option PyType) (coll : Option Container) (isa : Option CRef)
  | list (listOf of : Option PyType) (coll : Option Container) (isa : Option CRef) (collType : Container)
  | dict (dictOf of : Option PyType) (coll : Option Container) (isa : Option CRef) (collType : Container)
  | generic (of : PyType) (coll : Container)

/-- One declaration: the type of the collections (property/coll.py:75-107, coll.py:506-511). -/
def declare (d : CDecl) (w : World) : Except CErr CRef × World :=
  match d with
  | .coll of coll isa => collType W of coll isa w
  | .list listOf of coll isa ct =>
    match listOf, of with
    | none, none => (.error .listOfWhat, w)
    | some t, of' =>
      if W.subColl (coll.getD ct) listCollection then
        if of'.isSome then (.error .typeError, w) else collType W (some t) (some (coll.getD ct)) isa w
      else (.error .mustDeriveList, w)
    | none, some t =>
      if W.subColl (coll.getD ct) listCollection then collType W (some t) (some (coll.getD ct)) isa w else (.error .mustDeriveList, w)
  | .dict dictOf of coll isa ct =>
    match dictOf, of with
    | none, none => (.error .dictOfWhat, w)
    | some t, of' =>
      if W.subColl (coll.getD ct) dictCollection then
        if of'.isSome then (.error .typeError, w) else collType W (some t) (some (coll.getD ct)) isa w
      else (.error .mustDeriveDict, w)
    | none, some t =>
      if W.subColl (coll.getD ct) dictCollection then collType W (some t) (some (coll.getD ct)) isa w else (.error .mustDeriveDict, w)
  | .generic of coll => generic W (some of) coll w

/-- A history of declarations. -/
def declares : List CDecl → World → World
  | [], w => w
  | d :: ds, w => declares ds (declare W d w).2

end Normalize.CollProp
