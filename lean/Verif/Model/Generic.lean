import Verif.Model.Coll

/-!
# Generic collection types

Models `/repo/normalize/coll.py:451-511`: `GENERIC_TYPES`, `_make_generic`, `list_of`, `dict_of`, and pickling of
generic collections.  Classes are given by an identity (a number) and the names the code looks at.
-/

namespace Normalize.Generic

open Normalize.Coll

/-- A class used as item type. -/
structure PyType where
  id : Nat
  module : String
  name : String
  deriving DecidableEq, Repr

/-- A collection class used as container; `isDict` for `DictCollection` and its subclasses. -/
structure Container where
  id : Nat
  name : String
  suffix : String
  isDict : Bool
  deriving DecidableEq, Repr

/-- `ListCollection` (coll.py:297-302). -/
def listCollection : Container := ⟨0, "ListCollection", "List", false⟩

/-- `DictCollection` (coll.py:203-210). -/
def dictCollection : Container := ⟨1, "DictCollection", "Map", true⟩

/-- `generic_key` -/
abbrev TypeKey := String × String

/-- A generated class (coll.py:491-495). -/
structure GCls where
  id : Nat
  name : String
  base : Container
  itemtype : PyType
  key : TypeKey
  deriving DecidableEq, Repr

/-- The state `_make_generic` works on. -/
structure World where
  /-- `GENERIC_TYPES` -/
  types : List (TypeKey × GCls) := []
  /-- attributes of modules, with the identity of the object found there -/
  attrs : List ((String × String) × Nat) := []
  /-- identity of the next class that is created -/
  next : Nat := 0

/-- The key of a generic type (coll.py:486). -/
def keyOf (of : PyType) (coll : Container) : TypeKey := (coll.name, of.module ++ "." ++ of.name)

/-- The class that a first call creates (coll.py:492-495). -/
def newCls (of : PyType) (coll : Container) (id : Nat) : GCls :=
  ⟨id, of.name ++ coll.suffix, coll, of, keyOf of coll⟩

/-- `if not hasattr(mod, name): setattr(mod, name, cls)` (coll.py:497-498). -/
def publish (attrs : List ((String × String) × Nat)) (m nm : String) (id : Nat) : List ((String × String) × Nat) :=
  if (alookup attrs (m, nm)).isSome then attrs else aset attrs (m, nm) id

/-- `_make_generic` (coll.py:471-499).  `loaded` tells which modules are in `sys.modules`; if that of the item
type is not, the class has already been registered when `KeyError` is raised. -/
def makeGeneric (loaded : String → Bool) (of : PyType) (coll : Container) (w : World) : Except Exc GCls × World :=
  match alookup w.types (keyOf of coll) with
  | some g => if g.itemtype ≠ of then (.error .propertyNotUnique, w) else (.ok g, w)
  | none =>
    if loaded of.module then
      (.ok (newCls of coll w.next),
        { types := aset w.types (keyOf of coll) (newCls of coll w.next)
          attrs := publish w.attrs of.module (of.name ++ coll.suffix) w.next
          next := w.next + 1 })
    else
      (.error .keyError,
        { types := aset w.types (keyOf of coll) (newCls of coll w.next)
          attrs := w.attrs
          next := w.next + 1 })

/-- `list_of` and `dict_of` (coll.py:502-507). -/
inductive Call
  | listOf (of : PyType)
  | dictOf (of : PyType)
  deriving DecidableEq, Repr

/-- The container of a call. -/
def Call.container : Call → Container
  | .listOf _ => listCollection
  | .dictOf _ => dictCollection

/-- The item type of a call. -/
def Call.of : Call → PyType
  | .listOf t | .dictOf t => t

/-- One call. -/
def call (loaded : String → Bool) (c : Call) (w : World) : Except Exc GCls × World :=
  makeGeneric loaded c.of c.container w

/-- A history of calls, each with its result. -/
def calls (loaded : String → Bool) : List Call → World → List (Call × Except Exc GCls) × World
  | [], w => ([], w)
  | c :: cs, w =>
    ((c, (call loaded c w).1) :: (calls loaded cs (call loaded c w).2).1, (calls loaded cs (call loaded c w).2).2)

/-! ## Pickling -/

/-- The contents of a collection. -/
inductive Contents (V K : Type)
  | list (xs : List V)
  | dict (xs : List (K × V))
  deriving DecidableEq

/-- The key after the renaming of `__builtin__` (coll.py:462-463); `rename` is
`.replace('__builtin__', 'builtins')`. -/
def fixKey (rename : String → String) (k : TypeKey) : TypeKey :=
  if "__builtin__".toList.isPrefixOf k.2.toList then (k.1, rename k.2) else k

variable {V K : Type} [DecidableEq K]

/-- The constructor of a generated class with `values=` (coll.py:88-106). -/
def construct (T : Nat → CT V) (num : Nat → K) (g : GCls) (c : Contents V K) : Except Exc (Contents V K) :=
  match g.base.isDict, c with
  | false, .list xs => (listInit (K := K) (T g.itemtype.id) (.seq xs)).map .list
  | false, .dict xs => (listInit (T g.itemtype.id) (.mapping xs none)).map .list
  | true, .list xs => (dictInit (T g.itemtype.id) num (.seq xs)).map .dict
  | true, .dict xs => (dictInit (T g.itemtype.id) num (.mapping xs none)).map .dict

/-- What `_Generic.__reduce__` (coll.py:470-472) hands to pickle: `generic_key` as found through the class of
the object, which may be a subclass of the generated one, and the values. -/
def reduce (generic_key : TypeKey) (c : Contents V K) : TypeKey × Contents V K := (generic_key, c)

/-- `_GenericPickler.__call__` (coll.py:461-464): the class and contents of the object that comes back. -/
def unpickle (T : Nat → CT V) (num : Nat → K) (rename : String → String) (w : World) (p : TypeKey × Contents V K) :
    Except Exc (GCls × Contents V K) :=
  match alookup w.types (fixKey rename p.1) with
  | none => .error .keyError
  | some g => (construct T num g p.2).map (fun c => (g, c))

end Normalize.Generic
