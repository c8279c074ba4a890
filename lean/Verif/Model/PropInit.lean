import Verif.Model.Traits

/-!
# Initialising a property

Models the chain of `__init__` methods of the property types (`/repo/normalize/property/__init__.py:53-57, 332-352,
440-458, 473-491`, `/repo/normalize/property/coll.py:33-61, 75-107`, `/repo/normalize/property/json.py:38-70`) and the
types made by `make_property_type` (property/__init__.py:498-565).

Each `__init__` takes its own keyword arguments and hands on the others with `super().__init__(**kwargs)`; what it
hands on is a function of the class, so that also types that users write are covered.  `stockPass` is that of the
library.  Simplifications: no keyword is called `self`; the signatures of functions that are passed (`func_info`) are
right; what the attributes are set to is what is received.
-/

namespace Normalize.PropInit

open Normalize.Traits

/-- Unexpected or repeated keywords; something that an `__init__` refuses; no such type. -/
inductive IErr
  | typeError
  | refused
  | badId
  deriving DecidableEq, Repr

/-- Keyword arguments. -/
abbrev Kws (V : Type) := List (String × V)

/-- What the `__init__` methods do. -/
structure Inits (V : Type) where
  /-- what the choice of the type sees of a value -/
  kind : V → Kw
  /-- the `default_kwargs` of the types made by `make_property_type` -/
  made : Nat → Option (Kws V)
  /-- what the `__init__` of another type hands on, given its own arguments and the others -/
  pass : Nat → Kws V → Kws V → Except IErr (Kws V)

variable {V : Type}

/-- The loop over the defaults (property/__init__.py:553-555). -/
def fill : Kws V → Kws V → Kws V
  | [], kw => kw
  | (a, v) :: ds, kw => fill ds (if (alookup kw a).isSome then kw else aset kw a v)

/-- The arguments that are, or are not, named in a signature. -/
def ownKw (args : List String) (kw : Kws V) : Kws V := kw.filter (fun e => args.contains e.1)

def restKw (args : List String) (kw : Kws V) : Kws V := kw.filter (fun e => !args.contains e.1)

/-- The `__init__` methods along the `__mro__`, and what each receives for its own arguments.  `Property.__init__` has
no `**kwargs`. -/
def inits (I : Inits V) (r : Reg) : List Nat → Kws V → Except IErr (List (Nat × Kws V))
  | [], kw => if kw.isEmpty then .ok [] else .error .typeError
  | c :: cs, kw =>
    match r.types[c]? with
    | none => .error .badId
    | some t =>
      if t.own.contains "__init__" then
        match I.made c with
        | some ds => inits I r cs (fill ds kw)
        | none =>
          if c = 0 then
            if kw.all (fun e => t.args.contains e.1) then .ok [(c, kw)] else .error .typeError
          else
            match I.pass c (ownKw t.args kw) (restKw t.args kw) with
            | .error e => .error e
            | .ok kw' =>
              match inits I r cs kw' with
              | .error e => .error e
              | .ok log => .ok ((c, ownKw t.args kw) :: log)
      else inits I r cs kw

/-- The class statement that `make_property_type` makes (property/__init__.py:539-565). -/
def madeDecl (kind : V → Kw) (trait : String) (bases : List Nat) (defaults : Kws V) : Decl :=
  { trait := some trait, bases := bases, own := ["__init__"], defaults := defaults.map (fun e => (e.1, kind e.2)), args := ["self"] }

/-- What the library's `__init__` methods do with values. -/
structure Lib (V : Type) where
  kind : V → Kw
  /-- `not x` -/
  falsy : V → Bool
  isNone : V → Bool
  /-- `__hash__` is `None` -/
  mutable : V → Bool
  /-- `coll_type` of a list or dict property -/
  listType : V
  dictType : V
  /-- `issubclass(colltype, ListCollection)`, `issubclass(colltype, DictCollection)` -/
  isList : V → Bool
  isDict : V → Bool
  /-- the collection type that `of`, `coll` and `isa` give (coll.py:50-60), if they are not refused -/
  collection : Option V → Option V → Option V → Option V

variable (L : Lib V)

/-- `LazyProperty.__init__` (property/__init__.py:332-347) -/
def passLazy (own rest : Kws V) : Except IErr (Kws V) :=
  match alookup own "lazy" with
  | none => .ok rest
  | some v => if L.falsy v then .error .refused else .ok rest

/-- `V1Property.__init__` (property/__init__.py:443-458) -/
def passV1 (own rest : Kws V) : Except IErr (Kws V) :=
  match alookup own "v1_none" with
  | some v => if L.mutable v then .error .refused else .ok rest
  | none =>
    match alookup rest "default" with
    | none => .ok rest
    | some d => if L.kind d = .v1none then .ok (aerase rest "default") else .ok rest

/-- `CollectionProperty.__init__` (property/coll.py:33-61) -/
def passColl (own rest : Kws V) : Except IErr (Kws V) :=
  match L.collection (alookup own "of") (alookup own "coll") (alookup own "isa") with
  | none => .error .refused
  | some t => if (alookup rest "isa").isSome then .error .typeError else .ok (aset rest "isa" t)

/-- The first lines of `ListProperty.__init__` and `DictProperty.__init__`: the type of the items, and what is left. -/
def popOf (arg : String) (own rest : Kws V) : Option V × Kws V :=
  match alookup own arg with
  | none => (alookup rest "of", aerase rest "of")
  | some v => if L.isNone v then (alookup rest "of", aerase rest "of") else (some v, rest)

/-- `ListProperty.__init__`, `DictProperty.__init__` (property/coll.py:75-89, 96-107) -/
def passOf (arg : String) (dflt : V) (good : V → Bool) (own rest : Kws V) : Except IErr (Kws V) :=
  match popOf L arg own rest with
  | (none, _) => .error .refused
  | (some t, rest') =>
    if L.falsy t then .error .refused
    else if good ((alookup rest' "coll").getD dflt) then
      if (alookup rest' "of").isSome then .error .typeError
      else .ok (aset (aset (aerase rest' "coll") "of" t) "coll" ((alookup rest' "coll").getD dflt))
    else .error .refused

/-- The library's types, with their numbers in `Traits.stock`. -/
def stockPass : Nat → Kws V → Kws V → Except IErr (Kws V)
  | 1, own, rest => passLazy L own rest
  | 6, own, rest => passV1 L own rest
  | 8, own, rest => passColl L own rest
  | 10, own, rest => passOf L "list_of" L.listType L.isList own rest
  | 11, own, rest => passOf L "dict_of" L.dictType L.isDict own rest
  | _, _, rest => .ok rest

end Normalize.PropInit
