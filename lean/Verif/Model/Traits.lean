import Verif.Model.ClassMeta

/-!
# Choosing the type of a property

Models `has`, `create_property_type_from_traits` and `MetaProperty` (`/repo/normalize/property/meta.py`), which choose
the class of the object that a call like `Property(isa=int, json_name="x")` returns, with what python does around
them: the method resolution order, and `type.__call__`, which initialises the new object only if it is an instance of
the called class.

Property types are indices into the list of all of them.  Simplifications: all have the metaclass `MetaProperty`, so
`isinstance(proptype, type(self))` holds; the bases of a property type are property types; a `__trait__` is not the
empty string; positional arguments (which are refused) and names of classes are left out; keyword values matter only
for `traits` and `default`.
-/

namespace Normalize.Traits

/-! ## Sorted tuples of names -/

/-- Put a name into a sorted tuple. -/
def insT (x : String) : List String → List String
  | [] => [x]
  | y :: ys => if x = y then y :: ys else if x < y then x :: y :: ys else y :: insT x ys

/-- `tuple(sorted(set(...)))` -/
def norm : List String → List String
  | [] => []
  | x :: xs => insT x (norm xs)

/-- How python compares tuples. -/
def leT : List String → List String → Bool
  | [], _ => true
  | _ :: _, [] => false
  | a :: as, b :: bs => if a = b then leT as bs else decide (a < b)

/-- Put a tuple into a sorted list. -/
def insK (x : List String) : List (List String) → List (List String)
  | [] => [x]
  | y :: ys => if leT x y then x :: y :: ys else y :: insK x ys

/-- `sorted(...)` of tuples. -/
def sortK : List (List String) → List (List String)
  | [] => []
  | x :: xs => insK x (sortK xs)

/-! ## Property types -/

/-- The value of a keyword argument: a list, something for which `looks_like_v1_none` holds, anything else
(property/meta.py:32-33). -/
inductive Kw
  | list (l : List String)
  | v1none
  | other
  deriving DecidableEq, Repr

/-- A property type (property/meta.py:224-266). -/
structure PType where
  /-- `traits` -/
  traits : List String
  /-- its own `__trait__` -/
  trait : Option String
  /-- `__mro__`, itself included -/
  mro : List Nat
  /-- the names in its own class dictionary -/
  own : List String
  /-- its own `__safe_unless_ro__` -/
  safe : Option Bool
  /-- `default_kwargs` -/
  defaults : List (String × Kw)
  /-- `duckwargs` -/
  args : List String
  /-- `all_duckwargs` -/
  allArgs : List String
  deriving DecidableEq, Repr

/-- All property types, `PROPERTY_TYPES` and `DUCKWARGS` (property/meta.py:23, 27). -/
structure Reg where
  types : List PType := []
  reg : List (List String × Nat) := []
  duck : List (String × List String × Nat) := []
  deriving DecidableEq, Repr

/-- Exceptions.  `diverge`: out of steps, for the bounds in the model. -/
inductive PErr
  | argumentNotKnown
  | attributeError
  | mixinNotPossible
  | mixinFailure
  | typeClash
  | keyError
  | valueError
  | typeError
  | mroConflict
  | diverge
  | badId
  deriving DecidableEq, Repr

/-- A lookup in `PROPERTY_TYPES`. -/
def lookupT : List (List String × Nat) → List String → Option Nat
  | [], _ => none
  | (k', i) :: rest, k => if k' = k then some i else lookupT rest k

/-- The `__mro__` of a type. -/
def mroT (r : Reg) (b : Nat) : List Nat :=
  match r.types[b]? with
  | none => []
  | some t => t.mro

/-- The `traits` of a type. -/
def traitsT (r : Reg) (b : Nat) : List String :=
  match r.types[b]? with
  | none => []
  | some t => t.traits

/-- The `all_duckwargs` of a type. -/
def allArgsT (r : Reg) (b : Nat) : List String :=
  match r.types[b]? with
  | none => []
  | some t => t.allArgs

/-- The `default_kwargs` of a type. -/
def defaultsT (r : Reg) (b : Nat) : List (String × Kw) :=
  match r.types[b]? with
  | none => []
  | some t => t.defaults

/-- `__safe_unless_ro__` along the given classes. -/
def findSafe (r : Reg) : List Nat → Bool
  | [] => false
  | c :: cs =>
    match r.types[c]? with
    | none => findSafe r cs
    | some t =>
      match t.safe with
      | some b => b
      | none => findSafe r cs

/-- `proptype.__safe_unless_ro__` -/
def safeT (r : Reg) (b : Nat) : Bool := findSafe r (mroT r b)

/-- The class among the given ones whose dictionary has the name: where python finds a method. -/
def findOwner (r : Reg) (nm : String) : List Nat → Option Nat
  | [] => none
  | c :: cs =>
    match r.types[c]? with
    | none => findOwner r nm cs
    | some t => if t.own.contains nm then some c else findOwner r nm cs

/-- The class from which a type has the method. -/
def owner (r : Reg) (b : Nat) (nm : String) : Option Nat := findOwner r nm (mroT r b)

/-- A class statement for a property type. -/
structure Decl where
  trait : Option String := none
  bases : List Nat
  own : List String := []
  safe : Option Bool := none
  defaults : List (String × Kw) := []
  /-- the arguments of its `__init__` -/
  args : List String := []
  deriving DecidableEq, Repr

/-- The traits of the new type (property/meta.py:240-250). -/
def newTraits (r : Reg) (d : Decl) : List String := norm (d.trait.toList ++ d.bases.flatMap (traitsT r))

/-- `MetaProperty.__new__` (property/meta.py:224-266). -/
def newType (r : Reg) (d : Decl) : Except PErr Nat × Reg :=
  if d.bases.any (fun b => decide (r.types.length ≤ b)) then (.error .badId, r)
  else
    match lookupT r.reg (newTraits r d) with
    | some _ => (.error .typeClash, r)
    | none =>
      match ClassMeta.merge (ClassMeta.total (d.bases.map (mroT r) ++ [d.bases])) (d.bases.map (mroT r) ++ [d.bases]) with
      | none => (.error .mroConflict, r)
      | some m =>
        (.ok r.types.length,
          { types := r.types ++ [{ traits := newTraits r d, trait := d.trait, mro := r.types.length :: m, own := d.own,
                                   safe := d.safe, defaults := d.defaults, args := d.args,
                                   allArgs := d.args ++ d.bases.flatMap (allArgsT r) }]
            reg := r.reg ++ [(newTraits r d, r.types.length)]
            duck := r.duck ++ (if d.trait.isSome then d.args.map (fun a => (a, newTraits r d, r.types.length)) else []) })

/-! ## `create_property_type_from_traits` -/

/-- How many of the wanted traits are missing? -/
def shortfall (wanted have_ : List String) : Nat := (wanted.filter (fun t => !have_.contains t)).length

/-- The loop over the types to mix in (property/meta.py:185-199): the choice with its product, and the value that the
loop variable is left with. -/
def scanOthers (r : Reg) (wanted base : List String) : List (List String) → Nat → Option (List String × List String) →
    Option (List String) → Option (List String × List String) × Option (List String)
  | [], _, mix, last => (mix, last)
  | o :: os, sf, mix, _ =>
    if (lookupT r.reg (norm (base ++ o))).isSome then scanOthers r wanted base os sf mix (some o)
    else if shortfall wanted (base ++ o) < sf then
      if shortfall wanted (base ++ o) = 0 then (some (o, norm (base ++ o)), some o)
      else scanOthers r wanted base os (shortfall wanted (base ++ o)) (some (o, norm (base ++ o))) (some o)
    else scanOthers r wanted base os sf mix (some o)

/-- `stock_types[mixed_in_product] = new_type`; only the keys are ever used. -/
def addKey (stock : List (List String)) (k : List String) : List (List String) :=
  if stock.contains k then stock else stock ++ [k]

/-- One round of `for base in sorted(start_with)` (property/meta.py:176-211): the stock and whether a type was made. -/
def oneBase (r : Reg) (wanted : List String) (stock : List (List String)) (base : List String) :
    Except PErr (List (List String) × Bool) × Reg :=
  match scanOthers r wanted base (sortK stock) (wanted.length - base.length) none none with
  | (some (_, product), some other) =>
    match lookupT r.reg base with
    | none => (.error .keyError, r)
    | some bt =>
      match lookupT r.reg other with
      | none => (.error .keyError, r)
      | some ot =>
        match newType r { bases := [bt, ot] } with
        | (.error e, r') => (.error e, r')
        | (.ok _, r') => (.ok (addKey stock product, true), r')
  | _ => (.ok (stock, false), r)

/-- `for base in sorted(start_with)` (property/meta.py:172-211). -/
def eachBase (wanted : List String) (longest : Nat) : Reg → List (List String) → Bool → List (List String) →
    Except PErr (List (List String) × Bool) × Reg
  | r, stock, made, [] => (.ok (stock, made), r)
  | r, stock, made, b :: bs =>
    if b.length ≠ longest then eachBase wanted longest r stock made bs
    else
      match oneBase r wanted stock b with
      | (.error e, r') => (.error e, r')
      | (.ok (stock', made'), r') => eachBase wanted longest r' stock' (made || made') bs

/-- Which types to start with (property/meta.py:163-165). -/
def startWith (wanted : List String) (stock : List (List String)) : List (List String) :=
  stock.filter (fun k => !k.isEmpty && decide (k.head? = wanted.head?))

/-- `max(len(x) for x in start_with)` -/
def maxLen : List (List String) → Nat
  | [] => 0
  | k :: ks => max k.length (maxLen ks)

/-- `while trait_set not in PROPERTY_TYPES` (property/meta.py:158-216).  The first argument bounds the rounds. -/
def compose (wanted : List String) : Nat → Reg → List (List String) → Except PErr Unit × Reg
  | 0, r, _ => (.error .diverge, r)
  | n + 1, r, stock =>
    if (lookupT r.reg wanted).isSome then (.ok (), r)
    else
      match startWith wanted stock with
      | [] => (.error .valueError, r)
      | k :: ks =>
        match eachBase wanted (maxLen (k :: ks)) r stock false (sortK (k :: ks)) with
        | (.error e, r') => (.error e, r')
        | (.ok (stock', made), r') => if made then compose wanted n r' stock' else (.error .mixinFailure, r')

/-- The types with no trait that is not wanted (property/meta.py:144-147). -/
def stockTypes (r : Reg) (wanted : List String) : List (List String) :=
  (r.reg.map (·.1)).filter (fun k => k.all wanted.contains)

/-- Wanted, and in none of the types (property/meta.py:149-153). -/
def missing (r : Reg) (wanted : List String) : List String :=
  wanted.filter (fun t => !(stockTypes r wanted).any (fun k => k.contains t))

/-- `create_property_type_from_traits` (property/meta.py:131-216). -/
def create (r : Reg) (wanted : List String) : Except PErr Unit × Reg :=
  match missing r wanted with
  | _ :: _ => (.error .mixinNotPossible, r)
  | [] => compose wanted (2 ^ wanted.length + 1) r (stockTypes r wanted)

/-! ## `has` -/

/-- What `DUCKWARGS` has for an argument. -/
def duckOf (r : Reg) (a : String) : List (List String × Nat) := (r.duck.filter (fun e => decide (e.1 = a))).map (·.2)

/-- The distinct entries of a list. -/
def distinct : List (List String) → List (List String)
  | [] => []
  | k :: ks => if ks.contains k then distinct ks else k :: distinct ks

/-- The loop over the arguments (property/meta.py:61-88): the extra traits and whether it should be safe.  The
exception for an ambiguous argument is meant to be another one, but making its text raises an `AttributeError`. -/
def scanArgs (r : Reg) (self : Nat) : List (String × Kw) → List String → Bool → Except PErr (List String × Bool)
  | [], extra, sf => .ok (extra, sf)
  | (a, _) :: rest, extra, sf =>
    if (allArgsT r self).contains a then scanArgs r self rest extra sf
    else
      match distinct ((duckOf r a).map (·.1)) with
      | [] => .error .argumentNotKnown
      | [ts] => scanArgs r self rest (extra ++ ts) (sf || (duckOf r a).any (fun e => safeT r e.2))
      | _ => .error .attributeError

/-- `kwargs.pop('traits', tuple())` (property/meta.py:55). -/
def popTraits (kw : List (String × Kw)) : Except PErr (List String) :=
  match alookup kw "traits" with
  | none => .ok []
  | some (.list l) => .ok l
  | some _ => .error .typeError

/-- Is one of `required`, `isa` and `check` given (property/meta.py:57-59)? -/
def wantsSafe (kw : List (String × Kw)) : Bool := kw.any (fun e => ["required", "isa", "check"].contains e.1)

/-- Adding and removing `safe` and `unsafe` (property/meta.py:92-95). -/
def adjustSafe (all : List String) (sf : Bool) : List String :=
  if all.contains "unsafe" && !all.contains "safe" then all.filter (fun t => t ≠ "unsafe")
  else if !all.contains "ro" && sf then all ++ ["safe"]
  else all

/-- Adding `v1` (property/meta.py:97-101). -/
def adjustV1 (all : List String) (kw : List (String × Kw)) : List String :=
  if !all.contains "v1" && decide (alookup kw "default" = some .v1none) then all ++ ["v1", "safe"] else all

/-- The traits the type must have (property/meta.py:55-103). -/
def traitKey (r : Reg) (self : Nat) (kw : List (String × Kw)) : Except PErr (List String) :=
  match popTraits kw with
  | .error e => .error e
  | .ok extra =>
    match scanArgs r self (kw.filter (fun e => e.1 ≠ "traits")) extra (safeT r self || wantsSafe kw) with
    | .error e => .error e
    | .ok (extra', sf) => .ok (norm (adjustV1 (adjustSafe (traitsT r self ++ extra') sf) kw))

/-- `has`, up to the call of `super(...).__new__` (property/meta.py:36-111). -/
def has (r : Reg) (self : Nat) (kw : List (String × Kw)) : Except PErr Nat × Reg :=
  match traitKey r self kw with
  | .error e => (.error e, r)
  | .ok key =>
    match lookupT r.reg key with
    | some i => (.ok i, r)
    | none =>
      match create r key with
      | (.error e, r') => (.error e, r')
      | (.ok _, r') =>
        match lookupT r'.reg key with
        | some i => (.ok i, r')
        | none => (.error .keyError, r')

/-! ## Calling a property type -/

/-- `mixed_kwargs` (property/meta.py:230-231). -/
def mixKw : List (String × Kw) → List (String × Kw) → List (String × Kw)
  | d, [] => d
  | d, (k, v) :: rest => mixKw (aset d k v) rest

/-- What follows `c` in a list. -/
def after (c : Nat) : List Nat → Option (List Nat)
  | [] => none
  | d :: ds => if d = c then some ds else after c ds

/-- `_has` of the class `selfie`, called with the class `self` (property/meta.py:229-232, 113): `has`, and then the
`__new__` of the next class, which is `_has` again, or that of `object`.  The first argument bounds the calls. -/
def construct : Nat → Reg → Nat → Nat → List (String × Kw) → Except PErr Nat × Reg
  | 0, r, _, _, _ => (.error .diverge, r)
  | n + 1, r, selfie, self, kw =>
    match has r self (mixKw (defaultsT r selfie) kw) with
    | (.error e, r') => (.error e, r')
    | (.ok pt, r') =>
      match after selfie (mroT r' self) with
      | none => (.error .typeError, r')
      | some [] => (.ok pt, r')
      | some (b :: _) => construct n r' b pt []

/-- Calling a property type: the type of the object returned. -/
def call (n : Nat) (r : Reg) (cls : Nat) (kw : List (String × Kw)) : Except PErr Nat × Reg :=
  if r.types.length ≤ cls then (.error .badId, r) else construct n r cls cls kw


/-! ## The types of the library -/

/-- `Property` (property/__init__.py:47-64). -/
def propertyDecl : Decl :=
  { bases := []
    own := ["__init__", "__get__"]
    safe := some false
    args := ["self", "isa", "coerce", "check", "required", "default", "traits", "extraneous", "empty_attr", "doc"] }

/-- Only `Property`. -/
def initial : Reg := (newType {} propertyDecl).2

/-- Several class statements. -/
def declareAll : Reg → List Decl → Reg
  | r, [] => r
  | r, d :: ds => declareAll (newType r d).2 ds

/-- The types of property/__init__.py:325-492 and property/coll.py, property/json.py, from number 1 on. -/
def stockDecls : List Decl :=
  [ { trait := some "lazy", bases := [0], own := ["__init__", "__get__", "init_prop", "eager_init", "slot_is_empty"], args := ["self", "lazy"] },
    { trait := some "ro", bases := [0], own := ["__set__", "__delete__"] },
    { bases := [1, 2], own := ["__get__"] },
    { trait := some "safe", bases := [0], own := ["__set__", "__delete__"] },
    { bases := [4, 1], own := ["__get__"] },
    { trait := some "v1", bases := [4], own := ["__init__", "slot_is_empty", "attribute_error_hook", "__set__"], args := ["self", "v1_none"] },
    { trait := some "diffas", bases := [0], own := ["__init__"], args := ["self", "compare_as"] },
    { trait := some "coll", bases := [0], own := ["__init__"], safe := some true, args := ["self", "of", "coll", "isa"] },
    { bases := [8, 4], own := ["__set__"] },
    { trait := some "list", bases := [8], own := ["__init__"], args := ["self", "list_of"] },
    { trait := some "dict", bases := [8], own := ["__init__"], args := ["self", "dict_of"] },
    { trait := some "json", bases := [0], own := ["__init__", "to_json", "from_json"], args := ["self", "json_name", "json_in", "json_out"] },
    { bases := [12, 4] },
    { bases := [10, 12] },
    { bases := [11, 12] } ]

/-- The property types after `import normalize.property.json`. -/
def stock : Reg := declareAll initial stockDecls

end Normalize.Traits
