import Verif.Model.Repr

/-! What "`repr` prints a valid constructor" means, and for which values it is claimed. -/

namespace Normalize.Spec

open Normalize.Repr

/-- A name that python source can spell: ASCII letters, digits and `_`, not beginning with a digit, and no keyword. -/
def Spellable (s : String) : Prop :=
  (∃ c r, s.toList = c :: r ∧ idStart c = true ∧ ∀ d ∈ r, idCont d = true) ∧ s ∉ keywords

/-- The names a constructor has uses of its own for. -/
def ownNames : Kind → List String
  | .rcd => ["self", "init_dict"]
  | .list | .dict => ["self", "values", "init_dict"]
  | .jrcd => ["self", "json_data", "init_dict"]
  | .jlist | .jdict => ["self", "json_data", "values", "init_dict"]

/-- The classes in scope can be named in source, and so can their properties. -/
structure NamesOk (E : Env) : Prop where
  cls : ∀ cls c, E cls = some c → Spellable cls
  prop : ∀ cls c nm, E cls = some c → nm ∈ c.props.map (·.1) → Spellable nm
  nodup : ∀ cls c, E cls = some c → (c.props.map (·.1)).Nodup

/-- No property has a name the constructor has a use for. -/
def NoOwnNames (E : Env) : Prop :=
  ∀ cls c nm, E cls = some c → nm ∈ c.props.map (·.1) → nm ∉ ownNames c.kind

/-- The property accepts this value as it is. -/
structure TakesAsIs (p : PropD) (v : V) : Prop where
  type : p.valued = true → p.isa v = true
  check : p.check v = true
  notNone : p.required = true → p.valued = false → v ≠ .none

/-- The instance dict holds values of declared properties, each accepted by its property. -/
structure SlotsOk (c : Cls) (s : Slots) : Prop where
  sorted : s.Pairwise (fun a b => a.1 < b.1)
  accepted : ∀ e ∈ s, ∃ p, alookup c.props e.1 = some p ∧ TakesAsIs p e.2

/-- Every property that a constructor fills in has a value. -/
def Filled (c : Cls) (s : Slots) : Prop :=
  ∀ e ∈ c.props, eager e.2 = true → e.1 ∈ s.map (·.1)

/-- A value all of whose records and collections are of classes in scope and hold what their types allow. -/
inductive Fits (E : Env) : V → Prop
  | none : Fits E .none
  | bool (b : Bool) : Fits E (.bool b)
  | int (i : Int) : Fits E (.int i)
  | str (s : String) : Fits E (.str s)
  | list {xs : List V} (items : ∀ x ∈ xs, Fits E x) : Fits E (.list xs)
  | dict {xs : List (Comp × V)} (keys : (xs.map (·.1)).Nodup) (items : ∀ e ∈ xs, Fits E e.2) : Fits E (.dict xs)
  | rcd {cls : String} {c : Cls} {s : Slots} (scope : E cls = some c) (kind : c.kind = .rcd ∨ c.kind = .jrcd)
      (slots : SlotsOk c s) (values : ∀ e ∈ s, Fits E e.2) : Fits E (.rcd cls s)
  | listColl {cls : String} {c : Cls} {xs : List V} {s : Slots} (scope : E cls = some c)
      (kind : c.kind = .list ∨ c.kind = .jlist) (slots : SlotsOk c s) (values : ∀ e ∈ s, Fits E e.2)
      (types : ∀ x ∈ xs, c.itemIsa x = true) (items : ∀ x ∈ xs, Fits E x) : Fits E (.coll cls (.list xs) s)
  | dictColl {cls : String} {c : Cls} {xs : List (Comp × V)} {s : Slots} (scope : E cls = some c)
      (kind : c.kind = .dict ∨ c.kind = .jdict) (slots : SlotsOk c s) (values : ∀ e ∈ s, Fits E e.2)
      (keys : (xs.map (·.1)).Nodup) (types : ∀ e ∈ xs, c.itemIsa e.2 = true) (items : ∀ e ∈ xs, Fits E e.2) :
      Fits E (.coll cls (.dict xs) s)

/-- `P` holds of every record and collection in a value: of its class and its instance dict. -/
inductive Throughout (E : Env) (P : Cls → Slots → Prop) : V → Prop
  | none : Throughout E P .none
  | bool (b : Bool) : Throughout E P (.bool b)
  | int (i : Int) : Throughout E P (.int i)
  | str (s : String) : Throughout E P (.str s)
  | list {xs : List V} (items : ∀ x ∈ xs, Throughout E P x) : Throughout E P (.list xs)
  | dict {xs : List (Comp × V)} (items : ∀ e ∈ xs, Throughout E P e.2) : Throughout E P (.dict xs)
  | rcd {cls : String} {s : Slots} (here : ∀ c, E cls = some c → P c s) (values : ∀ e ∈ s, Throughout E P e.2) :
      Throughout E P (.rcd cls s)
  | coll {cls : String} {v : V} {s : Slots} (here : ∀ c, E cls = some c → P c s) (contents : Throughout E P v)
      (values : ∀ e ∈ s, Throughout E P e.2) : Throughout E P (.coll cls v s)

/-- `repr(v)` is python source, and evaluating it gives `v`. -/
def PrintsConstructor (printable : Char → Bool) (E : Env) (v : V) : Prop :=
  ∃ text, reprV printable E v = some text ∧ eval E text = some v

end Normalize.Spec
