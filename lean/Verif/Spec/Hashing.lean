import Verif.Spec.Identity

/-!
# Records whose values are of their declared types

Words used by the statements in `Verif.Props.Hashing`.
-/

namespace Normalize.Spec

open Normalize.Ident

/-- Class `d` is `c`, or extends it without redefining anything: it has all the properties of `c`, and is the
same kind of collection, if it is one. -/
def ExtendsClass (S : Schema) (d c : String) : Prop :=
  (∀ p ∈ (S.cls c).props, p ∈ (S.cls d).props) ∧ (S.cls d).coll = (S.cls c).coll

/-- `isinstance(v, t)`; the classes that are not records all have objects without parts. -/
def IsInstance (S : Schema) : Ty → Val → Prop
  | .other _, .atom _ => True
  | .cls c, .rcd d _ | .cls c, .lcoll d _ | .cls c, .dcoll d _ => ExtendsClass S d c
  | _, _ => False

/-- `isinstance(v, itemtype)`. -/
def IsItem (S : Schema) : ItemTy → Val → Prop
  | .one t, v => IsInstance S t v
  | .tup ts, v => ∃ t ∈ ts, IsInstance S t v

/-- An object whose every property has a value of its declared type, and whose collections have members of
their `itemtype`.  The values that are not records or collections are hashable, and a property without
a type holds such a value, or a record. -/
inductive OfDeclared (S : Schema) : Val → Prop
  | atom {a : Atom} : (S.atomHash a).isSome = true → OfDeclared S (.atom a)
  | rcd {c : String} {s : List (String × Val)} :
      (S.cls c).coll = none →
      (∀ x ∈ s, OfDeclared S x.2) →
      (∀ p ∈ (S.cls c).props, ∀ v, alookup s p.name = some v →
        v = Val.none ∨ (p.types = [] ∧ hashable S v = true) ∨ ∃ t ∈ p.types, IsInstance S t v) →
      OfDeclared S (.rcd c s)
  | lcoll {c : String} {k : CollKind} {it : ItemTy} {xs : List Val} :
      (S.cls c).coll = some (k, it) → (∀ x ∈ xs, OfDeclared S x) → (∀ x ∈ xs, IsItem S it x) →
      OfDeclared S (.lcoll c xs)
  | dcoll {c : String} {k : CollKind} {it : ItemTy} {xs : List (Comp × Val)} :
      (S.cls c).coll = some (k, it) → (∀ x ∈ xs, OfDeclared S x.2) → (∀ x ∈ xs, IsItem S it x.2) →
      OfDeclared S (.dcoll c xs)

/-- Classes as the metaclass builds them: properties have distinct names, a primary key consists of
properties, what an unset property reads as is `None` or a hashable value of a property whose type is no
record class; `None` is hashable. -/
structure ClassesOk (S : Schema) : Prop where
  names : ∀ c, ((S.cls c).props.map IProp.name).Nodup
  pk : ∀ c, ∀ p ∈ (S.cls c).pk, p ∈ (S.cls c).props
  unset : ∀ c, ∀ p ∈ (S.cls c).props, ∀ a, p.unset = some a →
    a = Atom.none ∨ ((S.atomHash a).isSome = true ∧ ∀ t ∈ p.types, ∃ n, t = .other n)
  none : (S.atomHash Atom.none).isSome = true

/-- No property may hold one of several types of which one is a record class. -/
def NoRecordUnions (S : Schema) : Prop :=
  ∀ c, ∀ p ∈ (S.cls c).props, (∀ t ∈ p.types, ∃ n, t = .other n) ∨ ∃ d, p.types = [.cls d]

/-- A typed collection without members. -/
def EmptyColl (v : Val) : Prop := (∃ c, v = .lcoll c []) ∨ ∃ c, v = .dcoll c []

/-- No record in `v` has an empty collection in a property that makes up its identity (or the identity it has
as an object of a class it extends). -/
def NoEmptyColls (S : Schema) (v : Val) : Prop :=
  ∀ d s, Sub (.rcd d s) v → ∀ c, ExtendsClass S d c → ∀ p, Identifies S c p →
    ∀ w, alookup s p.name = some w → ¬ EmptyColl w

/-- `hash(v)` gives a number, given enough stack. -/
def Hashes (S : Schema) (v : Val) : Prop := ∃ h N, ∀ n, N ≤ n → hash S n v = .ok h

/-- `record_id(v)` gives a key, given enough stack. -/
def HasIdentity (S : Schema) (v : Val) : Prop := ∃ k N, ∀ n, N ≤ n → recordId S n v = .ok k

end Normalize.Spec
