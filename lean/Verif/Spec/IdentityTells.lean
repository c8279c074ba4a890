import Verif.Spec.Hashing

/-!
# Which records can be told apart

Words used by the statements in `Verif.Props.IdentityTells`.
-/

namespace Normalize.Spec

open Normalize.Ident

/-- No class declares a primary key: a record is identified by all its values. -/
def NoPrimaryKeys (S : Schema) : Prop := ∀ c, (S.cls c).pk = []

/-- Every record in `v` has a value other than `None` in each property that is not extraneous. -/
def NoneLeftOut (S : Schema) (v : Val) : Prop :=
  ∀ d s, Sub (.rcd d s) v → ∀ p ∈ (S.cls d).props, p.extraneous = false →
    ∃ w, alookup s p.name = some w ∧ w ≠ Val.none

/-- The records and collections in `v` are of exactly the class they are declared to be of: no instances of
subclasses, no item types of which there are several, and no dict collections.  Properties may have any number of
types that are not record classes. -/
inductive ExactlyOf (S : Schema) : Ty → Val → Prop
  | other {n : Nat} {a : Atom} : ExactlyOf S (.other n) (.atom a)
  | rcd {c : String} {s : List (String × Val)} : (S.cls c).coll = none →
      (∀ p ∈ (S.cls c).props, p.extraneous = false → ∀ d, Ty.cls d ∈ p.types → p.types = [.cls d]) →
      (∀ p ∈ (S.cls c).props, p.extraneous = false → ∀ d, Ty.cls d ∈ p.types → ∀ w, alookup s p.name = some w →
        ExactlyOf S (.cls d) w) →
      ExactlyOf S (.cls c) (.rcd c s)
  | lcoll {c : String} {k : CollKind} {t : Ty} {xs : List Val} : (S.cls c).coll = some (k, .one t) →
      (∀ x ∈ xs, ExactlyOf S t x) → ExactlyOf S (.cls c) (.lcoll c xs)

/-- There is no dict collection in `v`. -/
def NoDictColls (v : Val) : Prop := ∀ c xs, ¬ Sub (.dcoll c xs) v

/-- No record in `v` is of a class that extends another class with properties. -/
def NoSubclassObjs (S : Schema) (v : Val) : Prop :=
  ∀ d s, Sub (.rcd d s) v → ∀ c, (S.cls c).props ≠ [] → ExtendsClass S d c → c = d

end Normalize.Spec
