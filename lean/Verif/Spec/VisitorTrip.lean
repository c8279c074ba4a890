import Verif.Spec.Visitor

/-!
# Which objects should survive `visit` and `cast`
-/

namespace Normalize.Spec
open Visit
open Ident (IProp Ty ItemTy CollKind veq WF)
open Json (Setup JInfo instOf isItem clsOf)

/-- `reverse` undoes `apply` for this value, and neither result is ignored. -/
structure Inverts (o : Opts) (ap rev : Leaf) (v : Val) (p : Option IProp) (path : FS) : Prop where
  out : ∃ j, ap (.val v) p path = .ok j ∧ Kept o j ∧ clsOf j = none ∧ rev (.val j) p path = .ok v
  kept : Kept o v

/-- The class has properties that are not filtered out. -/
def HasChosen (J : Setup) (o : Opts) (sel : Option (List FS)) (path : FS) (c : String) : Prop :=
  ∃ p ∈ (J.S.cls c).props, Chosen o sel path p

/-- What is not shown does not matter for equality, and the record can be made without it. -/
structure MayHide (J : Setup) (o : Opts) (sel : Option (List FS)) (path : FS) (c : String) (s : List (String × Val))
    (p : IProp) : Prop where
  hidden : ∀ v, alookup s p.name = some v → ¬ Chosen o sel path p → p.extraneous = true
  /-- it is no `V1Property` -/
  v1 : p.unset = none
  eager : Eager J c p → ¬ ((∃ v, alookup s p.name = some v) ∧ Chosen o sel path p) → p.extraneous = true ∧
    ∃ d, (J.info c p.name).default = some d ∧ Accepted J (J.info c p.name) p.types d

/-- The visited properties of the collection class are unset in the object (this model has no collections in which
they are set), and none is called "values", the name under which the members are shown. -/
def UnsetProps (J : Setup) (o : Opts) (sel : Option (List FS)) (path : FS) (c : String) : Prop :=
  ∀ p ∈ (J.S.cls c).props, Chosen o sel path p → p.unset = none ∧ p.name ≠ "values"

/-- The record types among these types. -/
def recordTypes : List Ty → List String
  | [] => []
  | .cls d :: ts => d :: recordTypes ts
  | .other _ :: ts => recordTypes ts

/-- It is no collection without members. -/
def HasMembers : Val → Prop
  | .lcoll _ xs => xs ≠ []
  | .dcoll _ xs => xs ≠ []
  | _ => True

mutual
/-- The object can be rebuilt from what a visit shows of it. -/
inductive Trip (J : Setup) (o : Opts) (sel : Option (List FS)) (ap rev : Leaf) : FS → Val → Prop
  | record {path c s} : (J.S.cls c).coll = none → HasChosen J o sel path c →
      (∀ p ∈ (J.S.cls c).props, MayHide J o sel path c s p) →
      (∀ p v, p ∈ (J.S.cls c).props → alookup s p.name = some v → Chosen o sel path p →
        TripField J o sel ap rev (path ++ [.str p.name]) c p v) →
      Trip J o sel ap rev path (.rcd c s)
  | list {path c xs t} : (J.S.cls c).coll = some (.list, .one t) → UnsetProps J o sel path c →
      (∀ (i : Nat) v, xs[i]? = some v → TripItem J o sel ap rev (path ++ [.int i]) t v) →
      Trip J o sel ap rev path (.lcoll c xs)
  | dict {path c xs t} : (J.S.cls c).coll = some (.dict, .one t) → UnsetProps J o sel path c →
      (xs.map (·.1)).Nodup →
      (∀ x ∈ xs, TripItem J o sel ap rev (path ++ [x.1]) t x.2) →
      Trip J o sel ap rev path (.dcoll c xs)
/-- The value at `path` of the property `p` can be rebuilt. -/
inductive TripField (J : Setup) (o : Opts) (sel : Option (List FS)) (ap rev : Leaf) :
    FS → String → IProp → Val → Prop
  /-- a value of a type that is no record type -/
  | leaf {path c p v} : (∀ d, .cls d ∉ p.types) → (p.types = [] → clsOf v = none) →
      Inverts o ap rev v (some p) path → WF J.S v → Accepted J (J.info c p.name) p.types v →
      TripField J o sel ap rev path c p v
  /-- a record of exactly the declared class; if other types are declared too, no empty collection -/
  | record {path c p v d} : recordTypes p.types = [d] → p.types = [.cls d] ∨ HasMembers v → clsOf v = some d →
      (∀ f w, (J.info c p.name).check = some f → veq J.S w v = .ok true → f w = .ok true) →
      Trip J o sel ap rev path v → TripField J o sel ap rev path c p v
/-- The member at `path` can be rebuilt. -/
inductive TripItem (J : Setup) (o : Opts) (sel : Option (List FS)) (ap rev : Leaf) : FS → Ty → Val → Prop
  | leaf {path n v} : Inverts o ap rev v none path → WF J.S v → J.isa n v = true →
      TripItem J o sel ap rev path (.other n) v
  | record {path d v} : clsOf v = some d → Trip J o sel ap rev path v → TripItem J o sel ap rev path (.cls d) v
end

mutual
/-- The literal condition of C53: `reverse` undoes `apply` for all the values, which are of the declared types, and
nothing that matters is filtered out. -/
inductive Sound (J : Setup) (o : Opts) (sel : Option (List FS)) (ap rev : Leaf) : FS → Val → Prop
  | record {path c s} : (J.S.cls c).coll = none →
      (∀ p ∈ (J.S.cls c).props, MayHide J o sel path c s p) →
      (∀ p v, p ∈ (J.S.cls c).props → alookup s p.name = some v → Chosen o sel path p →
        SoundField J o sel ap rev (path ++ [.str p.name]) c p v) →
      Sound J o sel ap rev path (.rcd c s)
inductive SoundField (J : Setup) (o : Opts) (sel : Option (List FS)) (ap rev : Leaf) :
    FS → String → IProp → Val → Prop
  | leaf {path c p v j} : (∀ d, .cls d ∉ p.types) → clsOf v = none → ap (.val v) (some p) path = .ok j →
      clsOf j = none → rev (.val j) (some p) path = .ok v → WF J.S v → Accepted J (J.info c p.name) p.types v →
      SoundField J o sel ap rev path c p v
  | record {path c p v d} : p.types = [.cls d] → clsOf v = some d → (J.info c p.name).check = none →
      Sound J o sel ap rev path v → SoundField J o sel ap rev path c p v
end

end Normalize.Spec
