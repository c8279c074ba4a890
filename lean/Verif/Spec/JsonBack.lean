import Verif.Spec.JsonIn

/-!
# Which objects should survive a trip through JSON
-/

namespace Normalize.Spec
open Json
open Ident (IProp Ty ItemTy veq WF)

/-- JSON data: no integer outside ±2**50, and a dict has a key only once. -/
structure JsonLit (J : Setup) (v : Val) : Prop where
  json : IsJson J v
  wf : WF J.S v

/-- A value the property takes as it is: of the declared type, passing the check. -/
structure Accepted (J : Setup) (i : JInfo) (types : List Ty) (v : Val) : Prop where
  type : types = [] ∨ ∃ t ∈ types, instOf J t v = true
  check : ∀ f, i.check = some f → f v = .ok true
  set : ¬ (v = .none ∧ i.required = true ∧ types = [])

/-- The property has no converters. -/
def NoConverters (i : JInfo) : Prop := ∀ o, i.json = some o → o.jin = none ∧ o.jout = none

/-- The type is no class with a `from_json` method. -/
def NoFromJson (J : Setup) (types : List Ty) : Prop :=
  (∀ d, types = [.cls d] → J.isJson d = false) ∧ ∀ n, types = [.other n] → J.typeFromJson n = none

/-- The property is initialised even if no value is given. -/
def Eager (J : Setup) (c : String) (p : IProp) : Prop :=
  (J.info c p.name).lazy = false ∧ ((J.info c p.name).required = true ∨ (J.info c p.name).default ≠ none)

/-- The property is written. -/
def Written (J : Setup) (e : Bool) (c : String) (s : List (String × Val)) (p : IProp) : Prop :=
  (∃ v, alookup s p.name = some v) ∧ Selected e p ∧ ∃ k, Named J c p (some k)

/-- A property that is not written does not matter for equality, and the record can be made without it. -/
structure MayMiss (J : Setup) (e : Bool) (c : String) (s : List (String × Val)) (p : IProp) : Prop where
  /-- what is not in JSON does not count in comparisons -/
  hidden : ∀ v, alookup s p.name = some v → Named J c p none → p.extraneous = true
  /-- unset lazy properties are excluded -/
  unset : alookup s p.name = none → (J.info c p.name).empty = .skip
  /-- a property that is not written has no default, or does not count in comparisons -/
  eager : Eager J c p → ¬ Written J e c s p → p.extraneous = true ∧
    ∃ d, (J.info c p.name).default = some d ∧ Accepted J (J.info c p.name) p.types d

/-- The unknown keys a `JsonRecord` holds are really unknown, and can be written. -/
def UnknownOk (J : Setup) (e : Bool) (c : String) (s : List (String × Val)) : Prop :=
  ∀ u, alookup s "unknown_json_keys" = some u → ∃ us, u = .dict us ∧ (us.map (·.1)).Nodup ∧
    ∀ x ∈ us, ¬ Claimed J c x.1 ∧ ∃ j, toJson J e x.2 = .ok j

mutual
/-- The object can be read back from what is written for it: with `from_json` (`true`), or with the constructor of
its class (`false`), which for a plain `Record` knows nothing of JSON names and converters. -/
inductive Back (J : Setup) (e : Bool) : Bool → Val → Prop
  /-- a `JsonRecord`, or a record that is read with `from_json`: no two properties have the same name -/
  | record {m c s} : J.isJson c = true ∨ m = true →
      (J.S.cls c).coll = none →
      ((J.S.cls c).props.map (·.name)).Nodup →
      (∀ p q k, p ∈ (J.S.cls c).props → q ∈ (J.S.cls c).props → Named J c p (some k) → Named J c q (some k) → p = q) →
      (J.isJson c = true → KeepsUnknown J c) →
      (J.isJson c = true → UnknownOk J e c s) →
      (∀ p ∈ (J.S.cls c).props, MayMiss J e c s p) →
      (∀ p v, p ∈ (J.S.cls c).props → alookup s p.name = some v → Written J e c s p → BackField J e true c p v) →
      Back J e m (.rcd c s)
  /-- a plain record: the JSON names are the names of the properties -/
  | raw {c s} : J.isJson c = false →
      (J.S.cls c).coll = none →
      ((J.S.cls c).props.map (·.name)).Nodup →
      (∀ p k, p ∈ (J.S.cls c).props → Named J c p (some k) → k = p.name) →
      (∀ p ∈ (J.S.cls c).props, MayMiss J e c s p) →
      (∀ p v, p ∈ (J.S.cls c).props → alookup s p.name = some v → Written J e c s p → BackField J e false c p v) →
      Back J e false (.rcd c s)
  /-- a `JsonRecordList` -/
  | jlist {m c xs t} : J.isJson c = true → (J.S.cls c).coll = some (.list, .one t) →
      (∀ x ∈ xs, BackMember J e true (.one t) x) → Back J e m (.lcoll c xs)
  /-- a plain `ListCollection` -/
  | list {c xs it} : J.isJson c = false → (J.S.cls c).coll = some (.list, it) →
      (∀ x ∈ xs, BackMember J e false it x) → Back J e false (.lcoll c xs)
  /-- a `JsonRecordDict` -/
  | jdict {m c xs t} : J.isJson c = true → (J.S.cls c).coll = some (.dict, .one t) →
      (xs.map (·.1)).Nodup → (∀ x ∈ xs, BackMember J e true (.one t) x.2) → Back J e m (.dcoll c xs)
  /-- a plain `DictCollection` -/
  | dict {c xs it} : J.isJson c = false → (J.S.cls c).coll = some (.dict, it) →
      (xs.map (·.1)).Nodup → (∀ x ∈ xs, BackMember J e false it x.2) → Back J e false (.dcoll c xs)
/-- The value of a property can be read back: as part of a document (`true`), or as a constructor's argument. -/
inductive BackField (J : Setup) (e : Bool) : Bool → String → IProp → Val → Prop
  /-- JSON data of the right type -/
  | plain {m c p v} : NoConverters (J.info c p.name) → NoFromJson J p.types → JsonLit J v →
      Accepted J (J.info c p.name) p.types v → BackField J e m c p v
  /-- converters that are inverse to each other on this value -/
  | conv {c p v o f g j} : (J.info c p.name).json = some o → o.jout = some f → o.jin = some g →
      f v = .ok j → g j = .ok v → NoFromJson J p.types → WF J.S v →
      Accepted J (J.info c p.name) p.types v → BackField J e true c p v
  /-- a record or collection of exactly the declared class -/
  | record {m c p v d} : NoConverters (J.info c p.name) → p.types = [.cls d] → clsOf v = some d →
      (J.info c p.name).coerce = none →
      (∀ f w, (J.info c p.name).check = some f → veq J.S w v = .ok true → f w = .ok true) →
      Back J e false v → BackField J e m c p v
/-- The member of a collection can be read back: of a `JsonRecordList` or `JsonRecordDict` (`true`), or another. -/
inductive BackMember (J : Setup) (e : Bool) : Bool → ItemTy → Val → Prop
  | record {m d v} : clsOf v = some d → Back J e m v → BackMember J e m (.one (.cls d)) v
  | plain {it v} : JsonLit J v → isItem J it v = true → BackMember J e false it v
  | jplain {n v} : JsonLit J v → J.isa n v = true → BackMember J e true (.one (.other n)) v
end

mutual
/-- The literal condition of C48: whatever is set is representable in JSON, whatever the classes of the records and
collections inside. -/
inductive Rep (J : Setup) (e : Bool) : Val → Prop
  | record {c s} : (J.S.cls c).coll = none →
      ((J.S.cls c).props.map (·.name)).Nodup →
      (∀ p q k, p ∈ (J.S.cls c).props → q ∈ (J.S.cls c).props → Named J c p (some k) → Named J c q (some k) → p = q) →
      (J.isJson c = true → KeepsUnknown J c) →
      (J.isJson c = true → UnknownOk J e c s) →
      (∀ p ∈ (J.S.cls c).props, MayMiss J e c s p) →
      (∀ p v, p ∈ (J.S.cls c).props → alookup s p.name = some v → Written J e c s p → RepField J e c p v) →
      Rep J e (.rcd c s)
  | list {c xs it} : (J.S.cls c).coll = some (.list, it) → (∀ x ∈ xs, RepMember J e it x) → Rep J e (.lcoll c xs)
  | dict {c xs it} : (J.S.cls c).coll = some (.dict, it) → (xs.map (·.1)).Nodup →
      (∀ x ∈ xs, RepMember J e it x.2) → Rep J e (.dcoll c xs)
/-- The value of a property is representable. -/
inductive RepField (J : Setup) (e : Bool) : String → IProp → Val → Prop
  | plain {c p v} : NoConverters (J.info c p.name) → NoFromJson J p.types → JsonLit J v →
      Accepted J (J.info c p.name) p.types v → RepField J e c p v
  | conv {c p v o f g j} : (J.info c p.name).json = some o → o.jout = some f → o.jin = some g →
      f v = .ok j → g j = .ok v → NoFromJson J p.types → WF J.S v →
      Accepted J (J.info c p.name) p.types v → RepField J e c p v
  | record {c p v d} : NoConverters (J.info c p.name) → p.types = [.cls d] → clsOf v = some d →
      (J.info c p.name).coerce = none →
      (∀ f w, (J.info c p.name).check = some f → veq J.S w v = .ok true → f w = .ok true) →
      Rep J e v → RepField J e c p v
/-- The member of a collection is representable. -/
inductive RepMember (J : Setup) (e : Bool) : ItemTy → Val → Prop
  | record {d v} : clsOf v = some d → Rep J e v → RepMember J e (.one (.cls d)) v
  | plain {it v} : JsonLit J v → isItem J it v = true → RepMember J e it v
end

/-- Reading `j` with `from_json` gives an object of class `c` equal to `v`, if the recursion limit does not matter. -/
def ReadsBack (J : Setup) (c : String) (j v : Val) : Prop :=
  ∃ n0, ∀ n, n0 ≤ n → ∃ w, fromJson J n c j = .ok w ∧ clsOf w = some c ∧ veq J.S w v = .ok true

end Normalize.Spec
