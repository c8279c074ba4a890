import Verif.Spec.JsonBack

/-!
# Valid objects, and places in documents
-/

namespace Normalize.Spec
open Ident (IProp Ty ItemTy CollKind)
open Json (Setup JInfo instOf isItem clsOf)

/-- `nm` is a property of the class, and `v` a value for it: of one of the declared types, passing the check, and not
`None` if the property is required and has no type. -/
def Declared (J : Setup) (c nm : String) (v : Val) : Prop :=
  ∃ p ∈ (J.S.cls c).props, p.name = nm ∧ Accepted J (J.info c p.name) p.types v

/-- The required properties that are not lazy are set. -/
def Complete (J : Setup) (c : String) (s : List (String × Val)) : Prop :=
  ∀ p ∈ (J.S.cls c).props, (J.info c p.name).required = true → (J.info c p.name).lazy = false →
    (alookup s p.name).isSome = true

/-- All the records and collections in the value are as declared. -/
inductive Valid (J : Setup) : Val → Prop
  | atom {a} : Valid J (.atom a)
  | list {xs} : (∀ x ∈ xs, Valid J x) → Valid J (.list xs)
  | dict {xs} : (∀ x ∈ xs, Valid J x.2) → Valid J (.dict xs)
  | rcd {c s} : (∀ nm v, alookup s nm = some v → Declared J c nm v) → Complete J c s →
      (∀ nm v, alookup s nm = some v → Valid J v) → Valid J (.rcd c s)
  | lcoll {c it xs} : (J.S.cls c).coll = some (.list, it) → (∀ x ∈ xs, isItem J it x = true) →
      (∀ x ∈ xs, Valid J x) → Valid J (.lcoll c xs)
  | dcoll {c it xs} : (J.S.cls c).coll = some (.dict, it) → (∀ x ∈ xs, isItem J it x.2 = true) →
      (∀ x ∈ xs, Valid J x.2) → Valid J (.dcoll c xs)

/-- The functions of the user make valid values of valid ones, and calling a type gives an instance. -/
structure Wellmade (J : Setup) : Prop where
  names : ∀ c, ((J.S.cls c).props.map (·.name)).Nodup
  isa : ∀ n v w, J.make n v = .ok w → J.isa n w = true
  make : ∀ n v w, J.make n v = .ok w → Valid J v → Valid J w
  coerce : ∀ c nm f v w, (J.info c nm).coerce = some f → f v = .ok w → Valid J v → Valid J w
  jin : ∀ c nm o f v w, (J.info c nm).json = some o → o.jin = some f → f v = .ok w → Valid J v → Valid J w
  fromJson : ∀ n f v w, J.typeFromJson n = some f → f v = .ok w → Valid J v → Valid J w
  loads : ∀ s v, J.loads s = .ok v → Valid J v
  default : ∀ c nm v, (J.info c nm).default = some v → Valid J v

/-- The place `fs` of the document `v` holds `u`.  JSON texts are read, and the value for a property is what its
`json_in` makes of it. -/
inductive InDoc (J : Setup) : Val → FS → Val → Prop
  | here {v} : InDoc J v [] v
  | key {xs k w fs u} : (k, w) ∈ xs → InDoc J w fs u → InDoc J (.dict xs) (k :: fs) u
  | index {xs} {i : Nat} {w fs u} : xs[i]? = some w → InDoc J w fs u → InDoc J (.list xs) (.int i :: fs) u
  | text {s v fs u} : J.loads s = .ok v → InDoc J v fs u → InDoc J (.str s) fs u
  | converted {c p k o f xs j v fs u} : p ∈ (J.S.cls c).props → (J.info c p.name).json = some o → o.jin = some f →
      (.str k, j) ∈ xs → f j = .ok v → InDoc J v fs u → InDoc J (.dict xs) (.str k :: fs) u

/-- The exception `e` is raised for `u`: by a converter of the user, or by the constructor or the `from_json` of a class,
which do not blame a part of `u`. -/
inductive Blamed (J : Setup) : Val → Exc → Prop
  | converter {c nm o f u e} : (J.info c nm).json = some o → o.jin = some f → f u = .error e → Blamed J u e
  | type {n f u e} : J.typeFromJson n = some f → f u = .error e → Blamed J u e
  | construct {n c u e} : Json.make J n c u = .error (.raw e) → Blamed J u e
  | fromJson {n c u e} : Json.fromJson J n c u = .error (.raw e) → Blamed J u e

end Normalize.Spec
