import Verif.Model.ClassMeta
import Mathlib.Data.List.Forall2

/-!
# What a class declaration should make
-/

namespace Normalize.Spec
open ClassMeta

/-- `c` is a record class, and this is what it stores. -/
def IsRecordClass (s : State) (c : Nat) (r : RecInfo) : Prop := ∃ cl, s.classes[c]? = some cl ∧ cl.info = some r

/-- `c.properties[k]` is `p`. -/
def HasProp (s : State) (c : Nat) (k : String) (p : Nat) : Prop := ∃ r, IsRecordClass s c r ∧ (k, p) ∈ r.properties

/-- The class body declares the property `p` as `k`. -/
def OwnProp (attrs : List (String × AVal)) (k : String) (p : Nat) : Prop := (k, .prop p) ∈ attrs

/-- Own properties, and those of the bases that are not overridden. -/
def UnionProp (s : State) (bases : List Nat) (attrs : List (String × AVal)) (k : String) (p : Nat) : Prop :=
  OwnProp attrs k p ∨ ((∀ q, ¬ OwnProp attrs k q) ∧ ∃ b ∈ bases, HasProp s b k p)

/-- Two of the bases have a property of the same name. -/
def Clashing (s : State) (bases : List Nat) : Prop :=
  ∃ (i j b c : Nat) (k : String) (p q : Nat), i < j ∧ bases[i]? = some b ∧ bases[j]? = some c ∧ HasProp s b k p ∧ HasProp s c k q

/-- The class body uses a name that the metaclass keeps for itself. -/
def UsesReserved (attrs : List (String × AVal)) : Prop := ∃ v, ("properties", v) ∈ attrs ∨ ("eager_properties", v) ∈ attrs

/-- The entry of a `primary_key` declaration stands for `p`, where `has` are the properties of the class. -/
def StandsFor (has : String → Nat → Prop) : PkEntry → Nat → Prop
  | .name k, p => has k p
  | .prop q, p => q = p ∧ ∃ k, has k q
  | .other, _ => False

/-- The declaration asks for this primary key. -/
def AsksForPk (has : String → Nat → Prop) (attrs : List (String × AVal)) (pk : List Nat) : Prop :=
  ((∀ v, ("primary_key", v) ∉ attrs) ∧ pk = []) ∨ ∃ es, ("primary_key", .pk es) ∈ attrs ∧ List.Forall₂ (StandsFor has) es pk

/-- A class body: it is a dict, and its properties exist. -/
structure IsBody (s : State) (attrs : List (String × AVal)) : Prop where
  dict : (attrs.map (·.1)).Nodup
  exist : ∀ k p, OwnProp attrs k p → p < s.props.length

/-- The property is eager: it is required, or has a default, and is not lazy. -/
def IsEager (s : State) (p : Nat) : Prop := ∃ o, s.props[p]? = some o ∧ o.lazy = false ∧ (o.required = true ∨ o.hasDefault = true)

/-- The states that come about. -/
inductive DeclaredState : State → Prop
  | init : DeclaredState {}
  | prop {s r d l x e} : DeclaredState s → DeclaredState (newProp s r d l x e).2
  | cls {s m bases attrs} : DeclaredState s → IsBody s attrs → DeclaredState (declare s m bases attrs).2

/-- The name of a property. -/
def HasName (s : State) (p : Nat) (k : String) : Prop := ∃ o, s.props[p]? = some o ∧ o.name = some k

/-- The body declares property objects that are not used anywhere else, each once. -/
def FreshBody (s : State) (attrs : List (String × AVal)) : Prop :=
  ∀ k p, OwnProp attrs k p → (∀ n, ¬ HasName s p n) ∧ ∀ k', OwnProp attrs k' p → k' = k

/-- The states that come about when no property object is used twice. -/
inductive DeclaredOnce : State → Prop
  | init : DeclaredOnce {}
  | prop {s r d l x e} : DeclaredOnce s → DeclaredOnce (newProp s r d l x e).2
  | cls {s m bases attrs} : DeclaredOnce s → IsBody s attrs → FreshBody s attrs → DeclaredOnce (declare s m bases attrs).2

/-- `d` is `c` or an ancestor. -/
def Ancestor (s : State) (c d : Nat) : Prop := ∃ cl, s.classes[c]? = some cl ∧ d ∈ cl.mro

/-- The class `d` itself has this attribute. -/
def OwnAttr (s : State) (d : Nat) (k : String) (v : AVal) : Prop := ∃ cl, s.classes[d]? = some cl ∧ alookup cl.dict k = some v

/-- Attribute access on the class finds `v`: it is the first along the `__mro__`. -/
def Finds (s : State) (c : Nat) (k : String) (v : AVal) : Prop :=
  ∃ (cl : Cls) (i d : Nat), s.classes[c]? = some cl ∧ cl.mro[i]? = some d ∧ OwnAttr s d k v ∧
    ∀ j < i, ∀ e, cl.mro[j]? = some e → ∀ w, ¬ OwnAttr s e k w

/-- Whatever class has an attribute of this name is a record class and has a property there. -/
def OnlyProps (s : State) (k : String) : Prop :=
  ∀ d v, OwnAttr s d k v → (∃ r, IsRecordClass s d r) ∧ ∃ p, v = .prop p

/-- The last character is a digit. -/
def EndsInDigit (k : String) : Prop := ∃ l d, k.toList = l ++ [d] ∧ d.isDigit = true

/-- `a` is the name of the accessor that goes with the property `p` of the body: the given one, or its name with a `0`. -/
def AccessorOf (ps : List PObj) (attrs : List (String × AVal)) (p : Nat) (a : String) : Prop :=
  ∃ k o, OwnProp attrs k p ∧ ps[p]? = some o ∧ o.cls = none ∧
    (o.emptyAttr = .named a ∨ (o.emptyAttr = .unset ∧ ¬ EndsInDigit k ∧ a = k ++ "0"))

end Normalize.Spec
