import Verif.Model.Reflect

/-!
# Descriptions of types
-/

namespace Normalize.Spec

open Normalize.Reflect

/-- An entry of a dict. -/
def infoGet : Info → String → Option Info
  | .obj es, k => alookup es k
  | _, _ => none

/-- The property is to be described. -/
def Shown (O : Opts) (cue : List Place) (p : RProp) : Prop := (p.extraneous = true → O.extraneous = true) ∧ O.passes cue p.name = true

/-- The description of this property, at this place, is the description of this record type. -/
inductive GoesTo (W : Reflect.World) : RProp → Cls → Prop
  | one {p : RProp} {t : Cls} : p.isa = .one t → W.isRecord t = true → GoesTo W p t
  | union {p : RProp} {before after : List Cls} {t : Cls} : p.isa = .union (before ++ t :: after) → (∀ b ∈ before, W.isRecord b = false) →
      W.isRecord t = true → GoesTo W p t

/-- The description of a type needs that of another: of a property that is shown, or of the items. -/
inductive Uses (W : Reflect.World) (O : Opts) : List Place × Cls → List Place × Cls → Prop
  | prop {cue : List Place} {t t' : Cls} {p : RProp} : W.isRecord t = true → p ∈ W.props t → Shown O cue p → GoesTo W p t' →
      Uses W O (cue, t) (cue ++ [.prop p.name], t')
  | item {cue : List Place} {t t' : Cls} : W.isRecord t = true → W.isColl t = true → W.items t = .one t' → Uses W O (cue, t) (cue ++ [.item t'], t')

/-- What is said of the types of a property that has no record type. -/
def TypesOf (W : Reflect.World) : Isa → Option Info
  | .none => none
  | .one t => some (.str (W.name t))
  | .union [] => none
  | .union ts => some (.arr (ts.map (fun t => .str (W.name t))))

/-- The description of a type at a place: its name, each property that is shown and no other, and the type of the
items if it is a collection; properties with a record type by the description of it, others by name and types. -/
inductive Describes (W : Reflect.World) (O : Opts) : List Place → Cls → Info → Prop
  | plain {cue : List Place} {t : Cls} {i : Info} : W.isRecord t = false → infoGet i "name" = some (.str (W.name t)) → infoGet i "properties" = none →
      infoGet i "itemtype" = none → Describes W O cue t i
  | record {cue : List Place} {t : Cls} {i ps item : Info} (f : RProp → Info) : W.isRecord t = true → infoGet i "name" = some (.str (W.name t)) →
      infoGet i "properties" = none ∨ infoGet i "properties" = some ps →
      (∀ p ∈ W.props t, Shown O cue p → infoGet i "properties" = some ps ∧ infoGet ps p.name = some (f p)) →
      (∀ a, infoGet i "properties" = some ps → (infoGet ps a).isSome → ∃ p ∈ W.props t, Shown O cue p ∧ p.name = a) →
      (∀ p ∈ W.props t, Shown O cue p → ∀ t', GoesTo W p t' → Describes W O (cue ++ [.prop p.name]) t' (f p)) →
      (∀ p ∈ W.props t, Shown O cue p → (∀ t', ¬ GoesTo W p t') → infoGet (f p) "name" = some (.str p.name) ∧ infoGet (f p) "type" = TypesOf W p.isa) →
      (∀ d, infoGet i "itemtype" = some d → ∃ t', W.isColl t = true ∧ W.items t = .one t') →
      (∀ t', W.isColl t = true → W.items t = .one t' → infoGet i "itemtype" = some item) →
      (∀ t', W.isColl t = true → W.items t = .one t' → Describes W O (cue ++ [.item t']) t' item) →
      Describes W O cue t i

/-- The name is that of a type or property somewhere in the description. -/
inductive Mentions : Info → String → Prop
  | here {i : Info} {n : String} : infoGet i "name" = some (.str n) → Mentions i n
  | down {i j : Info} {k n : String} : infoGet i k = some j → Mentions j n → Mentions i n

/-- The types that a property can have. -/
def isaTypes : Isa → List Cls
  | .none => []
  | .one t => [t]
  | .union ts => ts

/-- Each collection has one type of items. -/
def OneItemType (W : Reflect.World) : Prop := ∀ t, W.isRecord t = true → W.isColl t = true → ∃ t', W.items t = .one t'

/-- The properties of a class have different names. -/
def PropsNamed (W : Reflect.World) : Prop := ∀ t, ((W.props t).map (·.name)).Nodup

/-- Types within types without end. -/
def Endless (W : Reflect.World) (O : Opts) (t : Cls) : Prop := ∃ f : Nat → List Place × Cls, f 0 = ([], t) ∧ ∀ k, Uses W O (f k) (f (k + 1))

end Normalize.Spec
