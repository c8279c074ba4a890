import Verif.Spec.JsonOut

/-!
# What JSON input should do with unknown keys
-/

namespace Normalize.Spec
open Json
open Ident (IProp)

/-- Some property of the class is written under this key. -/
def Claimed (J : Setup) (c : String) (k : Comp) : Prop :=
  ∃ p ∈ (J.S.cls c).props, ∃ nm, Named J c p (some nm) ∧ k = .str nm

/-- The class has the property for unknown keys that `JsonRecord` declares: not in JSON itself, of any type, with
no default; and no other of that name. -/
structure KeepsUnknown (J : Setup) (c : String) : Prop where
  has : ∃ p ∈ (J.S.cls c).props, p.name = "unknown_json_keys" ∧ p.extraneous = true ∧ p.types = []
  only : ((J.S.cls c).props.map (·.name)).Nodup
  hidden : ∀ p ∈ (J.S.cls c).props, p.name = "unknown_json_keys" → Named J c p none
  check : (J.info c "unknown_json_keys").check = none
  required : (J.info c "unknown_json_keys").required = false
  default : (J.info c "unknown_json_keys").default = none

end Normalize.Spec
