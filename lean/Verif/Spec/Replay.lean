import Verif.Spec.Diff
import Verif.Model.Access

/-!
# Carrying over the differences between two objects

What a user of `diff` does to bring an object up to date, with `FieldSelector.get`, `put` and `delete`.
-/

namespace Normalize.Spec
open Normalize.Diff
open Ident (Schema Sub)

/-- Carry over one entry of `diff(x, b)`: what was added or modified is fetched from `b` and put in its place in `x`,
what was removed is deleted. -/
def carry (E : Env) (b : Val) (d : DInfo) (x : Val) : Eff Unit :=
  match d.kind with
  | .added | .modified =>
    match get E d.other b with
    | .ok v => put E d.base v x
    | .error e => (.error e, x)
  | .removed => delete E d.base x
  | .noChange | .moved => (.ok (), x)

/-- Carry over all entries in order, until one fails. -/
def carryAll (E : Env) (b : Val) : List DInfo → Val → Eff Unit
  | [], x => (.ok (), x)
  | d :: ds, x =>
    match carry E b d x with
    | (.ok (), y) => carryAll E b ds y
    | (.error e, y) => (.error e, y)

/-- The entry is a difference. -/
def Tells (d : DInfo) : Prop := d.kind = .added ∨ d.kind = .removed ∨ d.kind = .modified

/-- The selector leads from attribute to attribute of nested records, not through lists, dicts or collections. -/
def InRecords : Val → FS → Prop
  | .rcd _ _, [.str _] => True
  | .rcd _ s, .str nm :: p => ∃ v, alookup s nm = some v ∧ InRecords v p
  | _, _ => False

/-- There are no lists, dicts or collections inside: only records and objects without parts. -/
def RecordsOnly (v : Val) : Prop := ∀ w, Sub w v → (∃ a, w = .atom a) ∨ ∃ c s, w = .rcd c s

/-- The classes let the values of `b` be assigned to the same properties of other objects, and attributes be deleted;
an attribute that is not set cannot be read. -/
structure Carries (S : Schema) (E : Env) (b : Val) : Prop where
  names : ∀ c, ((S.cls c).props.map (·.name)).Nodup
  unset : ∀ c nm, Ident.unsetOf S c nm = none
  take : ∀ c t nm v a, Sub (.rcd c t) b → alookup t nm = some v → E.attr c nm = some a → ∀ old, a.assign old v = .ok (some v)
  drop : ∀ c nm a v, E.attr c nm = some a → a.remove (some v) = .ok ()

end Normalize.Spec
