import Verif.Spec.Diff
import Verif.Model.DiffDefault

/-!
# What values are compared as
-/

namespace Normalize.Spec
open Diff
open Ident (IProp)

/-- The form of a value that is compared: texts are normalised; with `ignore_empty_slots` empty texts and `None`
count as unset (`none`); anything else is left alone. -/
inductive Form (D : Setup) : Val → Option Val → Prop
  | text {s} : D.text.ignoreEmptySlots = false ∨ normalizeText D.U D.text s.toList ≠ [] →
      Form D (.str s) (some (.str (String.ofList (normalizeText D.U D.text s.toList))))
  | blank {s} : D.text.ignoreEmptySlots = true → normalizeText D.U D.text s.toList = [] → Form D (.str s) none
  | null : D.text.ignoreEmptySlots = true → Form D .none none
  | other {v} : (∀ s, v ≠ .str s) → D.text.ignoreEmptySlots = false ∨ v ≠ .none → Form D v (some v)

/-- The form of a value in a slot: that of what `compare_as` gives, if the property has one. -/
inductive SlotForm (D : Setup) (p : IProp) (obj v : Val) (r : Option Val) : Prop
  | plain : D.compareAs p = none → Form D v r → SlotForm D p obj v r
  | via {f w} : D.compareAs p = some f → f obj v = .ok w → Form D w r → SlotForm D p obj v r

/-- The value that stands for an item: that of `compare_item_as`, if the collection has one. -/
inductive ItemVal (D : Setup) (coll v w : Val) : Prop
  | plain : D.compareItemAs coll = none → w = v → ItemVal D coll v w
  | via {f} : D.compareItemAs coll = some f → f v = .ok w → ItemVal D coll v w

/-- The form of an item of a simple list or dict: as that of a value, and python's `repr` if it has no hash. -/
inductive ItemForm (D : Setup) (coll v : Val) : Option Val → Prop
  | unset {w} : ItemVal D coll v w → Form D w none → ItemForm D coll v none
  | hash {w u} : ItemVal D coll v w → Form D w (some u) → Ident.hashable D.S u = true → ItemForm D coll v (some u)
  | repr {w u} : ItemVal D coll v w → Form D w (some u) → Ident.hashable D.S u = false →
      ItemForm D coll v (some (.str (D.repr u)))

/-- The items with their forms; unset ones are ignored with `ignore_empty_slots`. -/
inductive Forms (D : Setup) (o : Opts) (coll : Val) : List Val → List (Option Val) → Prop
  | nil : Forms D o coll [] []
  | set {v u vs us} : ItemForm D coll v (some u) → Forms D o coll vs us → Forms D o coll (v :: vs) (some u :: us)
  | unset {v vs us} : o.ignoreEmptySlots = false → ItemForm D coll v none → Forms D o coll vs us →
      Forms D o coll (v :: vs) (none :: us)
  | skip {v vs us} : o.ignoreEmptySlots = true → ItemForm D coll v none → Forms D o coll vs us →
      Forms D o coll (v :: vs) us

end Normalize.Spec
