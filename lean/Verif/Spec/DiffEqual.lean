import Verif.Spec.DiffTrans
import Verif.Model.DiffDefault

/-!
# Identities that follow equality

Words used by the statements in `Verif.Props.DiffEqual`.
-/

namespace Normalize.Spec

open Normalize.Ident Normalize.Diff

/-- Objects without parts are equal only if they are the same (`1`, `1.0` and `True` do not occur together). -/
def ExactAtoms (S : Schema) : Prop := ∀ a b, S.atomEq a b = true → a = b

/-- In this family, a member of a collection of records has the same identity as any object that is equal to it, and
an item of another list or dict the same normal form; they can be computed.  Collections have one item type. -/
structure IdsFollow {E F : Type} (H : Hooks E F) (T : Val → Prop) : Prop where
  kinds : ∀ v c, T v → clsOf v = some c → (∃ s, v = .rcd c s) ∨ ∃ k t, (H.S.cls c).coll = some (k, .one t)
  records : ∀ x c kd n u w, T x → clsOf x = some c → (H.S.cls c).coll = some (kd, .one (.cls n)) →
    (∃ k xs, tuplesOf (some x) = .ok xs ∧ (k, u) ∈ xs) → T u → T w → veq H.S u w = .ok true →
    ∃ i, H.recId none none u = .ok i ∧ H.recId none none w = .ok i
  items : ∀ x y u w, T x → T y → (∃ k xs, tuplesOf (some x) = .ok xs ∧ (k, u) ∈ xs) →
    (∀ c, clsOf x = some c → ∃ kd t, (H.S.cls c).coll = some (kd, .one (.other t))) → T u → T w →
    veq H.S u w = .ok true → ∃ i, H.itemId (some x) u = .ok i ∧ H.itemId (some y) w = .ok i

/-- A value without parts. -/
def IsAtom (v : Val) : Prop := ∃ a, v = .atom a

/-- A record that is identified by values without parts, none of them extraneous, and whose identity can be computed. -/
def FlatRecord (D : Setup) (v : Val) : Prop :=
  ∃ c s, v = .rcd c s ∧ (D.S.cls c).coll = none ∧
    (∀ p, Identifies D.S c p → p ∈ (D.S.cls c).props ∧ p.extraneous = false ∧
      ∀ r, readAttr D.S v p.name = some r → IsAtom r) ∧
    ∃ i, D.hooks.recId none none v = .ok i

/-- Lists and dicts of values have items without parts; collections of records have records that are identified by
values without parts. -/
def FlatItems (D : Setup) : Val → Prop
  | .list xs => ∀ x ∈ xs, IsAtom x
  | .dict xs => ∀ x ∈ xs, IsAtom x.2
  | .lcoll c xs => (∃ k t, (D.S.cls c).coll = some (k, .one t)) ∧
      ((∀ k n, (D.S.cls c).coll ≠ some (k, .one (.cls n))) → ∀ x ∈ xs, IsAtom x) ∧
      ((∃ k n, (D.S.cls c).coll = some (k, .one (.cls n))) → ∀ x ∈ xs, FlatRecord D x)
  | .dcoll c xs => (∃ k t, (D.S.cls c).coll = some (k, .one t)) ∧
      ((∀ k n, (D.S.cls c).coll ≠ some (k, .one (.cls n))) → ∀ x ∈ xs, IsAtom x.2) ∧
      ((∃ k n, (D.S.cls c).coll = some (k, .one (.cls n))) → ∀ x ∈ xs, FlatRecord D x.2)
  | _ => True

end Normalize.Spec
