import Verif.Spec.Diff

/-!
# Objects of one type

Words used by the statements in `Verif.Props.DiffTrans`.
-/

namespace Normalize.Spec

open Normalize.Ident Normalize.Diff

/-- Objects of this family that are equal (`==`) are of one type.  Python's builtin lists can be equal to typed
collections, and typed collections of different classes can be equal. -/
def OneType (S : Schema) (T : Val → Prop) : Prop :=
  ∀ u w, T u → T w → veq S u w = .ok true → tagOf u = tagOf w

/-- All lists and dicts in the object are typed collections. -/
def TypedOnly (v : Val) : Prop := ∀ w, Sub w v → (∀ xs, w ≠ .list xs) ∧ ∀ xs, w ≠ .dict xs

/-- No two collection classes have the same item type; `list_of` and `dict_of` see to that (C37). -/
def OneClassPerItem (S : Schema) : Prop :=
  ∀ c d it, (∃ k, (S.cls c).coll = some (k, it)) → (∃ k, (S.cls d).coll = some (k, it)) → c = d

/-- The comparison ends without exception and reports no difference. -/
def NoDiffs (g : Gen) : Prop := g.exc = none ∧ ∀ d ∈ g.out, d.kind = .noChange ∨ d.kind = .moved

end Normalize.Spec
