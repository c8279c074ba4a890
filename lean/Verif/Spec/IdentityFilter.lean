import Verif.Spec.DiffCopy

/-!
# Objects that agree as far as selectors go

Words used by the statements in `Verif.Props.IdentityFilter`.
-/

namespace Normalize.Spec

open Normalize.Ident

/-- The two objects agree as far as the selectors go: in records in the selected attributes, in collections in the
selected items, and what is selected whole is the same. -/
inductive AgreeIn (S : Schema) : MTree → Val → Val → Prop
  | same {t x} : AgreeIn S t x x
  | rcd {h c s s'} : Mfs.hasNone h = false →
      (∀ nm t, (Comp.str nm, t) ∈ h →
        (readAttr S (.rcd c s) nm).isSome = (readAttr S (.rcd c s') nm).isSome) →
      (∀ nm t v w, (Comp.str nm, t) ∈ h → readAttr S (.rcd c s) nm = some v → readAttr S (.rcd c s') nm = some w →
        AgreeIn S t v w) →
      AgreeIn S (.node h) (.rcd c s) (.rcd c s')
  | lcoll {h c xs ys} : Mfs.hasNone h = false →
      (∀ (i : Nat) t, (Comp.int i, t) ∈ h → (xs[i]?).isSome = (ys[i]?).isSome) →
      (∀ (i : Nat) t v w, (Comp.int i, t) ∈ h → xs[i]? = some v → ys[i]? = some w → AgreeIn S t v w) →
      AgreeIn S (.node h) (.lcoll c xs) (.lcoll c ys)
  | dcoll {h c xs ys} : Mfs.hasNone h = false →
      (xs.filter (fun e => decide (e.1 ∈ h.map (·.1)))).map (·.1) =
        (ys.filter (fun e => decide (e.1 ∈ h.map (·.1)))).map (·.1) →
      (∀ k t v w, (k, t) ∈ h → (k, v) ∈ xs → (k, w) ∈ ys → AgreeIn S t v w) →
      AgreeIn S (.node h) (.dcoll c xs) (.dcoll c ys)
  | lcollAll {t c xs ys} : xs.length = ys.length →
      (∀ (i : Nat) v w, xs[i]? = some v → ys[i]? = some w → AgreeIn S t v w) →
      AgreeIn S (.node [(.none, t)]) (.lcoll c xs) (.lcoll c ys)
  | dcollAll {t c xs ys} : xs.map (·.1) = ys.map (·.1) →
      (∀ k v w, (k, v) ∈ xs → (k, w) ∈ ys → AgreeIn S t v w) →
      AgreeIn S (.node [(.none, t)]) (.dcoll c xs) (.dcoll c ys)

/-- The property holds records, and one of the selected properties identifies them. -/
def HoldsRecords (S : Schema) (p : IProp) (t : MTree) : Prop :=
  ∃ h c q, t = .node h ∧ Ty.cls c ∈ p.types ∧ (S.cls c).coll = none ∧ Mfs.hasNone h = false ∧ Identifying S c h q

/-- The selectors fit what identifies an object of the type: they go through records by name and through collections
by index or key; whatever they go into holds records or is a collection of one type of object. -/
inductive IdFits (S : Schema) : MTree → Ty → Prop
  | all {ty} : IdFits S .all ty
  | node {h c} : Mfs.hasNone h = false →
      (∀ p t, Identifying S c h p → (Comp.str p.name, t) ∈ h → t ≠ .all → HoldsRecords S p t) →
      (∀ p t c', Identifying S c h p → (Comp.str p.name, t) ∈ h → t ≠ .all → Ty.cls c' ∈ p.types →
        IdFits S t (.cls c')) →
      (∀ kd ty k t, (S.cls c).coll = some (kd, .one ty) → (k, t) ∈ h → IdFits S t ty) →
      (∀ kd ts k t, (S.cls c).coll = some (kd, .tup ts) → (k, t) ∈ h → t = .all) →
      IdFits S (.node h) (.cls c)

end Normalize.Spec
