import Verif.Spec.Diff
import Verif.Spec.MfsAccess
import Verif.Model.DiffDefault

/-!
# Copies of the selected parts of an object

Words used by the statements in `Verif.Props.DiffCopy`.
-/

namespace Normalize.Spec

open Normalize.Ident Normalize.Diff

/-- How objects are made and read.  A new record has the attributes it is given, and `blank` (a default, or what an unset
attribute reads as) for the others.  Attributes read the same to a selector as to `diff`.  Collections take items by
their type. -/
structure Builds (C : Ctors) (E : Env) (S : Schema) (blank : String → String → Option Val) : Prop where
  rcd : ∀ cls kw z, C.rcd cls kw = .ok z →
    ∃ sl, z = .rcd cls sl ∧ ∀ nm, readAttr S z nm = (alookup kw nm).or (blank cls nm)
  reads : ∀ cls sl nm v, readAttr S (.rcd cls sl) nm = some v → getAttr E (.rcd cls sl) (.str nm) = .ok v
  unset : ∀ cls sl nm, readAttr S (.rcd cls sl) nm = none → getAttr E (.rcd cls sl) (.str nm) = .error .attributeError
  isaRcd : ∀ cls sl sl', Interch E (.rcd cls sl) (.rcd cls sl')

/-- The selectors pick something in the attribute. -/
def PicksIn (h : Heads) (nm : String) : Prop := ∃ t, (Comp.str nm, t) ∈ h

/-- The properties that identify a record of the class when only the selected ones count: its primary key, if all of it
is selected, and all selected properties that are not extraneous otherwise. -/
def Identifying (S : Schema) (c : String) (h : Heads) (p : IProp) : Prop :=
  ((∀ q ∈ (S.cls c).pk, PicksIn h q.name) ∧ p ∈ (S.cls c).pk) ∨
  (((S.cls c).pk = [] ∨ ∃ q ∈ (S.cls c).pk, ¬ PicksIn h q.name) ∧ p ∈ (S.cls c).props ∧ p.extraneous = false ∧
    PicksIn h p.name)

/-- A collection takes the items it holds as they are. -/
def KeepsItems (E : Env) : Val → Prop
  | .lcoll c xs => ∀ v ∈ xs, E.coerceItem c v = .ok v
  | .dcoll c xs => ∀ e ∈ xs, E.coerceItem c e.2 = .ok e.2
  | _ => True

/-- An item of a collection of records, selected by `t`: it is a record, and what identifies it is selected whole. -/
def GoodItem (S : Schema) (t : MTree) (v : Val) : Prop :=
  ∃ c s, v = .rcd c s ∧ ∀ h, t = .node h → ∀ p, Identifying S c h p → ∀ t', (Comp.str p.name, t') ∈ h → t' = .all

/-- The selectors fit the object: they go through records by name and through collections of records by wildcard, and
select everything else whole.  The selected attributes that are unset or `None` are so in a new record. -/
inductive CopyFits (E : Env) (S : Schema) (blank : String → String → Option Val) : MTree → Val → Prop
  | all {x} : CopyFits E S blank .all x
  | whole {x} : KeepsItems E x → CopyFits E S blank (.node Mfs.completeHeads) x
  | rcd {h c s} :
      (∀ nm t v, (Comp.str nm, t) ∈ h → readAttr S (.rcd c s) nm = some v → v ≠ .none → CopyFits E S blank t v) →
      (∀ nm t, (Comp.str nm, t) ∈ h → readAttr S (.rcd c s) nm = none ∨ readAttr S (.rcd c s) nm = some .none →
        readAttr S (.rcd c s) nm = blank c nm) →
      CopyFits E S blank (.node h) (.rcd c s)
  | lcoll {t c n kd xs} : (S.cls c).coll = some (kd, .one (.cls n)) → KeepsItems E (.lcoll c xs) →
      (∀ v ∈ xs, GoodItem S t v) → (∀ v ∈ xs, CopyFits E S blank t v) → CopyFits E S blank (.node [(.none, t)]) (.lcoll c xs)
  | dcoll {t c n kd xs} : (S.cls c).coll = some (kd, .one (.cls n)) → KeepsItems E (.dcoll c xs) →
      (∀ e ∈ xs, GoodItem S t e.2) → (∀ e ∈ xs, CopyFits E S blank t e.2) → CopyFits E S blank (.node [(.none, t)]) (.dcoll c xs)

end Normalize.Spec
