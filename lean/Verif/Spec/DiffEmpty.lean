import Verif.Model.DiffDefault
import Verif.Spec.Diff

/-!
# Empty items of collections
-/

namespace Normalize.Spec
open Normalize.Diff
open Ident (IProp Schema readAttr)

/-- `None`, `''` or not set (once normalised as the options say). -/
def NoContent (D : Setup) (v : Option Val) : Prop :=
  normalizeVal D.U D.text v = none ∨ normalizeVal D.U D.text v = some .none ∨
    normalizeVal D.U D.text v = some (.str "")

/-- The primary key fields of a class, or all compared fields in the absence of a primary key definition. -/
def KeyField (S : Schema) (o : Opts) (c : String) (p : IProp) : Prop :=
  if (S.cls c).pk = [] then p ∈ (S.cls c).props ∧ Compared o p else p ∈ (S.cls c).pk

/-- A record that has all `None`, not set, or `''` in these fields. -/
def EmptyItem (D : Setup) (o : Opts) (v : Val) : Prop :=
  ∃ c s, v = .rcd c s ∧ ∀ p, KeyField D.S o c p → NoContent D (readAttr D.S v p.name)

/-- The second list is the first one without some of its members, which all satisfy the condition. -/
inductive Without {α : Type} (P : α → Prop) : List α → List α → Prop
  | nil : Without P [] []
  | keep {a as bs} : Without P as bs → Without P (a :: as) (a :: bs)
  | drop {a as bs} : P a → Without P as bs → Without P (a :: as) bs

/-- A collection, and the same collection without some of its empty items.  The other members keep their keys: so in
a list, the items left out are at the end. -/
def WithoutEmpty (D : Setup) (o : Opts) (v v' : Val) : Prop :=
  tagOf v = tagOf v' ∧ ∃ xs xs', tuplesOf (some v) = .ok xs ∧ tuplesOf (some v') = .ok xs' ∧
    Without (fun e => EmptyItem D o e.2) xs xs'

/-- A record none of whose properties is declared to hold records; no property holds the marker for "no value". -/
def PlainItem (D : Setup) (v : Val) : Prop :=
  ∃ c s, v = .rcd c s ∧ (D.S.cls c).coll = none ∧
    ∀ p ∈ (D.S.cls c).props ++ (D.S.cls c).pk, (∀ n, Ident.Ty.cls n ∉ p.types) ∧ readAttr D.S v p.name ≠ some nothingVal

end Normalize.Spec
