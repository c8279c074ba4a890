import Verif.Spec.Hashing
import Verif.Model.DiffDefault

/-!
# Comparisons that run to their end

Words used by the statements in `Verif.Props.DiffRuns`.
-/

namespace Normalize.Spec

open Normalize.Ident Normalize.Diff

/-- The same options, with another recursion limit. -/
def withDepth (D : Setup) (d : Nat) : Setup := { D with depth := d }

/-- The comparison ends without an exception, given enough stack. -/
def RunsToEnd (D : Setup) (o : Opts) (x y : Val) : Prop :=
  ∃ N, ∀ d n, N ≤ d → N ≤ n → (diff (withDepth D d).hooks o n x y).exc = none

/-- What python and the options do: strings and the marker for "no value" have a hash, converting a list to compare it
with a collection fails no assertion, sets iterate over their members, and there is no `compare_as`, no filter and no
duck typing. -/
structure PlainRun (D : Setup) (o : Opts) : Prop where
  str : ∀ s, (D.S.atomHash (.str s)).isSome = true
  marker : (D.S.atomHash (.opq 0)).isSome = true
  mixL : ∀ c xs ys, D.S.mixL c xs ys ≠ .error .assertionError
  mixD : ∀ c xs ys, D.S.mixD c xs ys ≠ .error .assertionError
  ord : ∀ (α : Type) (l : List α), (D.ord α l).Perm l
  slots : ∀ p, D.compareAs p = none
  items : ∀ v, D.compareItemAs v = none
  filter : o.compareFilter = none
  duck : o.duckType = false

/-- The collections in `v` have a single type of items, and those of records have no items of classes that extend
it. -/
def SingleItems (S : Schema) (v : Val) : Prop :=
  ∀ w c xs, Sub w v → clsOf w = some c → tuplesOf (some w) = .ok xs →
    ∃ k t, (S.cls c).coll = some (k, .one t) ∧ ∀ n, t = .cls n → ∀ k u, (k, u) ∈ xs → clsOf u = some n

end Normalize.Spec
