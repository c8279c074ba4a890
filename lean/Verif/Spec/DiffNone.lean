import Verif.Spec.Diff
import Verif.Model.DiffDefault

/-!
# Comparisons that leave nothing out

Words used by the statements in `Verif.Props.DiffNone`.
-/

namespace Normalize.Spec

open Normalize.Ident Normalize.Diff

/-- Texts are compared as they are. -/
structure ExactText (t : TextOpts) : Prop where
  ws : t.ignoreWs = false
  case : t.ignoreCase = false
  unicode : t.unicodeNormal = false
  empty : t.ignoreEmptySlots = false

/-- Nothing is ignored, and moved items are reported. -/
structure ShowsAll (o : Opts) : Prop where
  moved : o.moved = true
  slots : o.ignoreEmptySlots = false
  items : o.ignoreEmptyItems = false
  duck : o.duckType = false
  filter : o.compareFilter = none

/-- The items of lists, dicts and collections of values can be hashed (they are no lists, dicts or collections). -/
def HashableItems (S : Schema) (v : Val) : Prop :=
  (∀ c k n, clsOf v = some c → (S.cls c).coll ≠ some (k, .one (.cls n))) →
  ∀ k w xs, tuplesOf (some v) = .ok xs → (k, w) ∈ xs → hashable S w = true

/-- There is nothing in the diff: it ran to its end, and reports nothing but unchanged values. -/
def Nothing (g : Gen) : Prop := g.exc = none ∧ ∀ d ∈ g.out, d.kind = .noChange

end Normalize.Spec
