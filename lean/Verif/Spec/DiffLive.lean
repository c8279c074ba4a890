import Verif.Model.DiffLive
import Verif.Spec.SelectorObj

/-!
# What a diff reports, without selectors being objects
-/

namespace Normalize.Spec
open SelObj DiffLive

mutual

/-- The kinds and paths that are reported below the paths `pa` and `pb`. -/
def reportOf (pa pb : FS) : Ev → List Diff.DInfo
  | .both kind ka kb => [⟨kind, pa ++ [ka], pb ++ [kb]⟩]
  | .removed ka => [⟨.removed, pa ++ [ka], pb⟩]
  | .added kb => [⟨.added, pa, pb ++ [kb]⟩]
  | .sub ka kb evs => reportAll (pa ++ [ka]) (pb ++ [kb]) evs

/-- One after the other. -/
def reportAll (pa pb : FS) : List Ev → List Diff.DInfo
  | [] => []
  | e :: es => reportOf pa pb e ++ reportAll pa pb es

end

/-- A difference as read from the selectors. -/
def asRead (d : Diff.DInfo) : Diff.DType × Row × Row := (d.kind, d.base.map .ok, d.other.map .ok)

/-- The selectors that the consumer got with the differences so far. -/
def handed (s : Session) : List Nat := s.got.flatMap (fun g => [g.base, g.other])

/-- Those of them that were made for the difference: all but `other` of an item that was removed and `base` of an item that
was added. -/
def handedNew (s : Session) : List Nat :=
  s.got.flatMap (fun g => (if g.newBase then [g.base] else []) ++ (if g.newOther then [g.other] else []))

/-- The others. -/
def handedUsed (s : Session) : List Nat :=
  s.got.flatMap (fun g => (if g.newBase then [] else [g.base]) ++ (if g.newOther then [] else [g.other]))

/-- The consumer changes selectors only if it made them, or if they are among these (and does not use `copy.copy`). -/
def Changes (use : Consumer) (which : Session → List Nat) : Prop :=
  ∀ s, ∀ op ∈ use s, NoShallow op ∧ ∀ i, selTarget op = some i → i ∈ s.mine ∨ s.mem.objs.length ≤ i ∨ i ∈ which s

end Normalize.Spec
