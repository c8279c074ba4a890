import Verif.Spec.Diff

/-!
# When two objects agree as far as a set of selectors goes
-/

namespace Normalize.Spec
open Normalize.Diff
open Ident (IProp Schema readAttr)

/-- One of the selectors covers the place `p` itself. -/
def Whole (qs : List FS) (p : FS) : Prop := ∃ q ∈ qs, Covers q p

/-- Two values at the place `q` (in the first object) that agree as far as the selectors go: both are unset; or
they are compared by `==` and equal; or they are records of one class, and the compared properties that the
selectors touch agree once normalised; or simple containers of one type with the same normalised items, as
multisets; or collections of records of one class, and the members whose keys `pick` picks can be paired one to
one, such that the two of a pair are of one type and agree as far as the selectors go. -/
inductive AgreeFor {E F : Type} (H : Hooks E F) (o : Opts) (qs : List FS) (pick : FS → Comp → Prop) :
    FS → Option Val → Option Val → Prop
  | unset {q} : AgreeFor H o qs pick q none none
  | equal {q x y} : (tagOf x = none ∨ tagOf x ≠ tagOf y) → H.itemsEqual x y = .ok true →
      AgreeFor H o qs pick q (some x) (some y)
  | record {q c s t} (va vb : IProp → Option Val) :
      (∀ p ∈ (H.S.cls c).props, Compared o p → Touches qs (q ++ [.str p.name]) →
        H.normSlot (readAttr H.S (.rcd c s) p.name) p (some (.rcd c s)) = .ok (va p)) →
      (∀ p ∈ (H.S.cls c).props, Compared o p → Touches qs (q ++ [.str p.name]) →
        H.normSlot (readAttr H.S (.rcd c t) p.name) p (some (.rcd c t)) = .ok (vb p)) →
      (∀ p ∈ (H.S.cls c).props, Compared o p → Touches qs (q ++ [.str p.name]) →
        AgreeFor H o qs pick (q ++ [.str p.name]) (va p) (vb p)) →
      AgreeFor H o qs pick q (some (.rcd c s)) (some (.rcd c t))
  | simple {q x y la lb} : tagOf x = tagOf y →
      (∀ c, clsOf x = some c → ∃ kd t, (H.S.cls c).coll = some (kd, .one (.other t))) →
      Items H o x la → Items H o y lb → (la.map (·.1)).Perm (lb.map (·.1)) →
      AgreeFor H o qs pick q (some x) (some y)
  | records {q x y c kd n xs ys} (ps : List ((Comp × Val) × (Comp × Val))) : clsOf x = some c → clsOf y = some c →
      (H.S.cls c).coll = some (kd, .one (.cls n)) →
      tuplesOf (some x) = .ok xs → tuplesOf (some y) = .ok ys →
      (ps.map (·.1.1)).Nodup → (ps.map (·.2.1)).Nodup →
      (∀ e, e ∈ ps.map (·.1) ↔ e ∈ xs ∧ pick q e.1) →
      (∀ e, e ∈ ps.map (·.2) ↔ e ∈ ys ∧ pick q e.1) →
      (∀ p ∈ ps, tagOf p.1.2 = tagOf p.2.2) →
      (∀ p ∈ ps, AgreeFor H o qs pick (q ++ [p.1.1]) (some p.1.2) (some p.2.2)) →
      AgreeFor H o qs pick q (some x) (some y)

end Normalize.Spec
