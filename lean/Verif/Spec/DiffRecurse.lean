import Verif.Spec.Diff

/-!
# Objects that agree place by place

Words used by the statements in `Verif.Props.DiffRecurse`.
-/

namespace Normalize.Spec

open Normalize.Ident Normalize.Diff

/-- The places (indices or keys) of the members of a collection that are compared. -/
def places {ι : Type} (l : List (ι × (Comp × Val))) : List Comp := l.map (·.2.1)

/-- A value without content, for a comparison place by place: as `Blank`, but a collection of records must have no
members that are compared. -/
inductive BlankAt {E F : Type} (H : Hooks E F) (o : Opts) : Val → Prop
  | record {c s} (va : IProp → Option Val) :
      (∀ p ∈ (H.S.cls c).props, Compared o p →
        H.normSlot (readAttr H.S (.rcd c s) p.name) p (some (.rcd c s)) = .ok (va p)) →
      (∀ p ∈ (H.S.cls c).props, Compared o p → ∀ v, va p = some v → BlankAt H o v) →
      BlankAt H o (.rcd c s)
  | simple {x} : (∀ c, clsOf x = some c → ∃ kd t, (H.S.cls c).coll = some (kd, .one (.other t))) →
      Items H o x [] → BlankAt H o x
  | records {x c kd n} : clsOf x = some c → (H.S.cls c).coll = some (kd, .one (.cls n)) →
      Members H o x [] → BlankAt H o x

/-- Two values agree place by place: as `Agree`, but two collections of records of one class agree if they have
members at the same places, and members at the same place are of one type and agree. -/
inductive AgreeAt {E F : Type} (H : Hooks E F) (o : Opts) : Option Val → Option Val → Prop
  | unset : AgreeAt H o none none
  | blankL {x} : o.ignoreEmptySlots = true → BlankAt H o x → AgreeAt H o (some x) none
  | blankR {x} : o.ignoreEmptySlots = true → BlankAt H o x → AgreeAt H o none (some x)
  | equal {x y} : (tagOf x = none ∨ tagOf x ≠ tagOf y) → H.itemsEqual x y = .ok true → AgreeAt H o (some x) (some y)
  | record {c s t} (va vb : IProp → Option Val) :
      (∀ p ∈ (H.S.cls c).props, Compared o p →
        H.normSlot (readAttr H.S (.rcd c s) p.name) p (some (.rcd c s)) = .ok (va p)) →
      (∀ p ∈ (H.S.cls c).props, Compared o p →
        H.normSlot (readAttr H.S (.rcd c t) p.name) p (some (.rcd c t)) = .ok (vb p)) →
      (∀ p ∈ (H.S.cls c).props, Compared o p → AgreeAt H o (va p) (vb p)) →
      AgreeAt H o (some (.rcd c s)) (some (.rcd c t))
  | simple {x y la lb} : tagOf x = tagOf y →
      (∀ c, clsOf x = some c → ∃ kd t, (H.S.cls c).coll = some (kd, .one (.other t))) →
      Items H o x la → Items H o y lb → (la.map (·.1)).Perm (lb.map (·.1)) → AgreeAt H o (some x) (some y)
  | records {x y c kd n la lb} : clsOf x = some c → clsOf y = some c →
      (H.S.cls c).coll = some (kd, .one (.cls n)) →
      Members H o x la → Members H o y lb → (∀ k, k ∈ places la ↔ k ∈ places lb) →
      (∀ u ∈ la, ∀ w ∈ lb, u.2.1 = w.2.1 → tagOf u.2.2 = tagOf w.2.2) →
      (∀ u ∈ la, ∀ w ∈ lb, u.2.1 = w.2.1 → AgreeAt H o (some u.2.2) (some w.2.2)) →
      AgreeAt H o (some x) (some y)

/-- `u` is a member of a collection of records in this family. -/
def Collected {E F : Type} (H : Hooks E F) (T : Val → Prop) (u : Val) : Prop :=
  ∃ x c kd n k xs, T x ∧ clsOf x = some c ∧ (H.S.cls c).coll = some (kd, .one (.cls n)) ∧ tuplesOf (some x) = .ok xs ∧
    (k, u) ∈ xs

/-- In this family, members of collections that agree place by place have the same identity. -/
def PlacesIdentify {E F : Type} (H : Hooks E F) (o : Opts) (T : Val → Prop) : Prop :=
  ∀ u w i j, Collected H T u → Collected H T w → T u → T w → AgreeAt H o (some u) (some w) →
    H.recId none none u = .ok i → H.recId none none w = .ok j → i = j

end Normalize.Spec
