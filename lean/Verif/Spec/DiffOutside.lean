import Verif.Spec.Diff

/-!
# Objects that differ only outside a set of selectors
-/

namespace Normalize.Spec
open Normalize.Diff
open Ident (IProp Schema readAttr)

/-- Two values (or unset slots) at the place `q` that differ only in what the selectors do not touch: they are the
same; or records of one class that differ only so in every property that the selectors touch; or collections of
records of one class with the same keys, whose members differ only so if the selectors touch them. -/
inductive SameTouched (S : Schema) (qs : List FS) : FS → Option Val → Option Val → Prop
  | refl {q v} : SameTouched S qs q v v
  | rcd {q c s t} : (∀ p ∈ (S.cls c).props, Touches qs (q ++ [.str p.name]) →
      SameTouched S qs (q ++ [.str p.name]) (readAttr S (.rcd c s) p.name) (readAttr S (.rcd c t) p.name)) →
      SameTouched S qs q (some (.rcd c s)) (some (.rcd c t))
  | coll {q v w c kd n xs ys} : clsOf v = some c → clsOf w = some c → (S.cls c).coll = some (kd, .one (.cls n)) →
      tuplesOf (some v) = .ok xs → tuplesOf (some w) = .ok ys → xs.map (·.1) = ys.map (·.1) →
      (∀ k u u', (k, u) ∈ xs → (k, u') ∈ ys → Touches qs (q ++ [k]) →
        SameTouched S qs (q ++ [k]) (some u) (some u')) →
      SameTouched S qs q (some v) (some w)

/-- Two records of one class (that is no collection) at the place `q` that have the same value in every property that the selectors
touch. -/
def SameParts (S : Schema) (qs : List FS) (q : FS) (u u' : Val) : Prop :=
  ∃ c s t, u = .rcd c s ∧ u' = .rcd c t ∧ (S.cls c).coll = none ∧ ∀ p ∈ (S.cls c).props ++ (S.cls c).pk, Touches qs (q ++ [.str p.name]) →
    readAttr S u p.name = readAttr S u' p.name

/-- Two collections at the place `q` with the same keys, whose members have the same value in every property that
the selectors touch. -/
structure SameMembers (S : Schema) (qs : List FS) (q : FS) (v v' : Val) : Prop where
  tag : tagOf v = tagOf v'
  keys : KeysOK v ∧ KeysOK v'
  members : ∃ xs xs', tuplesOf (some v) = .ok xs ∧ tuplesOf (some v') = .ok xs' ∧
    List.Forall₂ (fun e e' => e.1 = e'.1 ∧ (Touches qs (q ++ [e.1]) → SameParts S qs (q ++ [e.1]) e.2 e'.2)) xs xs'

/-- A pair of values `a`, `b` at the place `q`, and another pair `a'`, `b'` that differs from it only outside the
selectors: in properties of records, at any depth, and in the properties of the members of collections of
records that `a` and `b` both have. -/
inductive SamePair (S : Schema) (qs : List FS) : FS → Option Val → Option Val → Option Val → Option Val → Prop
  | each {q a b a' b'} : SameFor S qs q a a' → SameFor S qs q b b' → SamePair S qs q a b a' b'
  | rcd {q c s t s' t'} : (∀ p ∈ (S.cls c).props, Touches qs (q ++ [.str p.name]) →
      SamePair S qs (q ++ [.str p.name]) (readAttr S (.rcd c s) p.name) (readAttr S (.rcd c t) p.name)
        (readAttr S (.rcd c s') p.name) (readAttr S (.rcd c t') p.name)) →
      SamePair S qs q (some (.rcd c s)) (some (.rcd c t)) (some (.rcd c s')) (some (.rcd c t'))
  | coll {q v w v' w' c kd n} : clsOf v = some c → (S.cls c).coll = some (kd, .one (.cls n)) → tagOf v = tagOf w →
      SameMembers S qs q v v' → SameMembers S qs q w w' →
      SamePair S qs q (some v) (some w) (some v') (some w')

end Normalize.Spec
