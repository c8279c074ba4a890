import Verif.Spec.DiffEmpty

/-!
# Items of collections with nothing in them
-/

namespace Normalize.Spec
open Normalize.Diff
open Ident (IProp Schema Ty ItemTy CollKind readAttr collTuples itemTy)

/-- The one record (or collection) type of a property; it may have other types that are no records. -/
def OneRecordType (p : IProp) (n : String) : Prop :=
  ∃ pre post, p.types = pre ++ Ty.cls n :: post ∧ (∀ m, Ty.cls m ∉ pre) ∧ ∀ m, Ty.cls m ∉ post

/-- A class whose instances are identified by key fields, rather than by their members. -/
def ByFields (S : Schema) (c : String) : Prop := (S.cls c).coll = none ∨ (S.cls c).pk ≠ []

/-- There are key fields, or members. -/
def HasParts (S : Schema) (o : Opts) (c : String) (v : Val) : Prop :=
  (ByFields S c ∧ ∃ p, KeyField S o c p) ∨
  ∃ k it e xs, (S.cls c).coll = some (k, it) ∧ (S.cls c).pk = [] ∧ collTuples S k v = .ok xs ∧ e ∈ xs

/-- Nothing in it: all key fields are `None`, `''` or not set, or hold a record or collection with nothing in it; in a
collection, all members are like that. -/
inductive Hollow (D : Setup) (o : Opts) : String → Val → Prop
  | fields {c v} : ByFields D.S c →
      (∀ p, KeyField D.S o c p → (∀ n, ¬ OneRecordType p n) ∨ (∀ w, readAttr D.S v p.name = some w → clsOf w = none) →
        NoContent D (readAttr D.S v p.name)) →
      (∀ p n w, KeyField D.S o c p → OneRecordType p n → readAttr D.S v p.name = some w → clsOf w ≠ none →
        HasParts D.S o n w) →
      (∀ p n w, KeyField D.S o c p → OneRecordType p n → readAttr D.S v p.name = some w → clsOf w ≠ none →
        Hollow D o n w) →
      Hollow D o c v
  | members {c v k it xs} : (D.S.cls c).coll = some (k, it) → (D.S.cls c).pk = [] → collTuples D.S k v = .ok xs →
      (∀ e ∈ xs, ∀ n, itemTy it e.2 = .other n → e.2 = .none ∨ e.2 = .str "") →
      (∀ e ∈ xs, ∀ n, itemTy it e.2 = .cls n → Hollow D o n e.2) →
      Hollow D o c v

/-- Properties have at most one record type, and such properties hold a record or collection, or `None`; this holds
also for these.  No property holds the marker for "no value". -/
inductive OneTyped (D : Setup) (o : Opts) : String → Val → Prop
  | fields {c v} : ByFields D.S c →
      (∀ p, KeyField D.S o c p → readAttr D.S v p.name ≠ some nothingVal) →
      (∀ p, KeyField D.S o c p → (∀ n, Ty.cls n ∉ p.types) ∨ ∃ n, OneRecordType p n) →
      (∀ p n w, KeyField D.S o c p → OneRecordType p n → readAttr D.S v p.name = some w → w = .none ∨ clsOf w ≠ none) →
      (∀ p n w, KeyField D.S o c p → OneRecordType p n → readAttr D.S v p.name = some w → clsOf w ≠ none →
        OneTyped D o n w) →
      OneTyped D o c v
  | members {c v k it xs} : (D.S.cls c).coll = some (k, it) → (D.S.cls c).pk = [] → collTuples D.S k v = .ok xs →
      (∀ e ∈ xs, e.2 ≠ nothingVal) →
      (∀ e ∈ xs, ∀ n, itemTy it e.2 = .cls n → OneTyped D o n e.2) →
      OneTyped D o c v

/-- An item with nothing in it. -/
def HollowItem (D : Setup) (o : Opts) (v : Val) : Prop := ∃ c, clsOf v = some c ∧ Hollow D o c v

/-- A collection, and the same collection without some of its items that have nothing in them.  The other members keep
their keys. -/
def WithoutHollow (D : Setup) (o : Opts) (v v' : Val) : Prop :=
  tagOf v = tagOf v' ∧ ∃ xs xs', tuplesOf (some v) = .ok xs ∧ tuplesOf (some v') = .ok xs' ∧
    Without (fun e => HollowItem D o e.2) xs xs'

end Normalize.Spec
