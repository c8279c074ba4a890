import Verif.Spec.EmptySets
import Verif.Props.Empty

/-! # C135: each set of types has a single placeholder -/

namespace Normalize.Empty
open Normalize.Spec

/-- C135, in full: asking for placeholders for the same set of types gives the same object. -/
def C135_statement : Prop :=
  ∀ (W : World) (h : Heap) (ts us : List PTy), Reached W h → (∀ t, t ∈ ts ↔ t ∈ us) →
    (placeholder (placeholder h ts).2 us).1 = (placeholder h ts).1

/-- **C135 does not hold**: the order counts. -/
theorem C135_violated : ¬ C135_statement := by
  intro h
  have := h ⟨fun _ => [], fun _ _ => none, fun _ => none⟩ {} [.ty "A", .ty "B"] [.ty "B", .ty "A"] .init
    (by intro t; simp [or_comm])
  exact absurd this (by decide +kernel)

variable {W : World} {h h₂ : Heap} {i i₂ : Nat}

theorem sameSet_knows {p : Prop} {q : PTy → Prop} {t u : Types} (ht : Knows p q t) (hu : Knows p q u) : SameSet t u := by
  cases t with
  | any => cases u with
    | any => trivial
    | tuple us => exact absurd ht hu.1
  | tuple ts => cases u with
    | any => exact absurd hu ht.1
    | tuple us => exact fun x => (ht.2.2 x).trans (hu.2.2 x).symm

/-- One operation on each. -/
theorem run_alike (hr : Reached W h) (hr₂ : Reached W h₂) {t u : Types} (hi : IsFor h i t) (hi₂ : IsFor h₂ i₂ u)
    (hs : SameSet t u) (op : Op) : AlikeEnds (run W h i op) (run W h₂ i₂ op) := by
  cases t with
  | any => cases u with
    | tuple us => exact absurd hs id
    | any =>
      have h1 := C58_any (W := W) hi [op]
      have h2 := C58_any (W := W) hi₂ [op]
      have e1 : run W h i op = .ok (i, h) := by
        obtain ⟨o, ho, ht⟩ := hi
        cases op <;> simp [run, access, subscript, call, ho, ht]
      have e2 : run W h₂ i₂ op = .ok (i₂, h₂) := by
        obtain ⟨o, ho, ht⟩ := hi₂
        cases op <;> simp [run, access, subscript, call, ho, ht]
      rw [e1, e2]
      exact ⟨_, _, hi, hi₂, hs⟩
  | tuple ts => cases u with
    | any => exact absurd hs id
    | tuple us =>
      have hs' : ∀ x, x ∈ ts ↔ x ∈ us := hs
      cases op with
      | attr nm =>
        have hS : SomeHas W us nm = SomeHas W ts nm := by simp only [SomeHas, hs']
        have hD : DeclaredAs W us nm = DeclaredAs W ts nm := by funext x; simp only [DeclaredAs, hs']
        have hU : Untyped W us nm = Untyped W ts nm := by simp only [Untyped, hD, hs']
        have a := C58_attr hr hi nm
        have b := C58_attr hr₂ hi₂ nm
        rw [hS, hU, hD] at b
        by_cases hc : SomeHas W ts nm
        · obtain ⟨j, h', t, e1, f1, k1⟩ := a.2 hc
          obtain ⟨j', h'', t', e2, f2, k2⟩ := b.2 hc
          simp only [run, e1, e2]
          exact ⟨t, t', f1, f2, sameSet_knows k1 k2⟩
        · simp only [run, a.1 hc, b.1 hc]
          rfl
      | item =>
        have hS : SomeItems W us = SomeItems W ts := by simp only [SomeItems, hs']
        have hD : ItemAs W us = ItemAs W ts := by funext x; simp only [ItemAs, hs']
        have hU : UntypedItems W us = UntypedItems W ts := by simp only [UntypedItems, hD, hs']
        have a := C58_item hr hi
        have b := C58_item hr₂ hi₂
        rw [hS, hU, hD] at b
        by_cases hc : SomeItems W ts
        · obtain ⟨j, h', t, e1, f1, k1⟩ := a.2 hc
          obtain ⟨j', h'', t', e2, f2, k2⟩ := b.2 hc
          simp only [run, e1, e2]
          exact ⟨t, t', f1, f2, sameSet_knows k1 k2⟩
        · simp only [run, a.1 hc, b.1 hc]
          rfl
      | slice =>
        simp only [run, C58_slice hi, C58_slice hi₂]
        exact ⟨_, _, hi, hi₂, hs⟩
      | call =>
        have hS : SomeCall W us = SomeCall W ts := by simp only [SomeCall, hs']
        have a := C58_call hr hi
        have b := C58_call hr₂ hi₂
        rw [hS] at b
        by_cases hc : SomeCall W ts
        · obtain ⟨j, h', e1, f1⟩ := a.2 hc
          obtain ⟨j', h'', e2, f2⟩ := b.2 hc
          simp only [run, e1, e2]
          exact ⟨_, _, f1, f2, trivial⟩
        · simp only [run, a.1 hc, b.1 hc]
          rfl

/-- C135, what holds: placeholders for the same set of types behave alike, whatever was done before: any chain of operations
raises the same on both, or comes to placeholders for the same set of types. -/
theorem C135_partial (hr : Reached W h) (hr₂ : Reached W h₂) {t u : Types} (hi : IsFor h i t) (hi₂ : IsFor h₂ i₂ u)
    (hs : SameSet t u) (ops : List Op) : AlikeEnds (chain W h i ops) (chain W h₂ i₂ ops) := by
  induction ops generalizing h h₂ i i₂ t u with
  | nil => exact ⟨t, u, hi, hi₂, hs⟩
  | cons op ops ih =>
    have := run_alike hr hr₂ hi hi₂ hs op
    simp only [chain]
    cases h1 : run W h i op with
    | error e =>
      cases h2 : run W h₂ i₂ op with
      | error e' => rw [h1, h2] at this; exact this
      | ok r => rw [h1, h2] at this; exact absurd this id
    | ok r =>
      cases h2 : run W h₂ i₂ op with
      | error e' => rw [h1, h2] at this; exact absurd this id
      | ok r₂ =>
        rw [h1, h2] at this
        obtain ⟨t', u', f1, f2, hs'⟩ := this
        exact ih (.run hr h1) (.run hr₂ h2) f1 f2 hs'

/-- Each tuple of types, in its order, has a single placeholder. -/
theorem C135_tuple (W : World) (h : Heap) (hr : Reached W h) (ts : List PTy) :
    (placeholder (placeholder h ts).2 ts).1 = (placeholder h ts).1 := by
  have := placeholder_good (reached_good hr) ts
  rw [C58_placeholder (.placeholder hr) this.2.1]

/-! An example: a person or a robot, asked for in both orders. -/

def exPR : Heap := (placeholder {} [.ty "Person", .ty "Robot"]).2
def exRP : Heap := (placeholder {} [.ty "Robot", .ty "Person"]).2

theorem exPR_for : IsFor exPR 0 (.tuple [.ty "Person", .ty "Robot"]) := ⟨_, rfl, by decide⟩
theorem exRP_for : IsFor exRP 0 (.tuple [.ty "Robot", .ty "Person"]) := ⟨_, rfl, by decide⟩

-- the hypotheses of `C135_partial` are met, and the names are of the same set of types
example : Reached exW exPR ∧ Reached exW exRP ∧
    SameSet (.tuple [.ty "Person", .ty "Robot"]) (.tuple [.ty "Robot", .ty "Person"]) ∧
    typesAt (chain exW exPR 0 [.attr "name"]) = .ok (some (.tuple [.ty "str", .ty "int"])) ∧
    typesAt (chain exW exRP 0 [.attr "name"]) = .ok (some (.tuple [.ty "int", .ty "str"])) ∧
    typesAt (chain exW exPR 0 [.item]) = .error .notSubscriptable ∧
    typesAt (chain exW exRP 0 [.item]) = .error .notSubscriptable :=
  ⟨.placeholder .init, .placeholder .init, by intro t; simp [or_comm], by decide +kernel, by decide +kernel,
    by decide +kernel, by decide +kernel⟩

end Normalize.Empty
