import Verif.Spec.CollSet

/-!
# C139: how often an assignment calls the functions of the user
-/

namespace Normalize.CollSet
open Spec (OnceEach Steady C139_statement)

variable {V : Type} {isNone : V → Bool} {P : Prop_ V} {v w : V} {h h' : List (Call V)}

theorem runCheck_calls (P : Prop_ V) (v : V) (h : List (Call V)) :
    (runCheck P v h).2 = h ++ (if P.check.isSome then [.check v] else []) := by
  unfold runCheck
  cases P.check with
  | none => simp
  | some f => simp only []; split <;> simp

theorem runCheck_ok {r : V} (hr : runCheck P v h = (.ok r, h')) :
    r = v ∧ h' = h ++ (if P.check.isSome then [.check v] else []) ∧ ∀ f ∈ P.check, f h v = .ok true := by
  unfold runCheck at hr
  cases hc : P.check with
  | none =>
    rw [hc] at hr; cases hr
    exact ⟨rfl, by simp, fun f hf => by cases hf⟩
  | some f =>
    rw [hc] at hr
    simp only [] at hr
    split at hr
    · next hf =>
      cases hr
      exact ⟨rfl, by simp, fun g hg => by cases hg; exact hf⟩
    · cases hr
    · cases hr

/-- What comes of a conversion passes the tests that come before the `check`. -/
theorem typeSafe_fix {r : V} (hr : typeSafe isNone P v h = (.ok r, h')) :
    ∃ h0, (h0 = h ∨ h0 = h ++ [.coerce v]) ∧ runCheck P r h0 = (.ok r, h') ∧
      ∀ g, typeSafe isNone P r g = runCheck P r g := by
  unfold typeSafe at hr
  cases hi : P.isa with
  | none =>
    rw [hi] at hr
    simp only [] at hr
    split at hr
    · cases hr
    · next hn =>
      have := (runCheck_ok hr).1
      subst this
      exact ⟨h, .inl rfl, hr, fun g => by simp only [typeSafe, hi]; rw [if_neg hn]⟩
  | some isa =>
    rw [hi] at hr
    simp only [] at hr
    have hcase : ∀ {w : V}, afterCoerce P isa w (h ++ [.coerce v]) = (.ok r, h') → ∃ h0, (h0 = h ∨ h0 = h ++ [.coerce v]) ∧
        runCheck P r h0 = (.ok r, h') ∧ ∀ g, typeSafe isNone P r g = runCheck P r g := by
      intro w hw
      unfold afterCoerce at hw
      split at hw
      · next hiw =>
        have := (runCheck_ok hw).1
        subst this
        exact ⟨_, .inr rfl, hw, fun g => by simp only [typeSafe, hi]; rw [if_pos hiw]⟩
      · cases hw
    split at hr
    · next hiv =>
      have := (runCheck_ok hr).1
      subst this
      exact ⟨h, .inl rfl, hr, fun g => by simp only [typeSafe, hi]; rw [if_pos hiv]⟩
    · split at hr
      · cases hr
      · exact hcase hr
      · exact hcase hr

/-! ## C139 -/

/-- C139 for properties that are not collections. -/
theorem C139_safe (isNone : V → Bool) (P : Prop_ V) (v : V) (h : List (Call V)) :
    ∃ l, (setSafe isNone P v h).2 = h ++ l ∧ OnceEach l := by
  have hrun : ∀ (w : V) (h : List (Call V)), ∃ l, (runCheck P w h).2 = h ++ l ∧ (l = [] ∨ l = [.check w]) := by
    intro w h
    rw [runCheck_calls]
    split
    · exact ⟨_, rfl, .inr rfl⟩
    · exact ⟨_, rfl, .inl rfl⟩
  have hone : ∀ (w : V), ∃ l, (runCheck P w h).2 = h ++ l ∧ OnceEach l := by
    intro w
    obtain ⟨l, h1, rfl | rfl⟩ := hrun w h
    · exact ⟨_, h1, .none⟩
    · exact ⟨_, h1, .checked w⟩
  have htwo : ∀ (isa : V → Bool) (w : V), ∃ l, (afterCoerce P isa w (h ++ [.coerce v])).2 = h ++ l ∧ OnceEach l := by
    intro isa w
    unfold afterCoerce
    split
    · obtain ⟨l, h1, rfl | rfl⟩ := hrun w (h ++ [.coerce v])
      · exact ⟨[.coerce v], by simpa using h1, .coerced v⟩
      · exact ⟨[.coerce v, .check w], by simpa using h1, .both v w⟩
    · exact ⟨[.coerce v], rfl, .coerced v⟩
  unfold setSafe typeSafe
  split
  · split
    · exact ⟨[], by simp, .none⟩
    · exact hone v
  · split
    · exact hone v
    · split
      · exact ⟨[.coerce v], rfl, .coerced v⟩
      · exact htwo _ _
      · exact htwo _ _

/-- C139 for collection properties, as far as it holds: the calls are those that would be made for another property, and
if that would store a value, its `check` is asked once more, with that value. -/
theorem C139_partial (isNone : V → Bool) (P : Prop_ V) (v : V) (h : List (Call V)) :
    (∀ e h', setSafe isNone P v h = (.error e, h') → setColl isNone P v h = (.error e, h')) ∧
    ∀ w h', setSafe isNone P v h = (.ok w, h') →
      (setColl isNone P v h).2 = h' ++ (if P.check.isSome then [.check w] else []) ∧
      ∀ w' h'', setColl isNone P v h = (.ok w', h'') → w' = w := by
  refine ⟨fun e h' he => ?_, fun w h' hw => ?_⟩
  · unfold setSafe at he
    simp only [setColl, he]
  · unfold setSafe at hw
    obtain ⟨h0, _, _, hfix⟩ := typeSafe_fix hw
    have hs : setColl isNone P v h = runCheck P w h' := by simp only [setColl, hw, setSafe, hfix]
    rw [hs]
    exact ⟨runCheck_calls P w h', fun w' h'' h2 => (runCheck_ok h2).1⟩

/-- If the `check` says the same when asked once more, the same is stored, or the same exception raised, as for another
property. -/
theorem C139_same (hP : Steady P) : (setColl isNone P v h).1 = (setSafe isNone P v h).1 := by
  cases hs : setSafe isNone P v h with
  | mk r h' =>
    cases r with
    | error e => rw [(C139_partial isNone P v h).1 e h' hs]
    | ok w =>
      have hs' := hs
      unfold setSafe at hs
      obtain ⟨h0, _, hrun, hfix⟩ := typeSafe_fix hs
      have heq : setColl isNone P v h = runCheck P w h' := by simp only [setColl, hs, setSafe, hfix]
      rw [heq]
      obtain ⟨_, hh, hall⟩ := runCheck_ok hrun
      unfold runCheck
      cases hc : P.check with
      | none => rfl
      | some f =>
        have h1 : f h0 w = .ok true := hall f hc
        have h2 := hP f hc h0 w h1
        rw [hc] at hh
        simp only [Option.isSome_some, if_true] at hh
        rw [← hh] at h2
        simp only [h2]

theorem setV1_calls (sup : V → List (Call V) → Except Exc V × List (Call V)) (isV1None : V → Bool) (slot : Option V) :
    (setV1 sup isNone isV1None P slot v h).2 = (sup v h).2 := by
  unfold setV1
  split
  · next hs => rw [hs]
  · next hs => rw [hs]; split
               · split <;> rfl
               · rfl

/-- C139 for V1 properties, whose setter catches the exception of a refused value: they call the functions as other
properties do, and never once more because of the exception. -/
theorem C139_v1 (isNone isV1None : V → Bool) (P : Prop_ V) (slot : Option V) (v : V) (h : List (Call V)) :
    (∃ l, (setV1 (setSafe isNone P) isNone isV1None P slot v h).2 = h ++ l ∧ OnceEach l) ∧
    (setV1 (setColl isNone P) isNone isV1None P slot v h).2 = (setColl isNone P v h).2 := by
  refine ⟨?_, setV1_calls _ _ _⟩
  rw [setV1_calls]
  exact C139_safe isNone P v h

/-- What a V1 property stores is what the property without that trait would store; the slot is emptied only if the value
was refused with a `CoercionError`, is `None` or the `v1_none`, and there was a value in the slot. -/
theorem C139_v1_stored (sup : V → List (Call V) → Except Exc V × List (Call V)) (isV1None : V → Bool) (slot : Option V) :
    (∀ w, (setV1 sup isNone isV1None P slot v h).1 = .ok (some w) ↔ (sup v h).1 = .ok w) ∧
    ((setV1 sup isNone isV1None P slot v h).1 = .ok none ↔ (∃ e, (sup v h).1 = .error e ∧ e.isCoercion = true) ∧
      (isNone v = true ∨ isV1None v = true) ∧ P.required = false ∧ slot ≠ none) := by
  unfold setV1 deleteSafe
  cases hs : sup v h with
  | mk r g =>
    cases r with
    | ok w => simp
    | error e =>
      cases he : e.isCoercion <;> cases h1 : isNone v <;> cases h2 : isV1None v <;> cases h3 : P.required <;>
        cases slot <;> simp [he]

/-- If `check` says the same when asked once more, then for V1 properties too a collection property ends up as another
one would. -/
theorem C139_v1_same (isNone isV1None : V → Bool) (P : Prop_ V) (hP : Steady P) (slot : Option V) (v : V)
    (h : List (Call V)) : (setV1 (setColl isNone P) isNone isV1None P slot v h).1 =
      (setV1 (setSafe isNone P) isNone isV1None P slot v h).1 := by
  have hk := C139_same (isNone := isNone) (v := v) (h := h) hP
  unfold setV1
  cases h1 : setColl isNone P v h with
  | mk r g =>
    cases h2 : setSafe isNone P v h with
    | mk r' g' =>
      rw [h1, h2] at hk
      simp only [] at hk
      subst hk
      cases r with
      | ok w => rfl
      | error e =>
        simp only []
        split
        · split <;> rfl
        · rfl

/-- A `check` that takes each value once only. -/
def unseen : Prop_ Nat :=
  { isa := some (fun n => decide (n < 10)), coerce := fun _ v => .value (v - 10)
    check := some (fun h v => .ok (!(decide (Call.check v ∈ h)))) }

/-- C139 is violated: the `check` of a collection property is called twice … -/
theorem C139_violated : ¬ C139_statement := by
  intro h
  obtain ⟨_, l, h1, h2⟩ := h (fun _ => false) unseen 3 []
  have : l = [.check 3, .check 3] := h1.symm.trans (by decide +kernel)
  subst this
  cases h2

/-- … so that a `check` that takes each value once refuses every value, although other properties store it. -/
theorem C139_refused (v : Nat) : (∀ w, (setColl (fun _ => false) unseen v []).1 ≠ .ok w) ∧
    (v < 10 → setSafe (fun _ => false) unseen v [] = (.ok v, [.check v]) ∧
      setColl (fun _ => false) unseen v [] = (.error .valueCheck, [.check v, .check v])) := by
  have hlt : v < 10 → setSafe (fun _ => false) unseen v [] = (.ok v, [.check v]) ∧
      setColl (fun _ => false) unseen v [] = (.error .valueCheck, [.check v, .check v]) := by
    intro hv
    constructor <;> simp [setSafe, setColl, typeSafe, runCheck, unseen, hv]
  refine ⟨fun w hv => ?_, hlt⟩
  by_cases h10 : v < 10
  · rw [(hlt h10).2] at hv; cases hv
  · simp only [setColl, typeSafe, unseen, h10, decide_false, Bool.false_eq_true, if_false, afterCoerce] at hv
    by_cases h20 : v - 10 < 10
    · simp [h20, runCheck, setSafe, typeSafe] at hv
    · simp [h20] at hv

/-- A value that has to be converted. -/
example : setSafe (fun _ => false) unseen 13 [] = (.ok 3, [.coerce 13, .check 3]) := by with_unfolding_all rfl
example : setColl (fun _ => false) unseen 13 [] = (.error .valueCheck, [.coerce 13, .check 3, .check 3]) := by
  with_unfolding_all rfl

/-- A `check` of the value only is steady. -/
def evens : Prop_ Nat :=
  { isa := some (fun n => decide (n < 10)), coerce := fun _ v => .subtype (v - 10), check := some (fun _ v => .ok (v % 2 == 0)) }

example : Steady evens := by
  intro f hf h v hv
  cases hf
  exact hv

example : (setColl (fun _ => false) evens 14 []).1 = .ok 4 ∧ (setColl (fun _ => false) evens 15 []).1 = .error .valueCheck ∧
    (setColl (fun _ => false) evens 25 []).1 = .error .valueCoercion := by with_unfolding_all exact ⟨rfl, rfl, rfl⟩

/-- A V1 property: 25 is refused; as it is the `v1_none`, the slot is emptied. -/
example : setV1 (setColl (fun _ => false) evens) (fun _ => false) (· == 25) evens (some 2) 25 [] = (.ok none, [.coerce 25]) ∧
    setV1 (setColl (fun _ => false) evens) (fun _ => false) (· == 25) evens none 25 [] = (.error .keyError, [.coerce 25]) ∧
    (setV1 (setColl (fun _ => false) evens) (fun _ => false) (· == 25) evens none 14 []).1 = .ok (some 4) := by
  with_unfolding_all exact ⟨rfl, rfl, rfl⟩

end Normalize.CollSet
