import Verif.Spec.Observe
import Verif.Lemmas.Property

/-!
# Reading attributes without storing anything
-/

namespace Normalize.Observe

open Slots (World PropDef Cls State)

variable {V : Type} [DecidableEq V] {S : Setup V}

/-- Run code that only reads, in one state, given what attributes read as. -/
def freshRun {α : Type} (gt : Nat → String → Option (Except Exc V)) (h : Heap V) : Code V α → Option (Except Exc α)
  | .done r => some r
  | .get i nm k =>
    match gt i nm with
    | none => none
    | some r => freshRun gt h (k r)
  | .slot i nm k => freshRun gt h (k ((h i).slots nm))
  | .set _ _ _ _ => none
  | .del _ _ _ => none

/-- What the default gives. -/
def safeOf (S : Setup V) (p : PropDef V) : Except Exc V → Except Exc V
  | .error e => .error e
  | .ok v => Slots.typeSafe S.w p v false

/-- What an attribute reads as, if nothing is ever stored. -/
def fresh (S : Setup V) : Nat → Heap V → Nat → String → Option (Except Exc V)
  | 0, _, _, _ => none
  | n + 1, h, i, nm =>
    match (h i).slots nm with
    | some v => some (.ok v)
    | none =>
      match (S.clsOf i).find nm with
      | none => some (.error .attributeError)
      | some p =>
        if p.kind.isLazy then
          match freshRun (fresh S n h) h (defaultOf S i nm) with
          | none => none
          | some q => some (safeOf S p q)
        else some (notSet S p)

theorem freshRun_mono {α : Type} {g g' : Nat → String → Option (Except Exc V)} {h : Heap V}
    (hg : ∀ i nm r, g i nm = some r → g' i nm = some r) (c : Code V α) :
    ∀ r, freshRun g h c = some r → freshRun g' h c = some r := by
  induction c with
  | done r => exact fun _ h => h
  | get i nm k ih =>
    intro r hr
    simp only [freshRun] at hr ⊢
    cases hc : g i nm with
    | none => rw [hc] at hr; cases hr
    | some q =>
      rw [hc] at hr
      rw [hg i nm q hc]
      exact ih q r hr
  | slot i nm k ih => exact fun r hr => ih _ r hr
  | set i nm v k ih => exact fun r hr => nomatch hr
  | del i nm k ih => exact fun r hr => nomatch hr

theorem fresh_mono (n : Nat) : ∀ (h : Heap V) (i : Nat) (nm : String) r, fresh S n h i nm = some r →
    fresh S (n + 1) h i nm = some r := by
  induction n with
  | zero => exact fun h i nm r hr => nomatch hr
  | succ n ih =>
    intro h i nm r hr
    rw [fresh] at hr ⊢
    cases hs : (h i).slots nm with
    | some v => rw [hs] at hr; exact hr
    | none =>
      rw [hs] at hr
      simp only at hr ⊢
      cases hf : (S.clsOf i).find nm with
      | none => rw [hf] at hr; exact hr
      | some p =>
        rw [hf] at hr
        simp only at hr ⊢
        by_cases hl : p.kind.isLazy = true
        · rw [if_pos hl] at hr ⊢
          cases hq : freshRun (fresh S n h) h (defaultOf S i nm) with
          | none => rw [hq] at hr; cases hr
          | some q =>
            rw [hq] at hr
            rw [freshRun_mono (ih h) _ q hq]
            exact hr
        · rw [if_neg hl] at hr ⊢
          exact hr

theorem fresh_le {n m : Nat} (hnm : n ≤ m) (h : Heap V) (i : Nat) (nm : String) (r : Except Exc V)
    (hr : fresh S n h i nm = some r) : fresh S m h i nm = some r := by
  induction hnm with
  | refl => exact hr
  | step _ ih => exact fresh_mono _ h i nm r ih

theorem fresh_unique {n m : Nat} {h : Heap V} {i : Nat} {nm : String} {r r' : Except Exc V}
    (hr : fresh S n h i nm = some r) (hr' : fresh S m h i nm = some r') : r = r' := by
  have h1 := fresh_le (Nat.le_max_left n m) h i nm r hr
  have h2 := fresh_le (Nat.le_max_right n m) h i nm r' hr'
  rw [h1] at h2
  exact Option.some.inj h2

/-- The second state is the first, with values of lazy attributes stored. -/
def Cached (S : Setup V) (b s : Heap V) : Prop := ∀ i nm, (s i).slots nm = (b i).slots nm ∨
  (IsLazy S i nm ∧ (b i).slots nm = none ∧ ∃ v n, (s i).slots nm = some v ∧ fresh S n b i nm = some (.ok v))

theorem cached_refl (b : Heap V) : Cached S b b := fun _ _ => Or.inl rfl

theorem cached_upd {b s : Heap V} {i : Nat} {t : State V} (h : Cached S b s) (ht : t.slots = (s i).slots) :
    Cached S b (upd s i t) := by
  intro j nm
  unfold upd
  by_cases hj : j = i
  · subst hj
    rw [if_pos rfl, ht]
    exact h j nm
  · rw [if_neg hj]
    exact h j nm

theorem cached_put {b s : Heap V} {i : Nat} {nm : String} {u : V} {n : Nat} (h : Cached S b s) (hl : IsLazy S i nm)
    (hb : (b i).slots nm = none) (hu : fresh S n b i nm = some (.ok u)) : Cached S b (upd s i ((s i).put nm u)) := by
  intro j m
  unfold upd
  by_cases hj : j = i
  · subst hj
    rw [if_pos rfl]
    by_cases hm : m = nm
    · subst hm
      exact Or.inr ⟨hl, hb, u, n, by simp [State.put], hu⟩
    · have : ((s j).put nm u).slots m = (s j).slots m := by simp [State.put, hm]
      rw [this]
      exact h j m
  · rw [if_neg hj]
    exact h j m

theorem cached_base {b s : Heap V} {i : Nat} {nm : String} (h : Cached S b s) (hs : (s i).slots nm = none) :
    (b i).slots nm = none := by
  rcases h i nm with h1 | ⟨_, h1, _⟩
  · rw [← h1]; exact hs
  · exact h1

theorem reads_default (hS : Readers S) (i : Nat) (nm : String) : Reads S (defaultOf S i nm) := by
  unfold defaultOf
  cases hd : S.dflt (S.typ i) nm with
  | none => exact .done
  | some f => exact hS.dflt i nm f hd

/-- What code finds in a state with stored values is what it finds without. -/
theorem runCode_sound {α : Type} {n : Nat} {b : Heap V} (hget : ∀ s i nm r s', Cached S b s →
      getAt S n s i nm = some (r, s') → (∃ m, fresh S m b i nm = some r) ∧ Cached S b s')
    {c : Code V α} (hc : Reads S c) : ∀ s r s', Cached S b s → runCode S (getAt S n) c s = some (r, s') →
      (∃ m, freshRun (fresh S m b) b c = some r) ∧ Cached S b s' := by
  induction hc with
  | done =>
    intro s r s' hs h
    cases h
    exact ⟨⟨0, rfl⟩, hs⟩
  | @get i nm k hk ih =>
    intro s r s' hs h
    simp only [runCode] at h
    cases hg : getAt S n s i nm with
    | none => rw [hg] at h; cases h
    | some q =>
      obtain ⟨r1, s1⟩ := q
      rw [hg] at h
      obtain ⟨⟨m1, h1⟩, h2⟩ := hget s i nm r1 s1 hs hg
      obtain ⟨⟨m2, h3⟩, h4⟩ := ih r1 s1 r s' h2 h
      refine ⟨⟨max m1 m2, ?_⟩, h4⟩
      simp only [freshRun]
      rw [fresh_le (Nat.le_max_left m1 m2) b i nm r1 h1]
      exact freshRun_mono (fun i nm r => fresh_le (Nat.le_max_right m1 m2) b i nm r) _ r h3
  | @slot i nm k hl hk ih =>
    intro s r s' hs h
    simp only [runCode] at h
    have h1 : (s i).slots nm = (b i).slots nm := by
      rcases hs i nm with h1 | ⟨h1, _⟩
      · exact h1
      · exact absurd h1 hl
    rw [h1] at h
    exact ih _ s r s' hs h

theorem getAt_sound (hS : Readers S) {b : Heap V} (n : Nat) : ∀ s i nm r s', Cached S b s →
    getAt S n s i nm = some (r, s') → (∃ m, fresh S m b i nm = some r) ∧ Cached S b s' := by
  induction n with
  | zero => exact fun s i nm r s' _ h => nomatch h
  | succ n ih =>
    intro s i nm r s' hs h
    rw [getAt] at h
    cases hv : (s i).slots nm with
    | some v =>
      rw [hv] at h
      cases h
      refine ⟨?_, hs⟩
      rcases hs i nm with h1 | ⟨_, _, u, m, h2, h3⟩
      · refine ⟨1, ?_⟩
        rw [fresh, ← h1, hv]
      · rw [hv] at h2
        cases h2
        exact ⟨m, h3⟩
    | none =>
      rw [hv] at h
      simp only at h
      have hb := cached_base hs hv
      cases hf : (S.clsOf i).find nm with
      | none =>
        rw [hf] at h
        cases h
        refine ⟨⟨1, ?_⟩, hs⟩
        rw [fresh, hb, hf]
      | some p =>
        rw [hf] at h
        simp only at h
        by_cases hl : p.kind.isLazy = true
        · rw [if_pos hl] at h
          cases hq : runCode S (getAt S n) (defaultOf S i nm) (upd s i ((s i).log nm)) with
          | none => rw [hq] at h; cases h
          | some q =>
            obtain ⟨r1, s1⟩ := q
            rw [hq] at h
            simp only at h
            obtain ⟨⟨m, h1⟩, h2⟩ := runCode_sound ih (reads_default hS i nm) _ r1 s1
              (cached_upd (t := (s i).log nm) hs rfl) hq
            have hfr : fresh S (m + 1) b i nm = some (safeOf S p r1) := by
              rw [fresh, hb, hf]
              simp only
              rw [if_pos hl, h1]
            cases r1 with
            | error e =>
              cases h
              exact ⟨⟨m + 1, hfr⟩, h2⟩
            | ok v =>
              simp only [storeLazy] at h
              simp only [safeOf] at hfr
              cases ht : Slots.typeSafe S.w p v false with
              | error e =>
                rw [ht] at h hfr
                cases h
                exact ⟨⟨m + 1, hfr⟩, h2⟩
              | ok u =>
                rw [ht] at h hfr
                cases h
                exact ⟨⟨m + 1, hfr⟩, cached_put h2 ⟨p, hf, hl⟩ hb hfr⟩
        · rw [if_neg hl] at h
          cases h
          refine ⟨⟨1, ?_⟩, hs⟩
          rw [fresh, hb, hf]
          simp only
          rw [if_neg hl]

/-- And what it finds without, it finds in such a state. -/
theorem runCode_complete {α : Type} {n : Nat} {b : Heap V} (hget : ∀ s i nm r, Cached S b s →
      fresh S n b i nm = some r → ∃ s', getAt S n s i nm = some (r, s') ∧ Cached S b s')
    {c : Code V α} (hc : Reads S c) : ∀ s r, Cached S b s → freshRun (fresh S n b) b c = some r →
      ∃ s', runCode S (getAt S n) c s = some (r, s') ∧ Cached S b s' := by
  induction hc with
  | done =>
    intro s r hs h
    cases h
    exact ⟨s, rfl, hs⟩
  | @get i nm k hk ih =>
    intro s r hs h
    simp only [freshRun] at h
    cases hg : fresh S n b i nm with
    | none => rw [hg] at h; cases h
    | some q =>
      rw [hg] at h
      obtain ⟨s1, h1, h2⟩ := hget s i nm q hs hg
      obtain ⟨s', h3, h4⟩ := ih q s1 r h2 h
      refine ⟨s', ?_, h4⟩
      simp only [runCode]
      rw [h1]
      exact h3
  | @slot i nm k hl hk ih =>
    intro s r hs h
    simp only [freshRun] at h
    have h1 : (s i).slots nm = (b i).slots nm := by
      rcases hs i nm with h1 | ⟨h1, _⟩
      · exact h1
      · exact absurd h1 hl
    rw [← h1] at h
    exact ih _ s r hs h

theorem getAt_complete (hS : Readers S) {b : Heap V} (n : Nat) : ∀ s i nm r, Cached S b s →
    fresh S n b i nm = some r → ∃ s', getAt S n s i nm = some (r, s') ∧ Cached S b s' := by
  induction n with
  | zero => exact fun s i nm r _ h => nomatch h
  | succ n ih =>
    intro s i nm r hs h
    have h0 := h
    rw [fresh] at h
    rw [getAt]
    cases hv : (s i).slots nm with
    | some v =>
      refine ⟨s, ?_, hs⟩
      rcases hs i nm with h1 | ⟨_, _, u, m, h2, h3⟩
      · rw [← h1, hv] at h
        simp only at h ⊢
        rw [Option.some.inj h]
      · rw [hv] at h2
        cases h2
        rw [fresh_unique h0 h3]
    | none =>
      have hb := cached_base hs hv
      rw [hb] at h
      simp only at h ⊢
      cases hf : (S.clsOf i).find nm with
      | none =>
        rw [hf] at h
        cases h
        exact ⟨s, rfl, hs⟩
      | some p =>
        rw [hf] at h
        simp only at h ⊢
        by_cases hl : p.kind.isLazy = true
        · rw [if_pos hl] at h
          rw [if_pos hl]
          cases hq : freshRun (fresh S n b) b (defaultOf S i nm) with
          | none => rw [hq] at h; cases h
          | some q =>
            rw [hq] at h
            obtain ⟨s1, h1, h2⟩ := runCode_complete ih (reads_default hS i nm) _ q (cached_upd (t := (s i).log nm) hs rfl) hq
            rw [h1]
            simp only at h ⊢
            have h := Option.some.inj h
            cases q with
            | error e => exact ⟨s1, by rw [← h]; rfl, h2⟩
            | ok v =>
              simp only [storeLazy]
              simp only [safeOf] at h
              cases ht : Slots.typeSafe S.w p v false with
              | error e =>
                rw [ht] at h
                exact ⟨s1, by rw [← h], h2⟩
              | ok u =>
                rw [ht] at h
                subst h
                exact ⟨_, rfl, cached_put h2 ⟨p, hf, hl⟩ hb h0⟩
        · rw [if_neg hl] at h
          rw [if_neg hl]
          cases h
          exact ⟨s, rfl, hs⟩

/-- What the code finds in this state. -/
def Gives {α : Type} (S : Setup V) (h : Heap V) (c : Code V α) (r : Except Exc α) : Prop :=
  ∃ n h', run S n c h = some (r, h')

theorem gives_iff (hS : Readers S) {α : Type} {c : Code V α} (hc : Reads S c) {b s : Heap V} (hs : Cached S b s)
    (r : Except Exc α) : Gives S s c r ↔ ∃ m, freshRun (fresh S m b) b c = some r := by
  constructor
  · rintro ⟨n, s', h⟩
    exact (runCode_sound (getAt_sound hS n) hc s r s' hs h).1
  · rintro ⟨m, h⟩
    obtain ⟨s', h1, _⟩ := runCode_complete (getAt_complete hS m) hc s r hs h
    exact ⟨m, s', h1⟩

/-! ## The operations only read -/

theorem reads_andThen {α β : Type} {c : Code V α} (hc : Reads S c) {f : Except Exc α → Code V β}
    (hf : ∀ r, Reads S (f r)) : Reads S (c.andThen f) := by
  induction hc with
  | done => exact hf _
  | get _ ih => exact .get ih
  | slot hl _ ih => exact .slot hl ih

theorem reads_thenDo {α β : Type} {c : Code V α} (hc : Reads S c) {f : α → Code V β} (hf : ∀ a, Reads S (f a)) :
    Reads S (c.thenDo f) := by
  refine reads_andThen hc ?_
  intro r
  cases r with
  | error e => exact .done
  | ok a => exact hf a

theorem reads_get (i : Nat) (nm : String) : Reads S (Code.get i nm .done : Code V V) := .get (fun _ => .done)

theorem reads_unlessSet {α : Type} (r : Except Exc α) : Reads S (unlessSet r : Code V (Option α)) := by
  cases r with
  | ok v => exact .done
  | error e =>
    by_cases he : e.isAttribute = true
    · simp only [unlessSet, if_pos he]; exact .done
    · simp only [unlessSet, if_neg he]; exact .done

theorem reads_getOr (i : Nat) (nm : String) : Reads S (getOr i nm : Code V (Option V)) :=
  reads_andThen (reads_get i nm) reads_unlessSet

theorem reads_eqVal (d : Nat) : ∀ a b, Reads S (eqVal S d a b) := by
  induction d with
  | zero => exact fun a b => .done
  | succ d ih =>
    intro a b
    have loop : ∀ i j ps, Reads S (eqProps (eqVal S d) i j ps) := by
      intro i j ps
      induction ps with
      | nil => exact .done
      | cons p ps ihp =>
        refine reads_thenDo (reads_getOr i p) fun a => reads_thenDo (reads_getOr j p) fun b => ?_
        refine reads_thenDo ?_ fun same => ?_
        · cases a <;> cases b
          · exact .done
          · exact .done
          · exact .done
          · exact ih _ _
        · split
          · exact ihp
          · exact .done
    rw [eqVal]
    split
    · split
      · exact loop _ _ _
      · exact .done
    · exact .done

theorem reads_keyVal (d : Nat) : ∀ a, Reads S (keyVal S d a) := by
  induction d with
  | zero => exact fun a => .done
  | succ d ih =>
    intro a
    have loop : ∀ i ps, Reads S (keyProps S (keyVal S d) i ps) := by
      intro i ps
      induction ps with
      | nil => exact .done
      | cons p ps ihp =>
        exact reads_thenDo (reads_getOr i p) fun a => reads_thenDo (ih _) fun k => reads_thenDo ihp fun ks => .done
    rw [keyVal]
    split
    · exact reads_thenDo (loop _ _) fun _ => .done
    · exact .done

theorem reads_slotEmpty (i : Nat) (nm : String) : Reads S (slotEmpty S i nm) := by
  unfold slotEmpty
  cases hf : (S.clsOf i).find nm with
  | none => exact .done
  | some p =>
    simp only
    by_cases hl : p.kind.isLazy = true
    · rw [if_pos hl]; exact .done
    · rw [if_neg hl]
      split
      · split <;> exact .done
      · refine .slot ?_ (fun _ => .done)
        rintro ⟨q, h1, h2⟩
        rw [hf] at h1
        cases h1
        exact hl h2

theorem reads_jsonVal (x : Bool) (d : Nat) : ∀ a, Reads S (jsonVal S x d a) := by
  induction d with
  | zero => exact fun a => .done
  | succ d ih =>
    intro a
    have one : ∀ i p, Reads S (jsonProp S (jsonVal S x d) i p) := by
      intro i p
      refine reads_thenDo (reads_get i p) fun v => ?_
      split
      · exact ih _
      · split <;> exact .done
    have loop : ∀ i ps, Reads S (jsonProps S (jsonVal S x d) x i ps) := by
      intro i ps
      induction ps with
      | nil => exact .done
      | cons p ps ihp =>
        rw [jsonProps]
        split
        · exact ihp
        · refine reads_thenDo (reads_slotEmpty i p) fun e => ?_
          split
          · exact ihp
          · split
            · exact ihp
            · exact reads_thenDo (reads_andThen (one i p) reads_unlessSet) fun v => reads_thenDo ihp fun xs => .done
    rw [jsonVal]
    split
    · exact reads_thenDo (loop _ _) fun _ => .done
    · exact .done

theorem reads_slotNorm (hS : Readers S) (i : Nat) (p : String) (v : Option V) : Reads S (slotNorm S i p v) := by
  cases v with
  | none => exact .done
  | some v =>
    simp only [slotNorm]
    cases hc : S.compareAs (S.typ i) p with
    | none => exact .done
    | some f => exact reads_thenDo (hS.compareAs i p f hc v) fun _ => .done

theorem reads_diffVal (hS : Readers S) (d : Nat) : ∀ a b, Reads S (diffVal S d a b) := by
  induction d with
  | zero => exact fun a b => .done
  | succ d ih =>
    intro a b
    have one : ∀ p a b, Reads S (diffSlot S (diffVal S d) p a b) := by
      intro p a b
      cases a <;> cases b
      · exact .done
      · exact .done
      · exact .done
      · simp only [diffSlot]
        split
        · split
          · exact reads_thenDo (ih _ _) fun _ => .done
          · exact .done
        · split <;> exact .done
    have loop : ∀ i j ps, Reads S (diffProps S (diffVal S d) i j ps) := by
      intro i j ps
      induction ps with
      | nil => exact .done
      | cons p ps ihp =>
        exact reads_thenDo (reads_getOr i p) fun a => reads_thenDo (reads_slotNorm hS i p a) fun a' =>
          reads_thenDo (reads_getOr j p) fun b => reads_thenDo (reads_slotNorm hS j p b) fun b' =>
            reads_thenDo (one p a' b') fun xs => reads_thenDo ihp fun ys => .done
    rw [diffVal]
    split
    · split
      · exact reads_thenDo (loop _ _ _) fun _ => .done
      · exact .done
    · exact .done

theorem reads_visitVal (d : Nat) : ∀ a, Reads S (visitVal S d a) := by
  induction d with
  | zero => exact fun a => .done
  | succ d ih =>
    intro a
    have one : ∀ i p r, Reads S (visitSlot S (visitVal S d) i p r) := by
      intro i p r
      cases r with
      | ok v =>
        simp only [visitSlot]
        split
        · exact ih _
        · split <;> exact .done
      | error e =>
        simp only [visitSlot]
        split <;> exact .done
    have two : ∀ i p r, Reads S (visitProp S (visitVal S d) i p r) := by
      intro i p r
      cases r with
      | ok v => exact reads_thenDo (one _ _ _) fun _ => .done
      | error e =>
        simp only [visitProp]
        split
        · split
          · exact reads_thenDo (one _ _ _) fun _ => .done
          · exact .done
        · exact .done
    have loop : ∀ i ps, Reads S (visitProps S (visitVal S d) i ps) := by
      intro i ps
      induction ps with
      | nil => exact .done
      | cons p ps ihp =>
        rw [visitProps]
        split
        · exact ihp
        · exact reads_thenDo (reads_andThen (reads_get i p) (two i p)) fun v => reads_thenDo ihp fun xs => .done
    rw [visitVal]
    split
    · exact reads_thenDo (loop _ _) fun _ => .done
    · exact .done

theorem reads_look (hS : Readers S) (d : Nat) (o : Look V) : Reads S (o.code S d) := by
  cases o with
  | attr i nm => exact reads_thenDo (reads_get i nm) fun _ => .done
  | eq a b => exact reads_thenDo (reads_eqVal d a b) fun _ => .done
  | key a => exact reads_keyVal d a
  | json x a => exact reads_jsonVal x d a
  | diff a b => exact reads_diffVal hS d a b
  | visit a => exact reads_visitVal d a

theorem looked_cached (hS : Readers S) {h h' : Heap V} (hl : Looked S h h') : Cached S h h' := by
  induction hl with
  | refl => exact cached_refl _
  | @step h1 h2 n d o r _ hr ih => exact (runCode_sound (getAt_sound hS n) (reads_look hS d o) h1 r h2 ih hr).2

/-! ## Assignments -/

/-- The states differ in attributes of one name only. -/
def But (x : String) (b b' : Heap V) : Prop := ∀ i nm, nm ≠ x → (b' i).slots nm = (b i).slots nm

theorem freshRun_but {α : Type} {x : String} {b b' : Heap V} (hb : But x b b')
    {g g' : Nat → String → Option (Except Exc V)} (hg : ∀ i nm, nm ≠ x → g' i nm = g i nm) {c : Code V α}
    (hc : Ignores x c) : freshRun g' b' c = freshRun g b c := by
  induction hc with
  | done => rfl
  | @get i nm k hn _ ih =>
    simp only [freshRun]
    rw [hg i nm hn]
    cases g i nm with
    | none => rfl
    | some r => exact ih r
  | @slot i nm k hn _ ih =>
    simp only [freshRun]
    rw [hb i nm hn]
    exact ih _

theorem fresh_but {x : String} (hx : Apart S x) {b b' : Heap V} (hb : But x b b') (n : Nat) : ∀ i nm, nm ≠ x →
    fresh S n b' i nm = fresh S n b i nm := by
  induction n with
  | zero => exact fun i nm _ => rfl
  | succ n ih =>
    intro i nm hn
    have hd : freshRun (fresh S n b') b' (defaultOf S i nm) = freshRun (fresh S n b) b (defaultOf S i nm) := by
      refine freshRun_but hb ih ?_
      unfold defaultOf
      cases hf : S.dflt (S.typ i) nm with
      | none => exact .done
      | some f => exact hx.dflt i nm f hf
    rw [fresh, fresh, hb i nm hn, hd]

theorem cached_but {x : String} (hx : Apart S x) {b b' s s' : Heap V} (h : Cached S b s) (hb : But x b b')
    (hs : But x s s') (heq : ∀ i, (s' i).slots x = (b' i).slots x) : Cached S b' s' := by
  intro i nm
  by_cases hn : nm = x
  · subst hn
    exact Or.inl (heq i)
  · rw [hs i nm hn, hb i nm hn]
    rcases h i nm with h1 | ⟨h1, h2, v, n, h3, h4⟩
    · exact Or.inl h1
    · exact Or.inr ⟨h1, h2, v, n, h3, by rw [fresh_but hx hb n i nm hn]; exact h4⟩

theorem but_upd {x : String} {s : Heap V} {i : Nat} {t : State V} (h : ∀ nm, nm ≠ x → t.slots nm = (s i).slots nm) :
    But x s (upd s i t) := by
  intro j nm hn
  unfold upd
  by_cases hj : j = i
  · subst hj
    rw [if_pos rfl]
    exact h nm hn
  · rw [if_neg hj]

/-- An operation on an attribute that depends on, and changes, its slot only. -/
def Local (nm : String) (f : State V → Except Exc V × State V) : Prop := ∀ st st', st.slots nm = st'.slots nm →
  (f st).1 = (f st').1 ∧ (f st).2.slots nm = (f st').2.slots nm ∧ ∀ m, m ≠ nm → (f st).2.slots m = st.slots m

theorem local_put (nm : String) (v : V) (r : Except Exc V) : Local nm (fun st => (r, st.put nm v)) := by
  intro st st' h
  refine ⟨rfl, by simp [State.put], ?_⟩
  intro m hm
  simp [State.put, hm]

theorem local_same (nm : String) (r : Except Exc V) : Local nm (fun st : State V => (r, st)) :=
  fun _ _ h => ⟨rfl, h, fun _ _ => rfl⟩

theorem local_safeDelete (w : World V) (p : PropDef V) (nm : String) :
    Local nm (fun st => Slots.safeDelete w p st nm) := by
  intro st st' h
  simp only [Slots.safeDelete]
  split
  · exact local_same nm _ st st' h
  · rw [h]
    cases hc : st'.slots nm with
    | none => exact local_same nm _ st st' h
    | some v =>
      refine ⟨rfl, by simp [State.drop], ?_⟩
      intro m hm
      simp [State.drop, hm]

theorem local_plainDelete (w : World V) (nm : String) : Local nm (fun st : State V => Slots.plainDelete w st nm) := by
  intro st st' h
  simp only [Slots.plainDelete]
  rw [h]
  cases hc : st'.slots nm with
  | none => exact local_same nm _ st st' h
  | some v =>
    refine ⟨rfl, by simp [State.drop], ?_⟩
    intro m hm
    simp [State.drop, hm]

theorem local_safeSet (w : World V) (p : PropDef V) (nm : String) (v : V) :
    Local nm (fun st => Slots.safeSet w p st nm v) := by
  intro st st' h
  simp only [Slots.safeSet]
  cases Slots.typeSafe w p v false with
  | error e => exact local_same nm _ st st' h
  | ok u => exact local_put nm u _ st st' h

theorem local_set (w : World V) (c : Cls V) (nm : String) (v : V) : Local nm (fun st => Slots.setAttr w c st nm v) := by
  intro st st' h
  simp only [Slots.setAttr]
  cases hf : c.find nm with
  | none => exact local_put nm v _ st st' h
  | some p =>
    simp only
    cases hk : p.kind with
    | plain => exact local_put nm v _ st st' h
    | lazy => exact local_put nm v _ st st' h
    | ro => exact local_same nm _ st st' h
    | roLazy => exact local_same nm _ st st' h
    | safe => exact local_safeSet w p nm v st st' h
    | lazySafe => exact local_safeSet w p nm v st st' h
    | v1 =>
      simp only [Slots.safeSet]
      cases Slots.typeSafe w p v false with
      | ok u => exact local_put nm u _ st st' h
      | error e =>
        simp only
        by_cases he : e.isCoercion = true
        · rw [if_pos he, if_pos he]
          by_cases hv : v = w.none ∨ w.eq v (p.v1none.getD w.none) = true
          · rw [if_pos hv, if_pos hv]; exact local_safeDelete w p nm st st' h
          · rw [if_neg hv, if_neg hv]; exact local_same nm _ st st' h
        · rw [if_neg he, if_neg he]; exact local_same nm _ st st' h

theorem local_del (w : World V) (c : Cls V) (nm : String) : Local nm (fun st => Slots.delAttr w c st nm) := by
  intro st st' h
  simp only [Slots.delAttr]
  cases hf : c.find nm with
  | none => exact local_plainDelete w nm st st' h
  | some p =>
    simp only
    cases hk : p.kind with
    | plain => exact local_plainDelete w nm st st' h
    | lazy => exact local_plainDelete w nm st st' h
    | ro => exact local_same nm _ st st' h
    | roLazy => exact local_same nm _ st st' h
    | safe => exact local_safeDelete w p nm st st' h
    | lazySafe => exact local_safeDelete w p nm st st' h
    | v1 => exact local_safeDelete w p nm st st' h

theorem cached_local {x : String} (hx : Apart S x) {f : State V → Except Exc V × State V} (hf : Local x f)
    {b s : Heap V} (i : Nat) (h : Cached S b s) :
    (f (s i)).1 = (f (b i)).1 ∧ Cached S (upd b i (f (b i)).2) (upd s i (f (s i)).2) := by
  have hsame : ∀ j, (s j).slots x = (b j).slots x := by
    intro j
    rcases h j x with h1 | ⟨h1, _⟩
    · exact h1
    · exact absurd h1 (hx.eager j)
  have h1 := hf (s i) (b i) (hsame i)
  have h2 := hf (b i) (s i) (hsame i).symm
  refine ⟨h1.1, cached_but hx h (but_upd h2.2.2) (but_upd h1.2.2) ?_⟩
  intro j
  unfold upd
  by_cases hj : j = i
  · rw [if_pos hj, if_pos hj]; exact h1.2.1
  · rw [if_neg hj, if_neg hj]; exact hsame j

/-- The same events without looking. -/
theorem runs_erase (hS : Readers S) {s s' : Heap V} {es : List (Event V)} {rs : List (Except Exc V)}
    (hes : ∀ e ∈ es, ∀ x, e.name = some x → Apart S x) (h : Runs S s es rs s') : ∀ b, Cached S b s →
    ∃ b', Runs S b (es.filter Event.changes) rs b' ∧ Cached S b' s' := by
  induction h with
  | nil => exact fun b hb => ⟨b, .nil, hb⟩
  | @look h h1 h2 n d o r es rs hr _ ih =>
    intro b hb
    have h3 := (runCode_sound (getAt_sound hS n) (reads_look hS d o) h r h1 hb hr).2
    exact ih (fun e he => hes e (List.mem_cons_of_mem _ he)) b h3
  | @set h h2 i nm v es rs _ ih =>
    intro b hb
    have hx := hes _ List.mem_cons_self nm rfl
    have h3 := cached_local hx (local_set S.w (S.clsOf i) nm v) i hb
    obtain ⟨b', h4, h5⟩ := ih (fun e he => hes e (List.mem_cons_of_mem _ he)) _ h3.2
    refine ⟨b', ?_, h5⟩
    have h6 := Runs.set h4
    rw [← h3.1] at h6
    exact h6
  | @del h h2 i nm es rs _ ih =>
    intro b hb
    have hx := hes _ List.mem_cons_self nm rfl
    have h3 := cached_local hx (local_del S.w (S.clsOf i) nm) i hb
    obtain ⟨b', h4, h5⟩ := ih (fun e he => hes e (List.mem_cons_of_mem _ he)) _ h3.2
    refine ⟨b', ?_, h5⟩
    have h6 := Runs.del h4
    rw [← h3.1] at h6
    exact h6

end Normalize.Observe
