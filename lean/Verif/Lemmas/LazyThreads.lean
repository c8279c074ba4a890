import Verif.Spec.LazyThreads
import Mathlib.Tactic.Push

/-!
# Lemmas about threads that use one lazy property
-/

namespace Normalize.LazyThreads

open Normalize.Slots Normalize.Spec

variable {V : Type} [DecidableEq V] {c : Cfg V}

theorem run_append (s : Sys V) (a b : List Nat) : run c s (a ++ b) = run c (run c s a) b := List.foldl_append

theorem run_ind {P : Sys V → Prop} (hstep : ∀ s i, P s → P (tick c s i)) :
    ∀ (sched : List Nat) (s : Sys V), P s → P (run c s sched)
  | [], _, h => h
  | i :: rest, s, h => run_ind hstep rest (tick c s i) (hstep s i h)

theorem tick_none {s : Sys V} {i : Nat} (h : s.threads[i]? = none) : tick c s i = s := by
  unfold tick; rw [h]

theorem tick_some {s : Sys V} {i : Nat} {t : Thread V} (h : s.threads[i]? = some t) :
    tick c s i = { shared := (step c t.act s.shared t.pc).2
                   threads := s.threads.set i { t with pc := (step c t.act s.shared t.pc).1 } } := by
  unfold tick; rw [h]

theorem get_tick {s : Sys V} {i j : Nat} {t : Thread V} (h : s.threads[i]? = some t) (u : Thread V)
    (hu : (tick c s i).threads[j]? = some u) :
    (i = j ∧ u = { t with pc := (step c t.act s.shared t.pc).1 }) ∨ (i ≠ j ∧ s.threads[j]? = some u) := by
  rw [tick_some h] at hu
  simp only [List.getElem?_set] at hu
  split at hu
  · next e =>
    subst e
    split at hu
    · exact .inl ⟨rfl, (Option.some.inj hu).symm⟩
    · cases hu
  · next e => exact .inr ⟨e, hu⟩

theorem acts_tick {s : Sys V} {i : Nat} : (tick c s i).threads.map (·.act) = s.threads.map (·.act) := by
  cases h : s.threads[i]? with
  | none => rw [tick_none h]
  | some t =>
    rw [tick_some h]
    simp only [List.map_set]
    apply List.ext_getElem?
    intro j
    rw [List.getElem?_set]
    split
    · next e =>
      subst e
      have hl : i < s.threads.length := (List.getElem?_eq_some_iff.1 h).1
      simp only [List.length_map, hl, if_true, List.getElem?_map, h, Option.map_some]
    · rfl

theorem act_mem {as : List (Act V)} {s : Sys V} (h : s.threads.map (·.act) = as) {i : Nat} {t : Thread V}
    (ht : s.threads[i]? = some t) : t.act ∈ as := by
  rw [← h]
  exact List.mem_map_of_mem (List.mem_of_getElem? ht)

theorem begin_pc {slot : Option V} {as : List (Act V)} {i : Nat} {t : Thread V}
    (h : (begin slot as).threads[i]? = some t) : t.pc = .start := by
  simp only [begin, List.getElem?_map, Option.map_eq_some_iff] at h
  obtain ⟨a, -, rfl⟩ := h
  rfl

/-! ## One step, by cases -/

/-- What a first step can do. -/
theorem first_cases (c : Cfg V) (s : Shared V) (a : Act V) :
    (∃ v, a = .read ∧ s.slot = some v ∧ first c s a = (.done (.ok v), s)) ∨
    (a = .read ∧ s.slot.isSome ∧ first c s a = (.hit, s)) ∨
    (a = .read ∧ s.slot = none ∧ first c s a = (.recheck, s)) ∨
    (∃ x, a = .assign x ∧ Stores c x x ∧ c.p.kind = .lazy ∧
      first c s a = (.done (.ok c.w.none), { s with slot := some x })) ∨
    (∃ x v, a = .assign x ∧ Stores c x v ∧ first c s a = (.put v, s)) ∨
    (a = .delete ∧ Deletable c ∧ s.slot.isSome ∧ first c s a = (.done (.ok c.w.none), { s with slot := none })) ∨
    (a ≠ .read ∧ ∃ e, first c s a = (.done (.error e), s)) := by
  cases a with
  | read =>
    by_cases hk : c.p.kind = .lazy
    · cases hs : s.slot with
      | some v => exact .inl ⟨v, rfl, rfl, by simp only [first, hk, hs]⟩
      | none => exact .inr (.inr (.inl ⟨rfl, rfl, by simp only [first, hk, hs]⟩))
    · have e : first c s .read = (if s.slot.isSome then .hit else .recheck, s) := by
        simp only [first]
      cases hs : s.slot with
      | some v =>
        refine .inr (.inl ⟨rfl, rfl, ?_⟩)
        rw [e, hs]; rfl
      | none =>
        refine .inr (.inr (.inl ⟨rfl, rfl, ?_⟩))
        rw [e, hs]; rfl
  | assign x =>
    by_cases hk : c.p.kind = .lazy
    · exact .inr (.inr (.inr (.inl ⟨x, rfl, .inl ⟨hk, rfl⟩, hk, by simp only [first, hk]⟩)))
    · by_cases hr : c.p.kind = .roLazy
      · refine .inr (.inr (.inr (.inr (.inr (.inr ⟨fun h => (nomatch h), .readOnly, ?_⟩)))))
        simp only [first, hr]
      · have e : first c s (.assign x) =
            (match typeSafe c.w c.p x false with
              | .error e => (.done (.error e), s)
              | .ok v' => (.put v', s)) := by
          simp only [first]
          rfl
        cases ht : typeSafe c.w c.p x false with
        | error e' =>
          refine .inr (.inr (.inr (.inr (.inr (.inr ⟨fun h => (nomatch h), e', ?_⟩)))))
          rw [e, ht]
        | ok v =>
          refine .inr (.inr (.inr (.inr (.inl ⟨x, v, rfl, .inr ⟨hk, hr, ht⟩, ?_⟩))))
          rw [e, ht]
  | delete =>
    by_cases hk : c.p.kind = .lazy
    · cases hs : s.slot with
      | none =>
        refine .inr (.inr (.inr (.inr (.inr (.inr ⟨fun h => (nomatch h), .attributeError, ?_⟩)))))
        simp only [first, hk, hs]
      | some v =>
        refine .inr (.inr (.inr (.inr (.inr (.inl ⟨rfl, .inl hk, rfl, ?_⟩)))))
        simp only [first, hk, hs]
    · by_cases hr : c.p.kind = .roLazy
      · refine .inr (.inr (.inr (.inr (.inr (.inr ⟨fun h => (nomatch h), .readOnly, ?_⟩)))))
        simp only [first, hr]
      · have e : first c s .delete =
            (if c.p.required then (.done (.error .propertyRequired), s)
             else match s.slot with
               | none => (.done (.error .keyError), s)
               | some _ => (.done (.ok c.w.none), { s with slot := none })) := by
          simp only [first]
          rfl
        by_cases hq : c.p.required = true
        · refine .inr (.inr (.inr (.inr (.inr (.inr ⟨fun h => (nomatch h), .propertyRequired, ?_⟩)))))
          rw [e, if_pos hq]
        · cases hs : s.slot with
          | none =>
            refine .inr (.inr (.inr (.inr (.inr (.inr ⟨fun h => (nomatch h), .keyError, ?_⟩)))))
            rw [e, if_neg hq, hs]
          | some v =>
            refine .inr (.inr (.inr (.inr (.inr (.inl ⟨rfl, .inr ⟨hr, by simpa using hq⟩, rfl, ?_⟩)))))
            rw [e, if_neg hq, hs]

/-! ## Where values come from -/

theorem From.mono {slot : Option V} {as : List (Act V)} {m n : Nat} {v : V} (h : From c slot as m v) (hmn : m ≤ n) :
    From c slot as n v := by
  cases h with
  | initial h => exact .initial h
  | assigned x hx h => exact .assigned x hx h
  | evaluated k hk x hx h => exact .evaluated k (Nat.lt_of_lt_of_le hk hmn) x hx h

/-- An exception that an evaluation of the default, or what follows it, may raise. -/
def DefaultRaises (c : Cfg V) (evals : Nat) (e : Exc) : Prop :=
  (∃ k < evals, c.dflt k = .error e) ∨ ∃ k < evals, ∃ x, c.dflt k = .ok x ∧ typeSafe c.w c.p x false = .error e

theorem DefaultRaises.mono {m n : Nat} {e : Exc} (h : DefaultRaises c m e) (hmn : m ≤ n) : DefaultRaises c n e := by
  rcases h with ⟨k, hk, h⟩ | ⟨k, hk, h⟩
  · exact .inl ⟨k, Nat.lt_of_lt_of_le hk hmn, h⟩
  · exact .inr ⟨k, Nat.lt_of_lt_of_le hk hmn, h⟩

/-- What a thread's place tells.  `calm` says that nothing can be deleted. -/
def PcOk (c : Cfg V) (slot0 : Option V) (as : List (Act V)) (calm : Prop) (s : Shared V) (a : Act V) : Pc V → Prop
  | .start => True
  | .hit | .present | .fetch => a = .read ∧ (calm → s.slot.isSome)
  | .recheck | .default => a = .read
  | .typed x => a = .read ∧ ∃ k < s.evals, c.dflt k = .ok x
  | .put v => From c slot0 as s.evals v
  | .done (.ok v) => a = .read → From c slot0 as s.evals v
  | .done (.error e) => a = .read → calm → DefaultRaises c s.evals e

structure Ok (c : Cfg V) (slot0 : Option V) (as : List (Act V)) (calm : Prop) (s : Sys V) : Prop where
  acts : s.threads.map (·.act) = as
  slot : ∀ v, s.shared.slot = some v → From c slot0 as s.shared.evals v
  pcs : ∀ (i : Nat) (t : Thread V), s.threads[i]? = some t → PcOk c slot0 as calm s.shared t.act t.pc

theorem evals_step {a : Act V} {s : Shared V} {p : Pc V} : s.evals ≤ (step c a s p).2.evals := by
  cases p with
  | start =>
    simp only [step]
    rcases first_cases c s a with ⟨v, -, -, e⟩ | ⟨-, -, e⟩ | ⟨-, -, e⟩ | ⟨x, -, -, -, e⟩ | ⟨x, v, -, -, e⟩ | ⟨-, -, -, e⟩ |
      ⟨-, e', e⟩ <;> rw [e] <;> exact Nat.le_refl _
  | hit => simp only [step]; cases s.slot <;> exact Nat.le_refl _
  | recheck => exact Nat.le_refl _
  | default => simp only [step]; cases c.dflt s.evals <;> simp
  | typed v => simp only [step]; cases typeSafe c.w c.p v false <;> exact Nat.le_refl _
  | put v => exact Nat.le_refl _
  | present => exact Nat.le_refl _
  | fetch => simp only [step]; cases s.slot <;> exact Nat.le_refl _
  | done r => exact Nat.le_refl _

/-- If nothing can be deleted, a slot that is set stays set. -/
theorem slot_step {as : List (Act V)} {a : Act V} {s : Shared V} {p : Pc V} (ha : a ∈ as)
    (hc : Deletable c → .delete ∉ as) (h : s.slot.isSome) : (step c a s p).2.slot.isSome := by
  cases p with
  | start =>
    simp only [step]
    rcases first_cases c s a with ⟨v, -, hv, e⟩ | ⟨-, -, e⟩ | ⟨-, hn, e⟩ | ⟨x, -, -, -, e⟩ | ⟨x, v, -, -, e⟩ |
      ⟨rfl, hd, -, e⟩ | ⟨-, e', e⟩ <;> rw [e]
    · exact h
    · exact h
    · exact h
    · rfl
    · exact h
    · exact absurd ha (hc hd)
    · exact h
  | hit => simp only [step]; cases hs : s.slot <;> simp [hs] at h ⊢
  | recheck => exact h
  | default => simp only [step]; cases c.dflt s.evals <;> exact h
  | typed v => simp only [step]; cases typeSafe c.w c.p v false <;> exact h
  | put v => rfl
  | present => exact h
  | fetch => simp only [step]; cases hs : s.slot <;> simp [hs] at h ⊢
  | done r => exact h

theorem pcOk_step {slot0 : Option V} {as : List (Act V)} {calm : Prop} {a b : Act V} {s : Shared V} {p q : Pc V}
    (ha : a ∈ as) (hc : calm → Deletable c → .delete ∉ as) (h : PcOk c slot0 as calm s b q) :
    PcOk c slot0 as calm (step c a s p).2 b q := by
  have he := evals_step (c := c) (a := a) (s := s) (p := p)
  cases q with
  | start => trivial
  | hit => exact ⟨h.1, fun hk => slot_step ha (hc hk) (h.2 hk)⟩
  | present => exact ⟨h.1, fun hk => slot_step ha (hc hk) (h.2 hk)⟩
  | fetch => exact ⟨h.1, fun hk => slot_step ha (hc hk) (h.2 hk)⟩
  | recheck => exact h
  | default => exact h
  | typed x =>
    obtain ⟨h1, k, hk, hx⟩ := h
    exact ⟨h1, k, Nat.lt_of_lt_of_le hk he, hx⟩
  | put v => exact From.mono h he
  | done r =>
    cases r with
    | ok v => exact fun hr => From.mono (h hr) he
    | error e => exact fun hr hk => DefaultRaises.mono (h hr hk) he

theorem own_step {slot0 : Option V} {as : List (Act V)} {calm : Prop} {a : Act V} {s : Shared V} {p : Pc V}
    (ha : a ∈ as) (hs : ∀ v, s.slot = some v → From c slot0 as s.evals v) (h : PcOk c slot0 as calm s a p) :
    PcOk c slot0 as calm (step c a s p).2 a (step c a s p).1 ∧
      ∀ v, (step c a s p).2.slot = some v → From c slot0 as (step c a s p).2.evals v := by
  cases p with
  | start =>
    simp only [step]
    rcases first_cases c s a with ⟨v, -, hv, e⟩ | ⟨hr, hn, e⟩ | ⟨hr, -, e⟩ | ⟨x, rfl, hst, -, e⟩ | ⟨x, v, rfl, hst, e⟩ |
      ⟨rfl, hd, -, e⟩ | ⟨hr, e', e⟩ <;> rw [e]
    · exact ⟨fun _ => hs v hv, hs⟩
    · exact ⟨⟨hr, fun _ => hn⟩, hs⟩
    · exact ⟨hr, hs⟩
    · refine ⟨fun hr => (nomatch hr), fun v hv => ?_⟩
      cases hv
      exact .assigned x ha hst
    · exact ⟨.assigned x ha hst, hs⟩
    · exact ⟨fun hr => (nomatch hr), fun v hv => (nomatch hv)⟩
    · exact ⟨fun hr' => absurd hr' hr, hs⟩
  | hit =>
    simp only [step]
    cases hv : s.slot with
    | none =>
      refine ⟨fun _ hk => ?_, fun v hv' => hs v hv'⟩
      have := h.2 hk
      rw [hv] at this
      cases this
    | some v => exact ⟨fun _ => hs v hv, fun v hv' => hs v hv'⟩
  | recheck =>
    refine ⟨?_, hs⟩
    simp only [step]
    cases hv : s.slot with
    | none => exact h
    | some v => exact ⟨h, fun _ => by simp only [hv]; rfl⟩
  | default =>
    simp only [step]
    cases hd : c.dflt s.evals with
    | error e =>
      exact ⟨fun _ _ => .inl ⟨s.evals, Nat.lt_succ_self _, hd⟩, fun v hv => From.mono (hs v hv) (Nat.le_succ _)⟩
    | ok x =>
      exact ⟨⟨h, s.evals, Nat.lt_succ_self _, hd⟩, fun v hv => From.mono (hs v hv) (Nat.le_succ _)⟩
  | typed x =>
    obtain ⟨hr, k, hk, hx⟩ := h
    simp only [step]
    cases ht : typeSafe c.w c.p x false with
    | error e => exact ⟨fun _ _ => .inr ⟨k, hk, x, hx, ht⟩, hs⟩
    | ok v => exact ⟨.evaluated k hk x hx ht, hs⟩
  | put v =>
    have h' : From c slot0 as s.evals v := h
    refine ⟨?_, fun u hu => ?_⟩
    · simp only [step]
      split
      · next hr => exact ⟨hr, fun _ => rfl⟩
      · next hr => exact fun hr' => absurd hr' hr
    · simp only [step] at hu ⊢
      cases hu
      exact h'
  | present =>
    refine ⟨?_, hs⟩
    simp only [step]
    cases hv : s.slot with
    | none =>
      intro _ hk
      have := h.2 hk
      rw [hv] at this
      cases this
    | some v => exact ⟨h.1, fun _ => by simp only [hv]; rfl⟩
  | fetch =>
    simp only [step]
    cases hv : s.slot with
    | none =>
      refine ⟨fun _ hk => ?_, fun v hv' => hs v hv'⟩
      have := h.2 hk
      rw [hv] at this
      cases this
    | some v => exact ⟨fun _ => hs v hv, fun v hv' => hs v hv'⟩
  | done r => exact ⟨h, hs⟩

theorem ok_tick {slot0 : Option V} {as : List (Act V)} {calm : Prop} (hc : calm → Deletable c → .delete ∉ as)
    {s : Sys V} (h : Ok c slot0 as calm s) (i : Nat) : Ok c slot0 as calm (tick c s i) := by
  cases ht : s.threads[i]? with
  | none => rw [tick_none ht]; exact h
  | some t =>
    have hm := act_mem h.acts ht
    have own := own_step hm h.slot (h.pcs i t ht)
    refine ⟨by rw [acts_tick]; exact h.acts, ?_, ?_⟩
    · rw [tick_some ht]; exact own.2
    · intro j u hu
      rcases get_tick ht u hu with ⟨rfl, rfl⟩ | ⟨-, hj⟩
      · rw [tick_some ht]; exact own.1
      · rw [tick_some ht]; exact pcOk_step hm hc (h.pcs j u hj)

theorem ok_run (slot0 : Option V) (as : List (Act V)) (calm : Prop) (hc : calm → Deletable c → .delete ∉ as)
    (sched : List Nat) : Ok c slot0 as calm (run c (begin slot0 as) sched) := by
  refine run_ind (P := Ok c slot0 as calm) (fun _ i h => ok_tick hc h i) sched _ ⟨?_, ?_, ?_⟩
  · simp [begin, Function.comp_def]
  · intro v hv
    exact .initial hv
  · intro i t ht
    rw [begin_pc ht]; trivial

/-! ## Every operation ends -/

def rank : Pc V → Nat
  | .start => 7
  | .recheck => 6
  | .default => 5
  | .typed _ => 4
  | .put _ => 3
  | .present => 2
  | .fetch => 1
  | .hit => 1
  | .done _ => 0

theorem rank_step {a : Act V} {s : Shared V} {p : Pc V} : rank (step c a s p).1 ≤ rank p - 1 := by
  cases p with
  | start =>
    simp only [step]
    rcases first_cases c s a with ⟨v, -, -, e⟩ | ⟨-, -, e⟩ | ⟨-, -, e⟩ | ⟨x, -, -, -, e⟩ | ⟨x, v, -, -, e⟩ | ⟨-, -, -, e⟩ |
      ⟨-, e', e⟩ <;> rw [e] <;> simp [rank]
  | hit => simp only [step]; cases s.slot <;> simp [rank]
  | recheck => simp only [step]; split <;> simp [rank]
  | default => simp only [step]; cases c.dflt s.evals <;> simp [rank]
  | typed v => simp only [step]; cases typeSafe c.w c.p v false <;> simp [rank]
  | put v => simp only [step]; split <;> simp [rank]
  | present => simp only [step]; split <;> simp [rank]
  | fetch => simp only [step]; cases s.slot <;> simp [rank]
  | done r => simp [step, rank]

theorem rank_run : ∀ (sched : List Nat) (s : Sys V) (i : Nat) (t : Thread V), s.threads[i]? = some t →
    ∃ t', (run c s sched).threads[i]? = some t' ∧ t'.act = t.act ∧ rank t'.pc ≤ rank t.pc - sched.count i
  | [], s, i, t, h => ⟨t, h, rfl, by simp⟩
  | m :: rest, s, i, t, h => by
    by_cases e : m = i
    · subst e
      have hlen : m < s.threads.length := (List.getElem?_eq_some_iff.1 h).1
      have own : (tick c s m).threads[m]? = some { t with pc := (step c t.act s.shared t.pc).1 } := by
        rw [tick_some h]; simp [hlen]
      obtain ⟨t', h1, h2, h3⟩ := rank_run rest (tick c s m) m _ own
      refine ⟨t', h1, h2, ?_⟩
      have := rank_step (c := c) (a := t.act) (s := s.shared) (p := t.pc)
      simp only at h3
      rw [List.count_cons_self]
      omega
    · have other : (tick c s m).threads[i]? = some t := by
        cases hm : s.threads[m]? with
        | none => rw [tick_none hm]; exact h
        | some u =>
          rw [tick_some hm, List.getElem?_set, if_neg e]
          exact h
      obtain ⟨t', h1, h2, h3⟩ := rank_run rest (tick c s m) i t other
      refine ⟨t', h1, h2, ?_⟩
      rw [List.count_cons_of_ne e]
      exact h3

/-! ## How often the default is evaluated -/

def mayEval (t : Thread V) : Nat :=
  match t.pc, t.act with
  | .start, .read => 1
  | .recheck, _ | .default, _ => 1
  | _, _ => 0

theorem step_evals {a : Act V} {s : Shared V} {p : Pc V} :
    (step c a s p).2.evals + mayEval ⟨a, (step c a s p).1⟩ ≤ s.evals + mayEval ⟨a, p⟩ := by
  cases p with
  | start =>
    simp only [step]
    rcases first_cases c s a with ⟨v, rfl, -, e⟩ | ⟨rfl, -, e⟩ | ⟨rfl, -, e⟩ | ⟨x, rfl, -, -, e⟩ | ⟨x, v, rfl, -, e⟩ |
      ⟨rfl, -, -, e⟩ | ⟨-, e', e⟩ <;> rw [e] <;> simp [mayEval]
  | hit => simp only [step]; cases s.slot <;> simp [mayEval]
  | recheck => simp only [step]; split <;> simp [mayEval]
  | default => simp only [step]; cases c.dflt s.evals <;> simp [mayEval]
  | typed v => simp only [step]; cases typeSafe c.w c.p v false <;> simp [mayEval]
  | put v => simp only [step]; split <;> simp [mayEval]
  | present => simp only [step]; split <;> simp [mayEval]
  | fetch => simp only [step]; cases s.slot <;> simp [mayEval]
  | done r => simp [step, mayEval]

theorem sum_set : ∀ (l : List Nat) (i : Nat) (a b : Nat), l[i]? = some a → (l.set i b).sum + a = l.sum + b
  | [], i, a, b, h => (nomatch h)
  | x :: l, 0, a, b, h => by
    cases h
    simp only [List.set_cons_zero, List.sum_cons]; omega
  | x :: l, i + 1, a, b, h => by
    have := sum_set l i a b h
    simp only [List.set_cons_succ, List.sum_cons]; omega

theorem tick_evals (s : Sys V) (i : Nat) :
    (tick c s i).shared.evals + ((tick c s i).threads.map mayEval).sum ≤
      s.shared.evals + (s.threads.map mayEval).sum := by
  cases ht : s.threads[i]? with
  | none => rw [tick_none ht]; exact Nat.le_refl _
  | some t =>
    rw [tick_some ht]
    simp only [List.map_set]
    have h1 := sum_set (s.threads.map mayEval) i (mayEval t)
      (mayEval { t with pc := (step c t.act s.shared t.pc).1 }) (by simp [ht])
    have h2 := step_evals (c := c) (a := t.act) (s := s.shared) (p := t.pc)
    have h3 : mayEval (⟨t.act, t.pc⟩ : Thread V) = mayEval t := rfl
    have h4 : mayEval (⟨t.act, (step c t.act s.shared t.pc).1⟩ : Thread V) =
      mayEval { t with pc := (step c t.act s.shared t.pc).1 } := rfl
    omega

/-! ## Once the property is set -/

/-- A value that is there, or that a thread which has not begun is to assign. -/
def Later (c : Cfg V) (s0 : Sys V) (v u : V) : Prop := u = v ∨ ∃ j x, ToDo s0 j (.assign x) ∧ Stores c x u

structure Calm (c : Cfg V) (s0 : Sys V) (v : V) (s : Sys V) : Prop where
  slot : ∃ u, s.shared.slot = some u ∧ Later c s0 v u
  evals : s.shared.evals = s0.shared.evals
  begun : ∀ (j : Nat) (a : Act V), s.threads[j]? = some ⟨a, .start⟩ → ToDo s0 j a
  pcs : ∀ (j : Nat) (t : Thread V), s.threads[j]? = some t →
    t.pc = .start ∨ (t.pc = .hit ∧ t.act = .read) ∨ (∃ u, t.pc = .put u ∧ t.act ≠ .read ∧ Later c s0 v u) ∨
      ∃ r, t.pc = .done r ∧ (ToDo s0 j .read → ∃ u, r = .ok u ∧ Later c s0 v u)

theorem calm_tick {s0 : Sys V} {v : V} (hd : Deletable c → ∀ j, ¬ ToDo s0 j .delete) {s : Sys V}
    (h : Calm c s0 v s) (hact : s.threads.map (·.act) = s0.threads.map (·.act)) (i : Nat) :
    Calm c s0 v (tick c s i) := by
  cases ht : s.threads[i]? with
  | none => rw [tick_none ht]; exact h
  | some t =>
    obtain ⟨u, hu, hl⟩ := h.slot
    obtain ⟨a, p⟩ := t
    have hnotread : a ≠ .read → ¬ ToDo s0 i .read := by
      intro hne hr
      have h1 : (s.threads.map (·.act))[i]? = some a := by simp [ht]
      rw [hact] at h1
      have h2 : (s0.threads.map (·.act))[i]? = some .read := by
        have : s0.threads[i]? = some ⟨.read, .start⟩ := hr
        simp [this]
      rw [h1] at h2
      exact hne (Option.some.inj h2)
    -- the step, in the cases there are
    have key : (∃ u, (step c a s.shared p).2.slot = some u ∧ Later c s0 v u) ∧
        (step c a s.shared p).2.evals = s.shared.evals ∧ (step c a s.shared p).1 ≠ .start ∧
        (((step c a s.shared p).1 = .hit ∧ a = .read) ∨
          (∃ u, (step c a s.shared p).1 = .put u ∧ a ≠ .read ∧ Later c s0 v u) ∨
          ∃ r, (step c a s.shared p).1 = .done r ∧ (ToDo s0 i .read → ∃ u, r = .ok u ∧ Later c s0 v u)) := by
      rcases h.pcs i _ ht with hp | ⟨hp, ha⟩ | ⟨u', hp, ha, hu'⟩ | ⟨r, hp, hr⟩
      · simp only at hp
        subst hp
        simp only [step]
        rcases first_cases c s.shared a with ⟨x, -, hx, e⟩ | ⟨hr, -, e⟩ | ⟨-, hn, e⟩ | ⟨x, rfl, hst, -, e⟩ |
          ⟨x, y, rfl, hst, e⟩ | ⟨rfl, hdel, -, e⟩ | ⟨hne, e', e⟩ <;> rw [e]
        · rw [hu] at hx
          cases hx
          exact ⟨⟨u, hu, hl⟩, rfl, (fun h => (nomatch h)), .inr (.inr ⟨_, rfl, fun _ => ⟨u, rfl, hl⟩⟩)⟩
        · exact ⟨⟨u, hu, hl⟩, rfl, (fun h => (nomatch h)), .inl ⟨rfl, hr⟩⟩
        · rw [hu] at hn; cases hn
        · refine ⟨⟨x, rfl, .inr ⟨i, x, h.begun i _ ht, hst⟩⟩, rfl, (fun h => (nomatch h)), .inr (.inr ⟨_, rfl, ?_⟩)⟩
          exact fun hr => absurd hr (hnotread (fun h => (nomatch h)))
        · exact ⟨⟨u, hu, hl⟩, rfl, (fun h => (nomatch h)),
            .inr (.inl ⟨y, rfl, (fun h => (nomatch h)), .inr ⟨i, x, h.begun i _ ht, hst⟩⟩)⟩
        · exact absurd (h.begun i _ ht) (hd hdel i)
        · exact ⟨⟨u, hu, hl⟩, rfl, (fun h => (nomatch h)), .inr (.inr ⟨_, rfl, fun hr => absurd hr (hnotread hne)⟩)⟩
      · simp only at hp
        subst hp
        simp only [step, hu]
        exact ⟨⟨u, rfl, hl⟩, by trivial, (fun h => (nomatch h)), .inr (.inr ⟨_, rfl, fun _ => ⟨u, rfl, hl⟩⟩)⟩
      · simp only at hp ha
        subst hp
        simp only [step]
        rw [if_neg ha]
        exact ⟨⟨u', rfl, hu'⟩, by trivial, (fun h => (nomatch h)),
          .inr (.inr ⟨_, rfl, fun hr => absurd hr (hnotread ha)⟩)⟩
      · simp only at hp
        subst hp
        exact ⟨⟨u, hu, hl⟩, rfl, (fun h => (nomatch h)), .inr (.inr ⟨r, rfl, hr⟩)⟩
    obtain ⟨k1, k2, k3, k4⟩ := key
    refine ⟨?_, ?_, ?_, ?_⟩
    · rw [tick_some ht]; exact k1
    · rw [tick_some ht]; exact k2.trans h.evals
    · intro j b hb
      rcases get_tick ht _ hb with ⟨rfl, e⟩ | ⟨-, hj⟩
      · injection e with _ e2
        exact absurd e2.symm k3
      · exact h.begun j b hj
    · intro j t' ht'
      rcases get_tick ht t' ht' with ⟨rfl, rfl⟩ | ⟨-, hj⟩
      · exact .inr k4
      · exact h.pcs j t' hj

theorem calm_run {s0 : Sys V} {v : V} (hd : Deletable c → ∀ j, ¬ ToDo s0 j .delete) (hrest : AtRest s0)
    (hv : s0.shared.slot = some v) (sched : List Nat) : Calm c s0 v (run c s0 sched) := by
  have h := run_ind (c := c) (P := fun s => Calm c s0 v s ∧ s.threads.map (·.act) = s0.threads.map (·.act))
    (fun s i hs => ⟨calm_tick hd hs.1 hs.2 i, by rw [acts_tick]; exact hs.2⟩) sched s0 ⟨⟨⟨v, hv, .inl rfl⟩, rfl,
      fun _ _ h => h, fun j t ht => ?_⟩, rfl⟩
  · exact h.1
  · obtain ⟨a, p⟩ := t
    rcases hrest j a p ht with rfl | ⟨r, rfl⟩
    · exact .inl rfl
    · refine .inr (.inr (.inr ⟨r, rfl, fun hr => ?_⟩))
      have hr' : s0.threads[j]? = some ⟨.read, .start⟩ := hr
      rw [ht] at hr'
      cases hr'

end Normalize.LazyThreads
