import Verif.Spec.Threads
import Verif.Lemmas.Access
import Mathlib.Tactic.Push

/-!
# Lemmas about threads that make generic collection types
-/

namespace Normalize.GenericThreads

open Normalize.Coll Normalize.Generic Normalize.Spec

variable {loaded : String → Bool}

theorem key_eq {c d : Call} : Call.key c = Call.key d ↔ c.container = d.container ∧ dotted c.of = dotted d.of := by
  unfold Call.key keyOf dotted
  constructor
  · intro h
    obtain ⟨h1, h2⟩ := Prod.mk.inj h
    refine ⟨?_, h2⟩
    cases c <;> cases d <;> first | rfl | (simp [Call.container, listCollection, dictCollection] at h1)
  · rintro ⟨h1, h2⟩
    rw [h1, h2]

theorem run_append (s : Sys) (a b : List Nat) : run loaded s (a ++ b) = run loaded (run loaded s a) b :=
  List.foldl_append

/-- An induction principle for schedules. -/
theorem run_ind {P : Sys → Prop} (hstep : ∀ s i, P s → P (tick loaded s i)) :
    ∀ (sched : List Nat) (s : Sys), P s → P (run loaded s sched)
  | [], _, h => h
  | i :: rest, s, h => run_ind hstep rest (tick loaded s i) (hstep s i h)

/-- The threads after a step. -/
theorem tick_threads {s : Sys} {i : Nat} {t : Thread} (h : s.threads[i]? = some t) :
    tick loaded s i = { world := (step loaded t.call s.world t.pc).2
                        threads := s.threads.set i { t with pc := (step loaded t.call s.world t.pc).1 } } := by
  unfold tick; rw [h]

/-- What thread `j` is after a step of thread `i`. -/
theorem get_tick {s : Sys} {i j : Nat} {t : Thread} (h : s.threads[i]? = some t) (u : Thread)
    (hu : (tick loaded s i).threads[j]? = some u) :
    (i = j ∧ u = { t with pc := (step loaded t.call s.world t.pc).1 }) ∨ (i ≠ j ∧ s.threads[j]? = some u) := by
  rw [tick_threads h] at hu
  simp only [List.getElem?_set] at hu
  split at hu
  · next e =>
    subst e
    split at hu
    · exact .inl ⟨rfl, (Option.some.inj hu).symm⟩
    · cases hu
  · next e => exact .inr ⟨e, hu⟩

/-- A step changes the registry only if it stores. -/
theorem step_types {c : Call} {w : World} {p : Pc} {k : TypeKey} (hk : k ≠ Call.key c ∨ ∀ g, p ≠ .store g) :
    alookup (step loaded c w p).2.types k = alookup w.types k := by
  cases p with
  | store g =>
    rcases hk with hk | hk
    · simp only [step, alookup_aset]
      rw [if_neg (fun e => hk e.symm)]
    · exact absurd rfl (hk g)
  | check => rfl
  | compare => simp only [step]; cases alookup w.types (Call.key c) <;> rfl
  | make => rfl
  | findModule => rfl
  | hasName => rfl
  | getForName => simp only [step]; cases alookup w.types (Call.key c) <;> rfl
  | setName g => rfl
  | ret => simp only [step]; cases alookup w.types (Call.key c) <;> rfl
  | done r => rfl

/-! ## What is registered, and where the threads are -/

/-- A class made for one of the calls with key `k`. -/
def MadeFor (cs : List Call) (k : TypeKey) (g : GCls) : Prop :=
  ∃ c ∈ cs, Call.key c = k ∧ ∃ id, g = newCls c.of c.container id

/-- What a thread's place tells. -/
def PcOk (loaded : String → Bool) (cs : List Call) (w : World) (c : Call) : Pc → Prop
  | .check | .make => True
  | .compare | .findModule | .hasName | .getForName | .ret => (alookup w.types (Call.key c)).isSome
  | .store g => MadeFor cs (Call.key c) g
  | .setName g => MadeFor cs (Call.key c) g ∧ (alookup w.types (Call.key c)).isSome
  | .done (.ok g) => MadeFor cs (Call.key c) g
  | .done (.error e) =>
    (e = .keyError ∧ loaded c.of.module = false) ∨
      (e = .propertyNotUnique ∧ ∃ d ∈ cs, Call.key d = Call.key c ∧ d.of ≠ c.of)

structure Ok (loaded : String → Bool) (cs : List Call) (s : Sys) : Prop where
  calls : s.threads.map (·.call) = cs
  reg : ∀ k g, alookup s.world.types k = some g → MadeFor cs k g
  pcs : ∀ (i : Nat) (t : Thread), s.threads[i]? = some t → PcOk loaded cs s.world t.call t.pc

theorem ok_begin (attrs : List ((String × String) × Nat)) (n : Nat) (cs : List Call) :
    Ok loaded cs (begin attrs n cs) := by
  refine ⟨?_, fun k g h => (nomatch h), ?_⟩
  · simp [begin, Function.comp_def]
  · intro i t h
    simp only [begin, List.getElem?_map, Option.map_eq_some_iff] at h
    obtain ⟨c, -, rfl⟩ := h
    trivial

/-- Once registered, a key stays registered. -/
theorem some_step {c : Call} {w : World} {p : Pc} {k : TypeKey} (h : (alookup w.types k).isSome) :
    (alookup (step loaded c w p).2.types k).isSome := by
  by_cases hk : k ≠ Call.key c ∨ ∀ g, p ≠ .store g
  · rw [step_types hk]; exact h
  · push Not at hk
    obtain ⟨rfl, g, rfl⟩ := hk
    simp [step, alookup_aset]

theorem pcOk_step {cs : List Call} {c d : Call} {w : World} {p q : Pc} (h : PcOk loaded cs w d q) :
    PcOk loaded cs (step loaded c w p).2 d q := by
  cases q with
  | check => trivial
  | make => trivial
  | compare => exact some_step h
  | findModule => exact some_step h
  | hasName => exact some_step h
  | getForName => exact some_step h
  | ret => exact some_step h
  | store g => exact h
  | setName g => exact ⟨h.1, some_step h.2⟩
  | done r => cases r <;> exact h

theorem pcOk_own {cs : List Call} {c : Call} {w : World} {p : Pc} (hc : c ∈ cs)
    (hreg : ∀ k g, alookup w.types k = some g → MadeFor cs k g) (h : PcOk loaded cs w c p) :
    PcOk loaded cs (step loaded c w p).2 c (step loaded c w p).1 := by
  cases p with
  | check =>
    simp only [step]
    split
    · assumption
    · trivial
  | make => exact ⟨c, hc, rfl, w.next, rfl⟩
  | compare =>
    obtain ⟨g, hg⟩ := Option.isSome_iff_exists.1 h
    simp only [step, hg]
    split
    · next hne =>
      obtain ⟨d, hd, hk, id, rfl⟩ := hreg _ _ hg
      exact .inr ⟨rfl, d, hd, hk, hne⟩
    · exact h
  | findModule =>
    simp only [step]
    split
    · exact h
    · next hl => exact .inl ⟨rfl, by simpa using hl⟩
  | hasName =>
    simp only [step]
    split <;> exact h
  | getForName =>
    obtain ⟨g, hg⟩ := Option.isSome_iff_exists.1 h
    simp only [step, hg]
    exact ⟨hreg _ _ hg, h⟩
  | ret =>
    obtain ⟨g, hg⟩ := Option.isSome_iff_exists.1 h
    simp only [step, hg]
    exact hreg _ _ hg
  | store g =>
    simp [step, PcOk, alookup_aset]
  | setName g => exact h.2
  | done r => cases r <;> exact h

theorem ok_tick {cs : List Call} {s : Sys} (h : Ok loaded cs s) (i : Nat) : Ok loaded cs (tick loaded s i) := by
  cases ht : s.threads[i]? with
  | none =>
    have e : tick loaded s i = s := by unfold tick; rw [ht]
    rw [e]; exact h
  | some t =>
    have hc : t.call ∈ cs := by
      rw [← h.calls]
      exact List.mem_map_of_mem (List.mem_of_getElem? ht)
    refine ⟨?_, ?_, ?_⟩
    · rw [tick_threads ht, ← h.calls]
      simp only [List.map_set]
      apply List.ext_getElem?
      intro j
      rw [List.getElem?_set]
      split
      · next e =>
        subst e
        have hl : i < s.threads.length := (List.getElem?_eq_some_iff.1 ht).1
        simp [hl, ht]
        rw [List.getElem?_eq_some_iff] at ht
        exact ht.2 ▸ rfl
      · rfl
    · intro k g hg
      rw [tick_threads ht] at hg
      by_cases hk : k ≠ Call.key t.call ∨ ∀ g, t.pc ≠ .store g
      · rw [step_types hk] at hg
        exact h.reg k g hg
      · push Not at hk
        obtain ⟨rfl, g', hp⟩ := hk
        rw [hp] at hg
        simp [step, alookup_aset] at hg
        subst hg
        have := h.pcs i t ht
        rw [hp] at this
        exact this
    · intro j u hu
      rcases get_tick ht u hu with ⟨rfl, rfl⟩ | ⟨-, hj⟩
      · rw [tick_threads ht]
        exact pcOk_own hc h.reg (h.pcs i t ht)
      · rw [tick_threads ht]
        exact pcOk_step (h.pcs j u hj)

theorem ok_run {cs : List Call} (attrs : List ((String × String) × Nat)) (n : Nat) (sched : List Nat) :
    Ok loaded cs (run loaded (begin attrs n cs) sched) :=
  run_ind (P := Ok loaded cs) (fun _ i h => ok_tick h i) sched _ (ok_begin attrs n cs)

/-! ## After a first call -/

/-- Once `g` is registered and no call with this key is creating a class, this stays so, and the threads in `W`
(those that had not begun) can only get `g`. -/
structure Still (k : TypeKey) (g : GCls) (W : Nat → Prop) (s : Sys) : Prop where
  reg : alookup s.world.types k = some g
  pcs : ∀ (j : Nat) (t : Thread), s.threads[j]? = some t → Call.key t.call = k →
    t.pc = .check ∨ (t.pc = .compare) ∨ (t.pc = .ret ∧ (W j → g.itemtype = t.call.of)) ∨
      ∃ r, t.pc = .done r ∧
        (W j → (r = .ok g ∧ g.itemtype = t.call.of) ∨ (r = .error .propertyNotUnique ∧ g.itemtype ≠ t.call.of))

theorem still_tick {k : TypeKey} {g : GCls} {W : Nat → Prop} {s : Sys} (h : Still k g W s) (i : Nat) :
    Still k g W (tick loaded s i) := by
  cases ht : s.threads[i]? with
  | none =>
    have e : tick loaded s i = s := by unfold tick; rw [ht]
    rw [e]; exact h
  | some t =>
    have hreg : alookup (step loaded t.call s.world t.pc).2.types k = some g := by
      rw [step_types]
      · exact h.reg
      · by_cases hk : Call.key t.call = k
        · right
          intro g' e
          rcases h.pcs i t ht hk with a | a | ⟨a, -⟩ | ⟨r, a, -⟩ <;> rw [e] at a <;> cases a
        · exact .inl (fun e => hk e.symm)
    refine ⟨by rw [tick_threads ht]; exact hreg, ?_⟩
    intro j u hu hk
    rcases get_tick ht u hu with ⟨rfl, rfl⟩ | ⟨-, hj⟩
    · have hk' : Call.key t.call = k := hk
      rcases h.pcs i t ht hk' with a | a | ⟨a, b⟩ | ⟨r, a, b⟩
      · right; left
        simp only [a, step, hk', h.reg]; rfl
      · simp only [a, step, hk', h.reg]
        by_cases hi : g.itemtype = t.call.of
        · rw [if_neg (by simp [hi])]
          exact .inr (.inr (.inl ⟨rfl, fun _ => hi⟩))
        · rw [if_pos hi]
          exact .inr (.inr (.inr ⟨_, rfl, fun _ => .inr ⟨rfl, hi⟩⟩))
      · simp only [a, step, hk', h.reg]
        exact .inr (.inr (.inr ⟨_, rfl, fun w => .inl ⟨rfl, b w⟩⟩))
      · simp only [a, step]
        exact .inr (.inr (.inr ⟨r, rfl, b⟩))
    · exact h.pcs j u hj hk

/-- While only thread `i` has begun among those with its key: the class is registered exactly from its store on,
and what it returned is what is registered. -/
def Lone (k : TypeKey) (i : Nat) (s : Sys) : Prop :=
  (∀ j t, s.threads[j]? = some t → Call.key t.call = k → j ≠ i → t.pc = .check) →
  ∀ t, s.threads[i]? = some t → Call.key t.call = k →
    match t.pc with
    | .check | .make | .store _ => alookup s.world.types k = none
    | .done (.ok g) => alookup s.world.types k = some g
    | _ => True

theorem step_not_check {c : Call} {w : World} {p : Pc} : (step loaded c w p).1 ≠ .check := by
  cases p with
  | check => simp only [step]; split <;> simp
  | compare =>
    simp only [step]
    cases alookup w.types (Call.key c) with
    | none => simp
    | some g => simp only; split <;> simp
  | make => simp [step]
  | store g => simp [step]
  | findModule => simp only [step]; split <;> simp
  | hasName => simp only [step]; split <;> simp
  | getForName => simp only [step]; cases alookup w.types (Call.key c) <;> simp
  | setName g => simp [step]
  | ret => simp only [step]; cases alookup w.types (Call.key c) <;> simp
  | done r => simp [step]

theorem lone_tick {k : TypeKey} {i : Nat} {s : Sys} (h : Lone k i s) (m : Nat) : Lone k i (tick loaded s m) := by
  cases ht : s.threads[m]? with
  | none =>
    have e : tick loaded s m = s := by unfold tick; rw [ht]
    rw [e]; exact h
  | some t =>
    have hlen : m < s.threads.length := (List.getElem?_eq_some_iff.1 ht).1
    intro others u hu hk
    have own : (tick loaded s m).threads[m]? = some { t with pc := (step loaded t.call s.world t.pc).1 } := by
      rw [tick_threads ht]; simp [hlen]
    -- before the step the others had not begun either
    have before : ∀ j t, s.threads[j]? = some t → Call.key t.call = k → j ≠ i → t.pc = .check := by
      intro j v hv hkv hji
      by_cases e : m = j
      · subst e
        rw [ht] at hv; cases hv
        exact absurd (others m _ own hkv hji) step_not_check
      · apply others j v ?_ hkv hji
        rw [tick_threads ht, List.getElem?_set, if_neg e]
        exact hv
    rcases get_tick ht u hu with ⟨rfl, rfl⟩ | ⟨hne, hj⟩
    · have hk' : Call.key t.call = k := hk
      have old := h before t ht hk'
      rw [tick_threads ht]
      obtain ⟨c, p⟩ := t
      subst hk'
      cases p with
      | check =>
        simp only at old
        simp only [step, old]; simp
      | make => exact old
      | compare =>
        simp only [step]
        cases alookup s.world.types (Call.key c) with
        | none => trivial
        | some g =>
          simp only
          by_cases hi : g.itemtype ≠ c.of
          · rw [if_pos hi]; trivial
          · rw [if_neg hi]; trivial
      | store g => trivial
      | findModule =>
        simp only [step]
        by_cases hl : loaded c.of.module = true
        · rw [if_pos hl]; trivial
        · rw [if_neg hl]; trivial
      | hasName =>
        simp only [step]
        by_cases hl : (alookup s.world.attrs (c.of.module, c.of.name ++ c.container.suffix)).isSome = true
        · rw [if_pos hl]; trivial
        · rw [if_neg hl]; trivial
      | getForName => simp only [step]; cases alookup s.world.types (Call.key c) <;> trivial
      | setName g => trivial
      | ret =>
        simp only [step]
        cases hg : alookup s.world.types (Call.key c) with
        | none => trivial
        | some g => exact hg
      | done r => exact old
    · have hkt : k ≠ Call.key t.call := by
        intro e
        exact step_not_check (others m _ own e.symm hne)
      have same : alookup (tick loaded s m).world.types k = alookup s.world.types k := by
        rw [tick_threads ht]
        exact step_types (.inl hkt)
      have old := h before u hj hk
      rw [same]
      exact old

theorem lone_begin (attrs : List ((String × String) × Nat)) (n : Nat) (cs : List Call) (k : TypeKey) (i : Nat) :
    Lone k i (begin attrs n cs) := by
  intro _ t ht _
  simp only [begin, List.getElem?_map, Option.map_eq_some_iff] at ht
  obtain ⟨c, -, rfl⟩ := ht
  rfl

/-! ## Every call ends -/

/-- Steps still to be taken, at most. -/
def rank : Pc → Nat
  | .check => 8
  | .make => 7
  | .store _ => 6
  | .findModule => 5
  | .hasName => 4
  | .getForName => 3
  | .setName _ => 2
  | .compare => 2
  | .ret => 1
  | .done _ => 0

theorem rank_step {c : Call} {w : World} {p : Pc} : rank (step loaded c w p).1 ≤ rank p - 1 := by
  cases p with
  | check => simp only [step]; split <;> simp [rank]
  | compare =>
    simp only [step]
    cases alookup w.types (Call.key c) with
    | none => simp [rank]
    | some g => simp only; split <;> simp [rank]
  | make => simp [step, rank]
  | store g => simp [step, rank]
  | findModule => simp only [step]; split <;> simp [rank]
  | hasName => simp only [step]; split <;> simp [rank]
  | getForName => simp only [step]; cases alookup w.types (Call.key c) <;> simp [rank]
  | setName g => simp [step, rank]
  | ret => simp only [step]; cases alookup w.types (Call.key c) <;> simp [rank]
  | done r => simp [step, rank]

theorem rank_run : ∀ (sched : List Nat) (s : Sys) (i : Nat) (t : Thread), s.threads[i]? = some t →
    ∃ t', (run loaded s sched).threads[i]? = some t' ∧ t'.call = t.call ∧ rank t'.pc ≤ rank t.pc - sched.count i
  | [], s, i, t, h => ⟨t, h, rfl, by simp⟩
  | m :: rest, s, i, t, h => by
    by_cases e : m = i
    · subst e
      have hlen : m < s.threads.length := (List.getElem?_eq_some_iff.1 h).1
      have own : (tick loaded s m).threads[m]? = some { t with pc := (step loaded t.call s.world t.pc).1 } := by
        rw [tick_threads h]; simp [hlen]
      obtain ⟨t', h1, h2, h3⟩ := rank_run rest (tick loaded s m) m _ own
      refine ⟨t', h1, h2, ?_⟩
      have := rank_step (loaded := loaded) (c := t.call) (w := s.world) (p := t.pc)
      simp only at h3
      rw [List.count_cons_self]
      omega
    · have other : (tick loaded s m).threads[i]? = some t := by
        cases hm : s.threads[m]? with
        | none =>
          have e : tick loaded s m = s := by unfold tick; rw [hm]
          rw [e]; exact h
        | some u =>
          rw [tick_threads hm, List.getElem?_set, if_neg e]
          exact h
      obtain ⟨t', h1, h2, h3⟩ := rank_run rest (tick loaded s m) i t other
      refine ⟨t', h1, h2, ?_⟩
      rw [List.count_cons_of_ne e]
      exact h3

/-! ## How many classes are made -/

/-- Threads that may still make a class. -/
def mayMake : Pc → Nat
  | .check | .make => 1
  | _ => 0

theorem step_next {c : Call} {w : World} {p : Pc} :
    (step loaded c w p).2.next + mayMake (step loaded c w p).1 ≤ w.next + mayMake p := by
  cases p with
  | check => simp only [step]; split <;> simp [mayMake]
  | compare =>
    simp only [step]
    cases alookup w.types (Call.key c) with
    | none => simp [mayMake]
    | some g => simp only; split <;> simp [mayMake]
  | make => simp [step, mayMake]
  | store g => simp [step, mayMake]
  | findModule => simp only [step]; split <;> simp [mayMake]
  | hasName => simp only [step]; split <;> simp [mayMake]
  | getForName => simp only [step]; cases alookup w.types (Call.key c) <;> simp [mayMake]
  | setName g => simp [step, mayMake]
  | ret => simp only [step]; cases alookup w.types (Call.key c) <;> simp [mayMake]
  | done r => simp [step, mayMake]

theorem sum_set : ∀ (l : List Nat) (i : Nat) (a b : Nat), l[i]? = some a → (l.set i b).sum + a = l.sum + b
  | [], i, a, b, h => (nomatch h)
  | x :: l, 0, a, b, h => by
    cases h
    simp only [List.set_cons_zero, List.sum_cons]; omega
  | x :: l, i + 1, a, b, h => by
    have := sum_set l i a b h
    simp only [List.set_cons_succ, List.sum_cons]; omega

theorem tick_next (s : Sys) (i : Nat) :
    (tick loaded s i).world.next + ((tick loaded s i).threads.map (fun t => mayMake t.pc)).sum ≤
      s.world.next + (s.threads.map (fun t => mayMake t.pc)).sum := by
  cases ht : s.threads[i]? with
  | none =>
    have e : tick loaded s i = s := by unfold tick; rw [ht]
    rw [e]; exact Nat.le_refl _
  | some t =>
    rw [tick_threads ht]
    simp only [List.map_set]
    have h1 := sum_set (s.threads.map (fun t => mayMake t.pc)) i (mayMake t.pc)
      (mayMake (step loaded t.call s.world t.pc).1) (by simp [ht])
    have h2 := step_next (loaded := loaded) (c := t.call) (w := s.world) (p := t.pc)
    omega

/-! ## One thread alone -/

theorem step_call {c : Call} {w : World} : ∃ k ≤ 8, ∃ f : Nat → Pc × World,
    f 0 = (.check, w) ∧ (∀ m, f (m + 1) = step loaded c (f m).2 (f m).1) ∧
      f k = (.done (call loaded c w).1, (call loaded c w).2) := by
  refine ⟨8, Nat.le_refl _, fun m => Nat.rec (.check, w) (fun _ x => step loaded c x.2 x.1) m, rfl, fun _ => rfl, ?_⟩
  show step loaded c (step loaded c (step loaded c (step loaded c (step loaded c (step loaded c (step loaded c
    (step loaded c w .check).2 (step loaded c w .check).1).2 _).2 _).2 _).2 _).2 _).2 _ = _
  unfold call makeGeneric
  rw [show keyOf c.of c.container = Call.key c from rfl]
  cases hk : alookup w.types (Call.key c) with
  | some g =>
    by_cases hi : g.itemtype = c.of
    · simp [step, hk, hi]
    · simp [step, hk, hi]
  | none =>
    by_cases hl : loaded c.of.module = true
    · by_cases ha : (alookup w.attrs (c.of.module, c.of.name ++ c.container.suffix)).isSome = true
      · simp [step, hk, hl, ha, alookup_aset, publish]
      · simp [step, hk, hl, ha, alookup_aset, publish, newCls]
    · simp [step, hk, hl]

end Normalize.GenericThreads
