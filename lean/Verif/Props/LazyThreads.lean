import Verif.Lemmas.LazyThreads

/-!
# C100: a lazy property used by several threads
-/

namespace Normalize.LazyThreads

open Normalize.Slots Normalize.Spec

variable {V : Type} [DecidableEq V] {c : Cfg V}

/-- **C100**, the full claim, about threads that only read: the default is evaluated at most once and all get the same
value. -/
def C100_statement : Prop :=
  ∀ (c : Cfg Nat) (as : List (Act Nat)) (sched : List Nat), c.p.kind.isLazy = true → (∀ a ∈ as, a = .read) →
    (run c (begin none as) sched).shared.evals ≤ 1 ∧
    ∀ i j u v, Ended (run c (begin none as) sched) i .read (.ok u) →
      Ended (run c (begin none as) sched) j .read (.ok v) → u = v

/-- A lazy property of the given kind; its default gives a new object each time, as `default=list` does. -/
def fresh (k : Kind) : Cfg Nat :=
  { w := ⟨1000, 1001, fun a b => a == b⟩, p := { kind := k }, dflt := fun n => .ok n }

/-- Both readers see that the property is unset. -/
def race : List Nat := [0, 0, 1, 1, 0, 0, 0, 0, 0, 1, 1, 1, 1, 1]

/-- Two threads that read at the same time may both evaluate the default and get different objects. -/
theorem C100_violated : ¬ C100_statement := by
  intro h
  have := (h (fresh .lazySafe) [.read, .read] race rfl (by decide)).2 0 1 0 1 (by with_unfolding_all rfl)
    (by with_unfolding_all rfl)
  exact absurd this (by decide)

/-- A read-only property may change after it has been read: the first reader has returned 0 before the third begins,
which gets 1. -/
theorem C100_read_only_violated :
    ∃ sched later, Ended (run (fresh .roLazy) (begin none [.read, .read, .read]) sched) 0 .read (.ok 0) ∧
      ToDo (run (fresh .roLazy) (begin none [.read, .read, .read]) sched) 2 .read ∧
      Ended (run (fresh .roLazy) (run (fresh .roLazy) (begin none [.read, .read, .read]) sched) later) 2 .read (.ok 1) :=
  ⟨[0, 0, 1, 1, 0, 0, 0, 0, 0], [1, 1, 1, 2, 2], by with_unfolding_all rfl, by with_unfolding_all rfl,
    by with_unfolding_all rfl⟩

/-- An assignment that has returned may be undone by a reader that began before it: nobody assigns anything else, yet a
reader that begins later gets the default, 0, not the 7 assigned. -/
theorem C100_assignment_violated :
    ∃ sched later, Ended (run (fresh .lazySafe) (begin none [.read, .assign 7, .read]) sched) 1 (.assign 7) (.ok 1000) ∧
      ToDo (run (fresh .lazySafe) (begin none [.read, .assign 7, .read]) sched) 2 .read ∧
      Ended (run (fresh .lazySafe) (run (fresh .lazySafe) (begin none [.read, .assign 7, .read]) sched) later)
        2 .read (.ok 0) :=
  ⟨[0, 0, 0, 0, 1, 1], [0, 2, 2], by with_unfolding_all rfl, by with_unfolding_all rfl, by with_unfolding_all rfl⟩

/-- A reader may get `KeyError` although the property has a default that works: another thread deletes the value between
two steps of the getter. -/
theorem C100_delete_violated :
    ∃ sched, Ended (run (fresh .lazySafe) (begin (some 7) [.read, .delete]) sched) 0 .read (.error .keyError) :=
  ⟨[0, 1, 0], by with_unfolding_all rfl⟩

/-- **C100**: under every schedule of any operations in any number of threads, each value read was there at first, or
was made by an assignment of one of the threads or by one of the evaluations of the default that have taken place. -/
theorem C100_partial (slot : Option V) (as : List (Act V)) (sched : List Nat) (i : Nat) (v : V)
    (h : Ended (run c (begin slot as) sched) i .read (.ok v)) :
    From c slot as (run c (begin slot as) sched).shared.evals v :=
  (ok_run slot as False (fun h => h.elim) sched).pcs i _ h rfl

/-- **C100**: unless assignments are unchecked (a plain lazy property), every value read is one that the property's type
and check admit. -/
theorem C100_admitted (slot : Option V) (as : List (Act V)) (sched : List Nat) (hk : c.p.kind ≠ .lazy)
    (hslot : ∀ v, slot = some v → Admitted c v) (i : Nat) (v : V)
    (h : Ended (run c (begin slot as) sched) i .read (.ok v)) : Admitted c v := by
  cases C100_partial slot as sched i v h with
  | initial h => exact hslot v h
  | assigned x _ h =>
    rcases h with ⟨h, -⟩ | ⟨-, -, h⟩
    · exact absurd h hk
    · exact ⟨x, h⟩
  | evaluated k _ x _ h => exact ⟨x, h⟩

/-- **C100**: the default is evaluated at most once for each read. -/
theorem C100_evaluations (slot : Option V) (as : List (Act V)) (sched : List Nat) :
    (run c (begin slot as) sched).shared.evals ≤ as.count .read := by
  have h := run_ind (c := c)
    (P := fun s => s.shared.evals + (s.threads.map mayEval).sum ≤ as.count .read)
    (fun s i hs => Nat.le_trans (tick_evals s i) hs) sched (begin slot as) (by
      have : ∀ as : List (Act V), ((begin slot as).threads.map mayEval).sum = as.count .read := by
        intro as
        induction as with
        | nil => rfl
        | cons a as ih =>
          have e : ((begin slot (a :: as)).threads.map mayEval).sum =
            mayEval ⟨a, .start⟩ + ((begin slot as).threads.map mayEval).sum := by
            simp [begin]
          rw [e, ih, List.count_cons]
          cases a <;> simp [mayEval, Nat.add_comm]
      rw [this]
      simp [begin])
  omega

/-- **C100**: no operation waits for another: it has ended once its thread has had seven turns. -/
theorem C100_ends (slot : Option V) (as : List (Act V)) (sched : List Nat) (i : Nat) (hi : i < as.length)
    (h7 : 7 ≤ sched.count i) : ∃ r, Ended (run c (begin slot as) sched) i as[i] r := by
  have h0 : (begin slot as).threads[i]? = some ⟨as[i], .start⟩ := by simp [begin, hi]
  obtain ⟨⟨a, p⟩, h1, h2, h3⟩ := rank_run (c := c) sched (begin slot as) i _ h0
  have ha : a = as[i] := h2
  subst ha
  have hz : rank p = 0 := by
    have : rank p ≤ 7 - sched.count i := h3
    omega
  cases p with
  | done r => exact ⟨r, h1⟩
  | start => simp [rank] at hz
  | hit => simp [rank] at hz
  | recheck => simp [rank] at hz
  | default => simp [rank] at hz
  | typed v => simp [rank] at hz
  | put v => simp [rank] at hz
  | present => simp [rank] at hz
  | fetch => simp [rank] at hz

/-- **C100**: if nobody can delete the property, a read raises only what an evaluation of the default, or the check of
the value it gave, raised. -/
theorem C100_errors (slot : Option V) (as : List (Act V)) (sched : List Nat) (hd : Deletable c → .delete ∉ as)
    (i : Nat) (e : Exc) (h : Ended (run c (begin slot as) sched) i .read (.error e)) :
    (∃ k < (run c (begin slot as) sched).shared.evals, c.dflt k = .error e) ∨
    ∃ k < (run c (begin slot as) sched).shared.evals, ∃ x, c.dflt k = .ok x ∧ typeSafe c.w c.p x false = .error e :=
  (ok_run slot as True (fun _ => hd) sched).pcs i _ h rfl trivial

/-- **C100**: let a state be reached in which the property is set and no operation is under way.  From then on, unless
somebody deletes it, the default is never evaluated again and a read gives that value or one that was assigned later. -/
theorem C100_set (slot : Option V) (as : List (Act V)) (sched : List Nat) (v : V)
    (hv : (run c (begin slot as) sched).shared.slot = some v) (hrest : AtRest (run c (begin slot as) sched))
    (hd : Deletable c → ∀ j, ¬ ToDo (run c (begin slot as) sched) j .delete) (later : List Nat) :
    (run c (run c (begin slot as) sched) later).shared.evals = (run c (begin slot as) sched).shared.evals ∧
    ∀ j r, ToDo (run c (begin slot as) sched) j .read → Ended (run c (run c (begin slot as) sched) later) j .read r →
      r = .ok v ∨ ∃ m x u, ToDo (run c (begin slot as) sched) m (.assign x) ∧ Stores c x u ∧ r = .ok u := by
  have h := calm_run (c := c) hd hrest hv later
  refine ⟨h.evals, fun j r ht he => ?_⟩
  rcases h.pcs j _ he with hp | ⟨hp, -⟩ | ⟨u, hp, -⟩ | ⟨r', hp, hr⟩
  · cases hp
  · cases hp
  · cases hp
  · cases hp
    obtain ⟨u, rfl, hl⟩ := hr ht
    rcases hl with rfl | ⟨m, x, hm, hs⟩
    · exact .inl rfl
    · exact .inr ⟨m, x, u, hm, hs, rfl⟩

/-- **C100**: in particular a read-only lazy property that was read once before the threads began keeps its value: all of
them read it, whatever they try. -/
theorem C100_read_only (hk : c.p.kind = .roLazy) (v : V) (as : List (Act V)) (sched : List Nat) :
    (run c (begin (some v) as) sched).shared.evals = 0 ∧
    ∀ j r, Ended (run c (begin (some v) as) sched) j .read r → r = .ok v := by
  have hrest : AtRest (run c (begin (some v) as) []) := fun j a p h => .inl (begin_pc (t := ⟨a, p⟩) h)
  have hnd : Deletable c → ∀ j, ¬ ToDo (run c (begin (some v) as) []) j .delete := by
    rintro (h | ⟨h, -⟩)
    · rw [hk] at h; cases h
    · exact absurd hk h
  obtain ⟨h1, h2⟩ := C100_set (c := c) (some v) as [] v rfl hrest hnd sched
  refine ⟨h1, fun j r hr => ?_⟩
  have hj : ToDo (run c (begin (some v) as) []) j .read := by
    have hm : ((run c (begin (some v) as) sched).threads.map (·.act))[j]? = some .read := by
      have : (run c (begin (some v) as) sched).threads[j]? = some ⟨.read, .done r⟩ := hr
      simp [this]
    have hacts : (run c (begin (some v) as) sched).threads.map (·.act) = as :=
      (ok_run (c := c) (some v) as False (fun h => h.elim) sched).acts
    rw [hacts] at hm
    show (begin (some v) as).threads[j]? = _
    simp [begin, hm]
  rcases h2 j r hj hr with h | ⟨m, x, u, -, hs, -⟩
  · exact h
  · rcases hs with ⟨h, -⟩ | ⟨-, h, -⟩
    · rw [hk] at h; cases h
    · exact absurd hk h

/-! ## A thread alone -/

/-- A thread after some steps of its own only. -/
def solo (c : Cfg V) (a : Act V) (s : Shared V) (p : Pc V) : Nat → Pc V × Shared V
  | 0 => (p, s)
  | m + 1 => solo c a (step c a s p).2 (step c a s p).1 m

theorem run_solo : ∀ (m : Nat) (s : Sys V) (i : Nat) (a : Act V) (p : Pc V), s.threads[i]? = some ⟨a, p⟩ →
    (run c s (List.replicate m i)).shared = (solo c a s.shared p m).2 ∧
      (run c s (List.replicate m i)).threads[i]? = some ⟨a, (solo c a s.shared p m).1⟩
  | 0, _, _, _, _, h => ⟨rfl, h⟩
  | m + 1, s, i, a, p, h => by
    have hlen : i < s.threads.length := (List.getElem?_eq_some_iff.1 h).1
    have := run_solo m (tick c s i) i a (step c a s.shared p).1 (by rw [tick_some h]; simp [hlen])
    have e : (tick c s i).shared = (step c a s.shared p).2 := by rw [tick_some h]
    rw [e] at this
    exact this

/-- The default at its next evaluation, as a program for `Slots.getAttr`. -/
def asProg (r : Except Exc V) : Prog V :=
  match r with
  | .ok v => .ret v
  | .error e => .raise e

/-- **C100**: a thread that reads and is left alone does what `getattr` does in the model without threads. -/
theorem C100_alone (hl : c.p.kind.isLazy = true) (s : Sys V) (i : Nat) (h : ToDo s i .read) (ex : State V → Op V → Res V V)
    (st : State V) (hst : st.slots "x" = s.shared.slot) :
    ∃ r st', getAttr c.w ⟨[("x", { c.p with default := some (asProg (c.dflt s.shared.evals)) })]⟩ ex st "x" =
        some (r, st') ∧
      ∃ k ≤ 7, Ended (run c s (List.replicate k i)) i .read r ∧
        (run c s (List.replicate k i)).shared.slot = st'.slots "x" := by
  have hfind : (⟨[("x", { c.p with default := some (asProg (c.dflt s.shared.evals)) })]⟩ : Cls V).find "x" =
      some { c.p with default := some (asProg (c.dflt s.shared.evals)) } := rfl
  have hts : ∀ x b, typeSafe c.w { c.p with default := some (asProg (c.dflt s.shared.evals)) } x b =
      typeSafe c.w c.p x b := fun _ _ => rfl
  -- seven steps of the thread
  have hsolo := run_solo (c := c) 7 s i .read .start h
  have h7 : ∀ r sl, solo c .read s.shared .start 7 = (.done r, sl) →
      Ended (run c s (List.replicate 7 i)) i .read r ∧ (run c s (List.replicate 7 i)).shared.slot = sl.slot := by
    intro r sl e
    rw [e] at hsolo
    exact ⟨hsolo.2, by rw [hsolo.1]⟩
  unfold getAttr
  rw [hst]
  cases hv : s.shared.slot with
  | some v =>
    refine ⟨.ok v, st, rfl, 7, Nat.le_refl _, ?_⟩
    rw [hst, hv]
    have := h7 (.ok v) s.shared (by
      rcases first_cases c s.shared .read with ⟨x, -, hx, e⟩ | ⟨-, -, e⟩ | ⟨-, hn, e⟩ | ⟨x, hh, -⟩ | ⟨x, y, hh, -⟩ |
        ⟨hh, -⟩ | ⟨hne, -⟩
      · rw [hv] at hx; cases hx
        simp only [solo, step, e]
      · simp only [solo, step, e, hv]
      · rw [hv] at hn; cases hn
      · cases hh
      · cases hh
      · cases hh
      · exact absurd rfl hne)
    rw [hv] at this
    exact this
  | none =>
    have e1 : first c s.shared .read = (.recheck, s.shared) := by
      rcases first_cases c s.shared .read with ⟨x, -, hx, e⟩ | ⟨-, hh, e⟩ | ⟨-, hn, e⟩ | ⟨x, hh, -⟩ | ⟨x, y, hh, -⟩ |
        ⟨hh, -⟩ | ⟨hne, -⟩
      · rw [hv] at hx; cases hx
      · rw [hv] at hh; cases hh
      · exact e
      · cases hh
      · cases hh
      · cases hh
      · exact absurd rfl hne
    simp only [hfind, hl, if_true, lazyGet, getDefault]
    cases hd : c.dflt s.shared.evals with
    | error e =>
      refine ⟨.error e, st.log "x", rfl, 7, Nat.le_refl _, ?_⟩
      have := h7 (.error e) { s.shared with evals := s.shared.evals + 1 } (by simp [solo, step, e1, hv, hd])
      refine ⟨this.1, ?_⟩
      rw [this.2]
      exact (hst.symm)
    | ok x =>
      simp only [asProg, runProg]
      have hts' : typeSafe c.w { c.p with default := some (Prog.ret x) } x false = typeSafe c.w c.p x false := rfl
      rw [hts']
      cases ht : typeSafe c.w c.p x false with
      | error e =>
        refine ⟨.error e, st.log "x", rfl, 7, Nat.le_refl _, ?_⟩
        have := h7 (.error e) { s.shared with evals := s.shared.evals + 1 } (by simp [solo, step, e1, hv, hd, ht])
        refine ⟨this.1, ?_⟩
        rw [this.2]
        exact (hst.symm)
      | ok v =>
        refine ⟨.ok v, (st.log "x").put "x" v, rfl, 7, Nat.le_refl _, ?_⟩
        have := h7 (.ok v) ⟨some v, s.shared.evals + 1⟩ (by simp [solo, step, e1, hv, hd, ht])
        refine ⟨this.1, ?_⟩
        rw [this.2]
        rfl

/-! ## The hypotheses can be met -/

/-- A property that admits numbers below 100. -/
def small (k : Kind) : Cfg Nat :=
  { w := ⟨1000, 1001, fun a b => a == b⟩,
    p := { kind := k, check := some (fun v => .ok (decide (v < 100))) }, dflt := fun n => .ok (n + 5) }

example : (small .lazySafe).p.kind ≠ .lazy ∧
    Ended (run (small .lazySafe) (begin none [.read, .assign 3, .assign 200, .read]) [0, 0, 1, 2, 1, 3, 3, 0, 0, 0])
      3 .read (.ok 3) := ⟨by decide, by with_unfolding_all rfl⟩

/-- The assignment of 200 is refused. -/
example : Ended (run (small .lazySafe) (begin none [.read, .assign 3, .assign 200, .read]) [0, 0, 1, 2, 1, 3, 3, 0, 0, 0])
    2 (.assign 200) (.error .valueCheck) := by with_unfolding_all rfl

/-- A state at rest in which the property is set, with operations still to begin. -/
example : AtRest (run (small .lazySafe) (begin none [.read, .assign 3, .read]) [0, 0, 0, 0, 0, 0, 0]) ∧
    (run (small .lazySafe) (begin none [.read, .assign 3, .read]) [0, 0, 0, 0, 0, 0, 0]).shared.slot = some 5 ∧
    ∀ j, ¬ ToDo (run (small .lazySafe) (begin none [.read, .assign 3, .read]) [0, 0, 0, 0, 0, 0, 0]) j .delete := by
  refine ⟨?_, by with_unfolding_all rfl, ?_⟩
  · intro j a p h
    match j with
    | 0 =>
      have e : some (⟨.read, .done (.ok 5)⟩ : Thread Nat) = some ⟨a, p⟩ := h
      cases e; exact .inr ⟨_, rfl⟩
    | 1 =>
      have e : some (⟨.assign 3, .start⟩ : Thread Nat) = some ⟨a, p⟩ := h
      cases e; exact .inl rfl
    | 2 =>
      have e : some (⟨.read, .start⟩ : Thread Nat) = some ⟨a, p⟩ := h
      cases e; exact .inl rfl
    | j + 3 => exact (nomatch h)
  · intro j h
    match j with
    | 0 =>
      have e : some (⟨.read, .done (.ok 5)⟩ : Thread Nat) = some ⟨.delete, .start⟩ := h
      cases e
    | 1 =>
      have e : some (⟨.assign 3, .start⟩ : Thread Nat) = some ⟨.delete, .start⟩ := h
      cases e
    | 2 =>
      have e : some (⟨.read, .start⟩ : Thread Nat) = some ⟨.delete, .start⟩ := h
      cases e
    | j + 3 => exact (nomatch h)

/-- A read whose default fails raises. -/
example : Ended (run ({ fresh .lazy with dflt := fun _ => .error .valueError } : Cfg Nat) (begin none [.read]) [0, 0, 0])
    0 .read (.error .valueError) := by with_unfolding_all rfl

end Normalize.LazyThreads
