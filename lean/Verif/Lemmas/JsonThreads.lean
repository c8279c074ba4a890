import Verif.Spec.JsonThreads
import Verif.Lemmas.Access
import Mathlib.Data.List.Induction

/-!
# Lemmas for C104
-/

namespace Normalize.JsonThreads

open Normalize.Spec

variable {X T : Type} [DecidableEq T] {O : Objects X T}

/-- What a thread knows at each place. -/
def PcOk (O : Objects X T) (c : Caches T) (x : X) : Pc → Prop
  | .check => True
  | .known => ∃ b : Bool, alookup c.has (O.ty x) = some b
  | .recall => O.has x = true ∧ ∃ b : Bool, alookup c.has (O.ty x) = some b
  | .look => True
  | .storeHas b => b = O.has x
  | .spec => O.has x = true
  | .storeTakes b => b = O.takes x ∧ O.has x = true

/-- The caches tell the truth and every thread is where it should be. -/
structure Good (O : Objects X T) (P : X → Except Exc How → Prop) (calls : List (List X)) (s : Sys X T) : Prop where
  caches : TrueCaches O s.caches
  done : ∀ (i : Nat) (t : Thread X), s.threads[i]? = some t → ∃ xs : List X, calls[i]? = some xs ∧ DoneSoFar P xs t
  pcs : ∀ (i : Nat) (t : Thread X), s.threads[i]? = some t → ∀ (x : X) (xs : List X), t.todo = x :: xs →
    PcOk O s.caches x t.pc
  idle : ∀ (i : Nat) (t : Thread X), s.threads[i]? = some t → t.todo = [] → t.pc = .check

/-- A key once in the cache stays there. -/
theorem step_has_mono {c : Caches T} {x : X} {pc : Pc} {k : T} (h : ∃ b : Bool, alookup c.has k = some b) :
    ∃ b : Bool, alookup (step O x c pc).2.has k = some b := by
  cases pc with
  | check | look | spec => exact h
  | known => simp only [step]; split <;> exact h
  | recall => simp only [step]; split <;> exact h
  | storeTakes b => exact h
  | storeHas b =>
    simp only [step, alookup_aset]
    by_cases hk : O.ty x = k
    · exact ⟨b, by simp [hk]⟩
    · obtain ⟨b', hb'⟩ := h
      exact ⟨b', by simp [hk, hb']⟩

theorem step_takes_mono {c : Caches T} {x : X} {pc : Pc} {k : T} (h : ∃ b : Bool, alookup c.takes k = some b) :
    ∃ b : Bool, alookup (step O x c pc).2.takes k = some b := by
  cases pc with
  | check | look | spec => exact h
  | known => simp only [step]; split <;> exact h
  | recall => simp only [step]; split <;> exact h
  | storeHas b => exact h
  | storeTakes b =>
    simp only [step, alookup_aset]
    by_cases hk : O.ty x = k
    · exact ⟨b, by simp [hk]⟩
    · obtain ⟨b', hb'⟩ := h
      exact ⟨b', by simp [hk, hb']⟩

/-- The caches stay true. -/
theorem step_true (hu : UniformTypes O) {c : Caches T} {x : X} {pc : Pc} (hc : TrueCaches O c) (hp : PcOk O c x pc) :
    TrueCaches O (step O x c pc).2 := by
  cases pc with
  | check | look | spec => exact hc
  | known => simp only [step]; split <;> exact hc
  | recall => simp only [step]; split <;> exact hc
  | storeHas b =>
    intro y b'
    refine ⟨fun h => ?_, (hc y b').2⟩
    simp only [step, alookup_aset] at h
    by_cases hk : O.ty x = O.ty y
    · simp only [hk, if_true, Option.some.injEq] at h
      rw [← h, hp, (hu x y hk).1]
    · simp only [hk, if_false] at h
      exact (hc y b').1 h
  | storeTakes b =>
    intro y b'
    refine ⟨(hc y b').1, fun h => ?_⟩
    simp only [step, alookup_aset] at h
    by_cases hk : O.ty x = O.ty y
    · simp only [hk, if_true, Option.some.injEq] at h
      rw [← h, hp.1, (hu x y hk).2]
    · simp only [hk, if_false] at h
      exact (hc y b').2 h

theorem how_right {x : X} (h : O.has x = true) : how (O.takes x) = rightWay O x := by
  simp only [how, rightWay, h, if_true]

/-- A step goes to a place where the thread knows what it should, or ends the call rightly, unless the second cache
has no entry. -/
theorem step_ok {c : Caches T} {x : X} {pc : Pc} (hc : TrueCaches O c) (hp : PcOk O c x pc) :
    (∃ pc' : Pc, (step O x c pc).1 = .inl pc' ∧ PcOk O (step O x c pc).2 x pc') ∨
      (step O x c pc).1 = .inr (.ok (rightWay O x)) ∨
      ((step O x c pc).1 = .inr (.error .keyError) ∧ pc = .recall ∧ alookup c.takes (O.ty x) = none ∧
        O.has x = true) := by
  cases pc with
  | check =>
    left
    simp only [step]
    cases h : alookup c.has (O.ty x) with
    | none => exact ⟨.look, by simp, trivial⟩
    | some b => exact ⟨.known, by simp, ⟨b, h⟩⟩
  | look => exact .inl ⟨_, rfl, rfl⟩
  | spec => exact .inl ⟨_, rfl, ⟨rfl, hp⟩⟩
  | known =>
    left
    obtain ⟨b, hb⟩ := hp
    simp only [step]
    rw [hb]
    have := (hc x b).1 hb
    cases b with
    | true => exact ⟨.recall, rfl, this.symm, true, hb⟩
    | false => exact ⟨.look, rfl, trivial⟩
  | recall =>
    right
    simp only [step]
    cases h : alookup c.takes (O.ty x) with
    | none => exact .inr ⟨rfl, trivial, rfl, hp.1⟩
    | some b =>
      left
      have := how_right hp.1
      rw [← (hc x b).2 h] at this
      simp only [this]
  | storeHas b =>
    cases b with
    | true => exact .inl ⟨.spec, rfl, hp.symm⟩
    | false =>
      refine .inr (.inl ?_)
      have : O.has x = false := hp.symm
      simp only [step, Bool.false_eq_true, if_false, rightWay, this]
  | storeTakes b =>
    refine .inr (.inl ?_)
    simp only [step]
    rw [hp.1, how_right hp.2]

theorem PcOk.mono {c c' : Caches T} {x : X} {pc : Pc} (h : PcOk O c x pc)
    (hm : ∀ k : T, (∃ b : Bool, alookup c.has k = some b) → ∃ b : Bool, alookup c'.has k = some b) : PcOk O c' x pc := by
  cases pc with
  | known => exact hm _ h
  | recall => exact ⟨h.1, hm _ h.2⟩
  | check | look | storeHas b | spec | storeTakes b => exact h

theorem good_tick (hu : UniformTypes O) {P : X → Except Exc How → Prop} {calls : List (List X)} {s : Sys X T}
    (h : Good O P calls s) (i : Nat) (hright : ∀ x : X, P x (.ok (rightWay O x)))
    (hmiss : ∀ (t : Thread X) (x : X) (xs : List X), s.threads[i]? = some t → t.todo = x :: xs → t.pc = .recall →
      alookup s.caches.takes (O.ty x) = none → O.has x = true → P x (.error .keyError)) :
    Good O P calls (tick O s i) := by
  simp only [tick]
  cases ht : s.threads[i]? with
  | none => exact h
  | some t =>
    cases htd : t.todo with
    | nil => simp only [htd]; exact h
    | cons x xs =>
      simp only [htd]
      have hp := h.pcs i t ht x xs htd
      have hlt : i < s.threads.length := by
        by_contra hge
        rw [List.getElem?_eq_none (by omega)] at ht
        cases ht
      have hset : ∀ (t' : Thread X) (j : Nat) (u : Thread X), (s.threads.set i t')[j]? = some u →
          (j = i ∧ u = t') ∨ (j ≠ i ∧ s.threads[j]? = some u) := by
        intro t' j u hu
        rw [List.getElem?_set] at hu
        by_cases hij : i = j
        · subst hij
          simp only [hlt, if_true, Option.some.injEq] at hu
          exact .inl ⟨rfl, hu.symm⟩
        · simp only [hij, if_false] at hu
          exact .inr ⟨fun e => hij e.symm, hu⟩
      have hmono : ∀ k : T, (∃ b : Bool, alookup s.caches.has k = some b) →
          ∃ b : Bool, alookup (step O x s.caches t.pc).2.has k = some b := fun k hk => step_has_mono hk
      obtain ⟨ys, hys, done, hdone, hf⟩ := h.done i t ht
      have hfin : ∀ r : Except Exc How, P x r → (step O x s.caches t.pc).1 = .inr r →
          Good O P calls ⟨(step O x s.caches t.pc).2,
            s.threads.set i (advance t xs (step O x s.caches t.pc).1)⟩ := by
        intro r hr he
        refine ⟨step_true hu h.caches hp, fun j u hju => ?_, fun j u hju y ys' hy => ?_, fun j u hju hnil => ?_⟩
        · rcases hset _ j u hju with ⟨rfl, rfl⟩ | ⟨_, hj⟩
          · refine ⟨ys, hys, done ++ [x], ?_, ?_⟩
            · rw [he]; simp only [advance, List.append_assoc, List.singleton_append]; rw [← htd]; exact hdone
            · rw [he]
              simp only [advance, List.reverse_cons]
              exact List.rel_append hf (.cons hr .nil)
          · exact h.done j u hj
        · rcases hset _ j u hju with ⟨rfl, rfl⟩ | ⟨_, hj⟩
          · rw [he]; simp only [advance]; trivial
          · exact (h.pcs j u hj y ys' hy).mono hmono
        · rcases hset _ j u hju with ⟨rfl, rfl⟩ | ⟨_, hj⟩
          · rw [he]; rfl
          · exact h.idle j u hj hnil
      rcases step_ok h.caches hp with ⟨pc', he, hpc⟩ | he | ⟨he, hrec, hnone, hhas⟩
      · refine ⟨step_true hu h.caches hp, fun j u hju => ?_, fun j u hju y ys' hy => ?_, fun j u hju hnil => ?_⟩
        · rcases hset _ j u hju with ⟨rfl, rfl⟩ | ⟨_, hj⟩
          · refine ⟨ys, hys, done, ?_, ?_⟩
            · rw [he]; exact hdone
            · rw [he]; exact hf
          · exact h.done j u hj
        · rcases hset _ j u hju with ⟨rfl, rfl⟩ | ⟨_, hj⟩
          · rw [he] at hy ⊢
            simp only [advance] at hy ⊢
            rw [htd] at hy
            cases hy
            exact hpc
          · exact (h.pcs j u hj y ys' hy).mono hmono
        · rcases hset _ j u hju with ⟨rfl, rfl⟩ | ⟨_, hj⟩
          · rw [he] at hnil
            simp only [advance] at hnil
            rw [htd] at hnil
            cases hnil
          · exact h.idle j u hj hnil
      · exact hfin _ (hright x) he
      · exact hfin _ (hmiss t x xs ht htd hrec hnone hhas) he

theorem good_begin {P : X → Except Exc How → Prop} (c : Caches T) (hc : TrueCaches O c) (calls : List (List X)) :
    Good O P calls (begin c calls) := by
  refine ⟨hc, fun i t ht => ?_, fun i t ht x xs hx => ?_, fun i t ht hnil => ?_⟩ <;>
    simp only [begin, List.getElem?_map, Option.map_eq_some_iff] at ht <;>
    obtain ⟨xs', hxs', rfl⟩ := ht
  · exact ⟨xs', hxs', [], rfl, .nil⟩
  · trivial
  · rfl

/-- Entries of the second cache stay. -/
theorem run_takes_mono {s : Sys X T} (sched : List Nat) {k : T}
    (h : ∃ b : Bool, alookup s.caches.takes k = some b) :
    ∃ b : Bool, alookup (run O s sched).caches.takes k = some b := by
  induction sched generalizing s with
  | nil => exact h
  | cons i sched ih =>
    refine ih (s := tick O s i) ?_
    simp only [tick]
    split
    · exact h
    · split
      · exact h
      · exact step_takes_mono h

theorem good_run (hu : UniformTypes O) (c : Caches T) (hc : TrueCaches O c) (calls : List (List X))
    (P : X → Except Exc How → Prop) (hright : ∀ x : X, P x (.ok (rightWay O x)))
    (hmiss : ∀ (sched : List Nat) (i : Nat) (t : Thread X) (x : X) (xs : List X),
      Good O P calls (run O (begin c calls) sched) →
      (run O (begin c calls) sched).threads[i]? = some t → t.todo = x :: xs → t.pc = .recall →
      alookup (run O (begin c calls) sched).caches.takes (O.ty x) = none → O.has x = true → P x (.error .keyError))
    (sched : List Nat) : Good O P calls (run O (begin c calls) sched) := by
  induction sched using List.reverseRecOn with
  | nil => exact good_begin c hc calls
  | append_singleton sched i ih =>
    have : run O (begin c calls) (sched ++ [i]) = tick O (run O (begin c calls) sched) i := by
      simp only [run, List.foldl_append, List.foldl_cons, List.foldl_nil]
    rw [this]
    exact good_tick hu ih i hright (fun t x xs ht hx hpc hn hh => hmiss sched i t x xs ih ht hx hpc hn hh)

/-! ## One thread -/

/-- A type is half known only while the thread is about to complete it. -/
def Completing (O : Objects X T) (s : Sys X T) : Prop :=
  ∀ k : T, alookup s.caches.has k = some true → (∃ b : Bool, alookup s.caches.takes k = some b) ∨
    ∃ (t : Thread X) (x : X) (xs : List X), s.threads = [t] ∧ t.todo = x :: xs ∧ O.ty x = k ∧
      (t.pc = .spec ∨ ∃ b : Bool, t.pc = .storeTakes b)

theorem completing_tick {s : Sys X T} {t : Thread X} (hs : s.threads = [t]) (h : Completing O s) (i : Nat) :
    (∃ t' : Thread X, (tick O s i).threads = [t']) ∧ Completing O (tick O s i) := by
  simp only [tick]
  cases i with
  | succ i => simp only [hs, List.getElem?_cons_succ, List.getElem?_nil]; exact ⟨⟨t, rfl⟩, h⟩
  | zero =>
    simp only [hs, List.getElem?_cons_zero]
    cases htd : t.todo with
    | nil => simp only []; exact ⟨⟨t, hs⟩, h⟩
    | cons x xs =>
      simp only [List.set_cons_zero]
      refine ⟨⟨_, rfl⟩, fun k hk => ?_⟩
      have old : alookup s.caches.has k = some true → (t.pc ≠ .spec ∧ ∀ b : Bool, t.pc ≠ .storeTakes b) →
          ∃ b : Bool, alookup s.caches.takes k = some b := by
        intro hk' hne
        rcases h k hk' with h1 | ⟨t', x', xs', ht', _, _, hpc⟩
        · exact h1
        · rw [hs] at ht'
          cases ht'
          rcases hpc with hpc | ⟨b, hpc⟩
          · exact absurd hpc hne.1
          · exact absurd hpc (hne.2 b)
      cases hpc : t.pc with
      | check | look =>
        rw [hpc] at hk
        exact .inl (old hk (by simp [hpc]))
      | known =>
        rw [hpc] at hk
        simp only [step] at hk ⊢
        cases hl : alookup s.caches.has (O.ty x) with
        | none => rw [hl] at hk; exact .inl (old hk (by simp [hpc]))
        | some b => rw [hl] at hk; exact .inl (old hk (by simp [hpc]))
      | recall =>
        rw [hpc] at hk
        simp only [step] at hk ⊢
        cases hl : alookup s.caches.takes (O.ty x) with
        | none => rw [hl] at hk; exact .inl (old hk (by simp [hpc]))
        | some b => rw [hl] at hk; exact .inl (old hk (by simp [hpc]))
      | storeHas b =>
        rw [hpc] at hk
        simp only [step, alookup_aset] at hk ⊢
        by_cases hkx : O.ty x = k
        · simp only [hkx, if_true, Option.some.injEq] at hk
          subst hk
          exact .inr ⟨_, x, xs, rfl, by simpa [advance] using htd, hkx, .inl rfl⟩
        · simp only [hkx, if_false] at hk
          exact .inl (old hk (by simp [hpc]))
      | spec =>
        rw [hpc] at hk
        simp only [step] at hk ⊢
        rcases h k hk with h1 | ⟨t', x', xs', ht', hx', hkx', _⟩
        · exact .inl h1
        · rw [hs] at ht'
          cases ht'
          rw [htd] at hx'
          cases hx'
          exact .inr ⟨_, x, xs, rfl, by simpa [advance] using htd, hkx', .inr ⟨_, rfl⟩⟩
      | storeTakes b =>
        rw [hpc] at hk
        simp only [step] at hk ⊢
        left
        rcases h k hk with ⟨b', h1⟩ | ⟨t', x', xs', ht', hx', hkx', _⟩
        · rw [alookup_aset]
          by_cases hkx : O.ty x = k
          · exact ⟨b, by simp [hkx]⟩
          · exact ⟨b', by simp [hkx, h1]⟩
        · rw [hs] at ht'
          cases ht'
          rw [htd] at hx'
          cases hx'
          exact ⟨b, by rw [alookup_aset]; simp [hkx']⟩

theorem completing_run {c : Caches T} (hw : WholeCaches c) (xs : List X) (sched : List Nat) :
    (∃ t : Thread X, (run O (begin c [xs]) sched).threads = [t]) ∧ Completing O (run O (begin c [xs]) sched) := by
  induction sched using List.reverseRecOn with
  | nil => exact ⟨⟨_, rfl⟩, fun k hk => .inl (hw k hk)⟩
  | append_singleton sched i ih =>
    have : run O (begin c [xs]) (sched ++ [i]) = tick O (run O (begin c [xs]) sched) i := by
      simp only [run, List.foldl_append, List.foldl_cons, List.foldl_nil]
    rw [this]
    obtain ⟨⟨t, ht⟩, hc⟩ := ih
    exact completing_tick ht hc i

/-! ## Every call ends -/

/-- Steps left in a call. -/
def Pc.left : Pc → Nat
  | .check => 6
  | .known => 5
  | .look => 4
  | .storeHas _ => 3
  | .spec => 2
  | .storeTakes _ => 1
  | .recall => 1

/-- Steps left in a thread, at most. -/
def Thread.left (t : Thread X) : Nat :=
  match t.todo with
  | [] => 0
  | _ :: xs => 6 * xs.length + t.pc.left

theorem advance_left (O : Objects X T) (c : Caches T) {t : Thread X} {x : X} {xs : List X} (h : t.todo = x :: xs) :
    (advance t xs (step O x c t.pc).1).left + 1 ≤ t.left := by
  have hend : ∀ r : Except Exc How, (advance t xs (.inr r)).left + 1 ≤ t.left := by
    intro r
    have hp : 1 ≤ t.pc.left := by cases t.pc <;> simp [Pc.left]
    simp only [advance, Thread.left, h]
    cases xs with
    | nil => simp only [List.length_nil]; omega
    | cons y ys =>
      show 6 * ys.length + 6 + 1 ≤ 6 * (ys.length + 1) + t.pc.left
      omega
  have hgo : ∀ pc : Pc, pc.left + 1 ≤ t.pc.left → (advance t xs (.inl pc)).left + 1 ≤ t.left := by
    intro pc hpc
    simp only [advance, Thread.left, h]
    omega
  cases hpc : t.pc with
  | check =>
    simp only [step]
    refine hgo _ ?_
    rw [hpc]; split <;> simp [Pc.left]
  | known =>
    simp only [step]
    split
    · exact hend _
    · refine hgo _ ?_
      rw [hpc]; split <;> simp [Pc.left]
  | recall => simp only [step]; split <;> exact hend _
  | look => exact hgo _ (by rw [hpc]; simp [Pc.left])
  | storeHas b =>
    cases b with
    | true => exact hgo _ (by rw [hpc]; simp [Pc.left])
    | false => exact hend _
  | spec => exact hgo _ (by rw [hpc]; simp [Pc.left])
  | storeTakes b => exact hend _

theorem tick_left (s : Sys X T) (i j : Nat) (t : Thread X) (h : s.threads[i]? = some t) :
    ∃ t' : Thread X, (tick O s j).threads[i]? = some t' ∧ t'.left + (if j = i then 1 else 0) ≤ max t.left (if j = i then 1 else 0) := by
  simp only [tick]
  by_cases hji : j = i
  · subst hji
    simp only [h, if_true]
    cases htd : t.todo with
    | nil =>
      simp only []
      refine ⟨t, h, ?_⟩
      simp [Thread.left, htd]
    | cons x xs =>
      simp only []
      have hlt : j < s.threads.length := by
        by_contra hge
        rw [List.getElem?_eq_none (by omega)] at h
        cases h
      refine ⟨_, by rw [List.getElem?_set_self hlt], ?_⟩
      have := advance_left O s.caches htd
      omega
  · simp only [hji, if_false]
    refine ⟨t, ?_, by simp⟩
    split
    · exact h
    · split
      · exact h
      · rw [List.getElem?_set_ne hji]; exact h

theorem run_left (s : Sys X T) (sched : List Nat) (i : Nat) (t : Thread X) (h : s.threads[i]? = some t) :
    ∃ t' : Thread X, (run O s sched).threads[i]? = some t' ∧ t'.left ≤ t.left - sched.count i := by
  induction sched generalizing s t with
  | nil => exact ⟨t, h, by simp⟩
  | cons j sched ih =>
    obtain ⟨t1, h1, hl1⟩ := tick_left (O := O) s i j t h
    obtain ⟨t2, h2, hl2⟩ := ih (tick O s j) t1 h1
    refine ⟨t2, h2, ?_⟩
    rw [List.count_cons]
    by_cases hji : j = i
    · subst hji
      simp only [if_true, beq_self_eq_true] at hl1 ⊢
      omega
    · have : (j == i) = false := by simpa using hji
      simp only [hji, if_false, this, Bool.false_eq_true] at hl1 ⊢
      omega

end Normalize.JsonThreads
