import Verif.Spec.CompleteMfs

/-!
# C142: the complete selector of a class
-/

namespace Normalize.CompleteMfs
open Spec (Hierarchy NoneMaking C142_statement)

variable {mro : Nat → List Nat}

/-- What a call may rely on. -/
def Ready (h : Heap) (c : Nat) : Pc → Prop
  | .test | .make => True
  | .store o => h.objs[o]? = some c
  | .read => ∃ o, h.own c = some o
  | .done r => ∃ o, r = some o ∧ h.objs[o]? = some c

/-- Selectors are kept with their own class. -/
def Kept (h : Heap) : Prop := ∀ c o, h.own c = some o → h.objs[o]? = some c

/-- What later steps do to the heap. -/
structure Later (h h' : Heap) : Prop where
  objs : ∀ (o c : Nat), h.objs[o]? = some c → h'.objs[o]? = some c
  own : ∀ c o, h.own c = some o → ∃ o', h'.own c = some o'

theorem Ready.later {h h' : Heap} {c : Nat} {pc : Pc} (l : Later h h') (hr : Ready h c pc) : Ready h' c pc := by
  cases pc with
  | test => trivial
  | make => trivial
  | store o => exact l.objs o c hr
  | read => obtain ⟨o, ho⟩ := hr; exact l.own c o ho
  | done r => obtain ⟨o, ho, h1⟩ := hr; exact ⟨o, ho, l.objs o c h1⟩

theorem attr_own {h : Heap} {c o : Nat} (H : Hierarchy mro) (ho : h.own c = some o) : attr mro h c = some o := by
  obtain ⟨rest, hr⟩ := H.first c
  simp [attr, hr, ho]

theorem attr_mem {h : Heap} {c o : Nat} (ha : attr mro h c = some o) : ∃ d ∈ mro c, h.own d = some o := by
  unfold attr at ha
  exact List.exists_of_findSome?_eq_some ha

/-- The test succeeds only if the class has a selector of its own. -/
theorem test_read {h : Heap} {c : Nat} (H : Hierarchy mro) (hk : Kept h) (ht : test mro h c = .read) : ∃ o, h.own c = some o := by
  unfold test at ht
  split at ht
  · next o ha =>
    split at ht
    · next hi =>
      obtain ⟨d, hd, ho⟩ := attr_mem ha
      have hobj := hk d o ho
      simp only [isInst, hobj, decide_eq_true_eq] at hi
      have := H.acyclic c d hd hi
      subst this
      exact ⟨o, ho⟩
    · cases ht
  · cases ht

theorem test_cases (mro : Nat → List Nat) (h : Heap) (c : Nat) : test mro h c = .read ∨ test mro h c = .make := by
  unfold test
  split
  · split
    · exact .inl rfl
    · exact .inr rfl
  · exact .inr rfl

theorem step_ok {h : Heap} {c : Nat} {pc : Pc} (H : Hierarchy mro) (hk : Kept h) (hr : Ready h c pc) :
    Kept (step mro c h pc).1 ∧ Later h (step mro c h pc).1 ∧ Ready (step mro c h pc).1 c (step mro c h pc).2 := by
  have hsame : Later h h := ⟨fun o c h => h, fun c o h => ⟨o, h⟩⟩
  cases pc with
  | test =>
    refine ⟨hk, hsame, ?_⟩
    show Ready h c (test mro h c)
    rcases test_cases mro h c with ht | ht
    · rw [ht]; exact test_read H hk ht
    · rw [ht]; trivial
  | make =>
    have hold : ∀ (o c' : Nat), h.objs[o]? = some c' → (h.objs ++ [c])[o]? = some c' := by
      intro o c' ho
      rw [List.getElem?_append_left (List.getElem?_eq_some_iff.mp ho).1]; exact ho
    refine ⟨fun c' o ho => hold o c' (hk c' o ho), ⟨hold, fun c' o ho => ⟨o, ho⟩⟩, ?_⟩
    show (h.objs ++ [c])[h.objs.length]? = some c
    simp
  | store o =>
    refine ⟨fun c' o' ho => ?_, ⟨fun o' c' ho => ho, fun c' o' ho => ?_⟩, ⟨o, by simp [step]⟩⟩
    · simp only [step] at ho ⊢
      split at ho
      · next he => cases ho; rw [he]; exact hr
      · exact hk c' o' ho
    · simp only [step]
      split
      · exact ⟨o, rfl⟩
      · exact ⟨o', ho⟩
  | read =>
    obtain ⟨o, ho⟩ := hr
    exact ⟨hk, hsame, ⟨o, attr_own H ho, hk c o ho⟩⟩
  | done r => exact ⟨hk, hsame, hr⟩

/-- Everything is as it should be. -/
def Fine (w : World) : Prop := Kept w.1 ∧ ∀ x ∈ w.2, Ready w.1 x.1 x.2

theorem turn_fine (H : Hierarchy mro) {w : World} (hw : Fine w) (t : Nat) : Fine (turn mro w t) := by
  unfold turn
  split
  · exact hw
  · next c pc ht =>
    obtain ⟨h1, h2, h3⟩ := step_ok H hw.1 (hw.2 (c, pc) (List.mem_of_getElem? ht))
    refine ⟨h1, fun x hx => ?_⟩
    rcases List.mem_or_eq_of_mem_set hx with hx | rfl
    · exact (hw.2 x hx).later h2
    · exact h3

theorem run_fine (H : Hierarchy mro) : ∀ (ts : List Nat) {w : World}, Fine w → Fine (run mro w ts) := by
  intro ts
  induction ts with
  | nil => intro w hw; exact hw
  | cons t ts ih => intro w hw; exact ih (turn_fine H hw t)

theorem init_fine (cs : List Nat) : Fine (init cs) := by
  refine And.intro (fun c o (h : none = some o) => nomatch h) (fun x hx => ?_)
  obtain ⟨c, _, rfl⟩ := List.mem_map.mp hx
  trivial

/-! ## C142 -/

/-- C142, the class: whatever the schedule, a call returns a selector whose class is the one it was called on, and never
that of a base class or derived class. -/
theorem C142_class_partial (H : Hierarchy mro) {cs ts : List Nat} {c : Nat} {r : Option Nat}
    (h : (c, Pc.done r) ∈ (run mro (init cs) ts).2) : ∃ o, r = some o ∧ (run mro (init cs) ts).1.objs[o]? = some c :=
  (run_fine H ts (init_fine cs)).2 _ h

/-- The class keeps its selector, and calls that are not done will return it. -/
def Settled (c o : Nat) (w : World) : Prop :=
  w.1.own c = some o ∧ NoneMaking w c

theorem turn_settled (H : Hierarchy mro) {w : World} {c o : Nat} (hw : Fine w) (hs : Settled c o w) (t : Nat) :
    Settled c o (turn mro w t) ∧ ∀ r, (c, Pc.done r) ∈ (turn mro w t).2 → (c, Pc.done r) ∈ w.2 ∨ r = some o := by
  unfold turn
  split
  · exact ⟨hs, fun r hr => .inl hr⟩
  · next c' pc ht =>
    have hmem := List.mem_of_getElem? ht
    by_cases hc : c' = c
    · subst hc
      have htest : test mro w.1 c' = .read := by
        obtain ⟨rest, hr⟩ := H.first c'
        have : c' ∈ mro c' := by rw [hr]; exact List.mem_cons_self
        simp [test, attr_own H hs.1, isInst, hw.1 c' o hs.1, this]
      rcases hs.2 (c', pc) hmem rfl with h1 | h1 | ⟨r0, h1⟩
      · dsimp only at h1; subst h1
        refine ⟨⟨hs.1, fun x hx he => ?_⟩, fun r hr => ?_⟩
        · rcases List.mem_or_eq_of_mem_set hx with hx | rfl
          · exact hs.2 x hx he
          · exact .inr (.inl htest)
        · rcases List.mem_or_eq_of_mem_set hr with hr | hr
          · exact .inl hr
          · simp only [step, htest] at hr
            cases hr
      · dsimp only at h1; subst h1
        refine ⟨⟨hs.1, fun x hx he => ?_⟩, fun r hr => ?_⟩
        · rcases List.mem_or_eq_of_mem_set hx with hx | rfl
          · exact hs.2 x hx he
          · exact .inr (.inr ⟨_, rfl⟩)
        · rcases List.mem_or_eq_of_mem_set hr with hr | hr
          · exact .inl hr
          · simp only [step, attr_own H hs.1] at hr
            cases hr; exact .inr rfl
      · dsimp only at h1; subst h1
        refine ⟨⟨hs.1, fun x hx he => ?_⟩, fun r hr => ?_⟩
        · rcases List.mem_or_eq_of_mem_set hx with hx | rfl
          · exact hs.2 x hx he
          · exact .inr (.inr ⟨_, rfl⟩)
        · rcases List.mem_or_eq_of_mem_set hr with hr | hr
          · exact .inl hr
          · simp only [step] at hr
            cases hr; exact .inl hmem
    · refine ⟨⟨?_, fun x hx he => ?_⟩, fun r hr => ?_⟩
      · cases pc with
        | store o' =>
          simp only [step]
          rw [if_neg (fun h => hc h.symm)]
          exact hs.1
        | test => exact hs.1
        | make => exact hs.1
        | read => exact hs.1
        | done r => exact hs.1
      · rcases List.mem_or_eq_of_mem_set hx with hx | rfl
        · exact hs.2 x hx he
        · exact absurd he hc
      · rcases List.mem_or_eq_of_mem_set hr with hr | hr
        · exact .inl hr
        · exact absurd (congrArg (·.1) hr).symm hc

theorem run_settled (H : Hierarchy mro) {c o : Nat} : ∀ (ts : List Nat) {w : World}, Fine w → Settled c o w →
    Settled c o (run mro w ts) ∧ ∀ r, (c, Pc.done r) ∈ (run mro w ts).2 → (c, Pc.done r) ∈ w.2 ∨ r = some o := by
  intro ts
  induction ts with
  | nil => intro w _ hs; exact ⟨hs, fun r hr => .inl hr⟩
  | cons t ts ih =>
    intro w hw hs
    obtain ⟨h1, h2⟩ := turn_settled H hw hs t
    obtain ⟨h3, h4⟩ := ih (turn_fine H hw t) h1
    exact ⟨h3, fun r hr => (h4 r hr).elim (h2 r) .inr⟩

/-- C142, one selector: once a class keeps a selector and no call on it is between the test and the assignment, all calls
that return later return that selector, whatever other calls, on whatever classes, go on. -/
theorem C142_same_partial (H : Hierarchy mro) {cs ts ts' : List Nat} {c o : Nat} {r : Option Nat}
    (ho : (run mro (init cs) ts).1.own c = some o) (hn : NoneMaking (run mro (init cs) ts) c)
    (hr : (c, Pc.done r) ∈ (run mro (init cs) (ts ++ ts')).2) :
    (c, Pc.done r) ∈ (run mro (init cs) ts).2 ∨ r = some o := by
  have : run mro (init cs) (ts ++ ts') = run mro (run mro (init cs) ts) ts' := by unfold run; rw [List.foldl_append]
  rw [this] at hr
  exact (run_settled H ts' (run_fine H ts (init_fine cs)) ⟨ho, hn⟩).2 r hr

/-- The classes are derived from the first one, `MultiFieldSelector`. -/
def exMro : Nat → List Nat := fun c => if c = 0 then [0] else [c, 0]

theorem exMro_hierarchy : Hierarchy exMro where
  first c := by
    unfold exMro
    split
    · next h => subst h; exact ⟨[], rfl⟩
    · exact ⟨[0], rfl⟩
  acyclic c d h1 h2 := by
    unfold exMro at h1 h2
    split at h1 <;> split at h2 <;> simp at h1 h2 <;> omega

/-- C142 is violated: two threads find nothing, and each makes a selector. -/
theorem C142_violated : ¬ C142_statement := by
  intro h
  have := (h exMro [0, 0] [0, 1, 0, 0, 0, 1, 1, 1] exMro_hierarchy).2 0 (some 0) (some 1) (by decide +kernel) (by decide +kernel)
  cases this

/-- One after the other: the class, a derived class, and both again. -/
example : (run exMro (init [0, 1, 0, 1]) [0, 0, 0, 0, 1, 1, 1, 1, 2, 2, 3, 3]).2 =
    [(0, .done (some 0)), (1, .done (some 1)), (0, .done (some 0)), (1, .done (some 1))] := by decide +kernel

/-- `C142_same_partial` applies after the first four steps. -/
example : (run exMro (init [0, 1, 0]) [0, 0, 0, 0]).1.own 0 = some 0 ∧
    ∀ x ∈ (run exMro (init [0, 1, 0]) [0, 0, 0, 0]).2, x.1 = 0 → x.2 = .test ∨ x.2 = .read ∨ x.2 = .done (some 0) := by
  decide +kernel

end Normalize.CompleteMfs
