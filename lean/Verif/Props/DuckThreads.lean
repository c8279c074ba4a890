import Verif.Spec.DuckThreads

/-!
# C141: declaring a property while other threads declare property types
-/

namespace Normalize.DuckThreads
open Spec (NewTypeWith Candidates C141_statement)

variable {fits : Nat → Bool} {arg : String}

theorem add_length (d : Duck) (a : String) (e : Entry) (i : Nat) :
    (add d a e i) arg = d arg ∨ (a = arg ∧ e ∉ d arg ∧ ((add d a e i) arg).length = (d arg).length + 1) := by
  unfold add
  by_cases he : e ∈ d a
  · rw [if_pos he]; exact .inl rfl
  · rw [if_neg he]
    by_cases ha : arg = a
    · subst ha
      refine .inr ⟨rfl, he, ?_⟩
      simp only [if_true, List.length_append, List.length_cons, List.length_take, List.length_drop]
      omega
    · rw [if_neg ha]; exact .inl rfl

/-- The loop has seen the first `n` of the members that there were at the start, if none was added. -/
def Inv (fits : Nat → Bool) (arg : String) (d0 d : Duck) : Pc → Prop
  | .start => False
  | .loop size n found =>
    size = (d0 arg).length ∧ (d arg = d0 arg ∨ (d0 arg).length < (d arg).length) ∧
      found = ((d0 arg).take n).filter (fun e => fits e.2)
  | .done found => found = Candidates fits arg d0
  | .raised => True

theorem inv_step {d0 d : Duck} {pc : Pc} (h : Inv fits arg d0 d pc) : Inv fits arg d0 d (step fits arg d pc) := by
  cases pc with
  | start => exact h.elim
  | done found => exact h
  | raised => trivial
  | loop size n found =>
    obtain ⟨h1, h2, h3⟩ := h
    simp only [step]
    split
    · trivial
    · next hlen =>
      have hd : d arg = d0 arg := by
        rcases h2 with h2 | h2
        · exact h2
        · exact absurd (by omega) hlen
      rw [hd]
      split
      · next hn =>
        have : (d0 arg).length ≤ n := by simpa using hn
        rw [List.take_of_length_le this] at h3
        exact h3
      · next e he =>
        refine ⟨h1, .inl hd, ?_⟩
        rw [List.take_add_one, he, List.filter_append, ← h3]
        by_cases hf : fits e.2 = true
        · simp [hf]
        · simp [hf]

theorem inv_add {d0 d : Duck} {pc : Pc} (h : Inv fits arg d0 d pc) (a : String) (e : Entry) (i : Nat) :
    Inv fits arg d0 (add d a e i) pc := by
  cases pc with
  | start => exact h.elim
  | done found => exact h
  | raised => trivial
  | loop size n found =>
    obtain ⟨h1, h2, h3⟩ := h
    refine ⟨h1, ?_, h3⟩
    rcases add_length (arg := arg) d a e i with h4 | ⟨_, _, h4⟩
    · rw [h4]; exact h2
    · refine .inr ?_
      rcases h2 with h2 | h2
      · rw [h4, h2]; omega
      · omega

theorem inv_run {d0 : Duck} : ∀ (evs : List Ev) (d : Duck) (pc : Pc), Inv fits arg d0 d pc →
    Inv fits arg d0 (run fits arg (d, pc) evs).1 (run fits arg (d, pc) evs).2 := by
  intro evs
  induction evs with
  | nil => intro d pc h; exact h
  | cons ev evs ih =>
    intro d pc h
    cases ev with
    | go => exact ih d _ (inv_step h)
    | add a e i => exact ih _ pc (inv_add h a e i)

/-! ## C141 -/

/-- C141, what is found: if the loop comes to its end, the thread has found the types that there were when it began,
whatever other threads did. -/
theorem C141_found_partial {d : Duck} {evs : List Ev} {found : List Entry}
    (h : (run fits arg (d, .start) (.go :: evs)).2 = .done found) : found = Candidates fits arg d := by
  have hi : Inv fits arg d d (.loop (d arg).length 0 []) := ⟨rfl, .inl rfl, rfl⟩
  have := inv_run evs d _ hi
  have h' : (run fits arg (d, .loop (d arg).length 0 []) evs).2 = .done found := h
  rw [h'] at this
  exact this

theorem raised_run {pc : Pc} : ∀ (evs : List Ev) (d : Duck), pc ≠ .raised →
    (∀ s size n, pc = .loop size n s → (d arg).length = size) →
    (run fits arg (d, pc) evs).2 = .raised →
    ∃ pre ev post, evs = pre ++ ev :: post ∧ NewTypeWith (run fits arg (d, pc) pre).1 arg ev ∧
      (run fits arg (d, pc) pre).2 ≠ .raised := by
  intro evs
  induction evs generalizing pc with
  | nil => intro d hp _ h; exact (hp h).elim
  | cons ev evs ih =>
    intro d hp hl h
    cases ev with
    | go =>
      have hp' : step fits arg d pc ≠ .raised := by
        cases pc with
        | start => exact fun h => nomatch h
        | done f => exact fun h => nomatch h
        | raised => exact (hp rfl).elim
        | loop size n f =>
          simp only [step]
          rw [if_neg (by simpa using hl f size n rfl)]
          split
          · exact fun h => nomatch h
          · exact fun h => nomatch h
      have hl' : ∀ s size n, step fits arg d pc = .loop size n s → (d arg).length = size := by
        intro s size n hs
        cases pc with
        | start => cases hs; rfl
        | done f => cases hs
        | raised => exact (hp rfl).elim
        | loop size' n' f =>
          have hsz := hl f size' n' rfl
          simp only [step] at hs
          rw [if_neg (by simpa using hsz)] at hs
          split at hs
          · cases hs
          · cases hs; exact hsz
      obtain ⟨pre, ev, post, h1, h2, h3⟩ := ih d hp' hl' h
      exact ⟨.go :: pre, ev, post, by rw [h1]; rfl, h2, h3⟩
    | add a e i =>
      rcases add_length (arg := arg) d a e i with h4 | ⟨rfl, h5, _⟩
      · obtain ⟨pre, ev, post, h1, h2, h3⟩ := ih (add d a e i) hp (fun s size n hs => by rw [h4]; exact hl s size n hs) h
        exact ⟨.add a e i :: pre, ev, post, by rw [h1]; rfl, h2, h3⟩
      · exact ⟨[], .add a e i, evs, rfl, ⟨e, i, rfl, h5⟩, hp⟩

/-- C141, the exception: it is raised only if another thread made, meanwhile, a new type that has the argument. -/
theorem C141_partial {d : Duck} {evs : List Ev} (h : (run fits arg (d, .start) (.go :: evs)).2 = .raised) :
    ∃ pre ev post, evs = pre ++ ev :: post ∧ NewTypeWith (run fits arg (d, .start) (.go :: pre)).1 arg ev ∧
      (run fits arg (d, .start) (.go :: pre)).2 ≠ .raised :=
  raised_run (pc := .loop (d arg).length 0 []) evs d (fun h => nomatch h) (fun s size n hs => by cases hs; rfl) h

/-- And if one did, while the loop was going on, then the exception is raised with the next step, wherever the new
type was put in the set. -/
theorem C141_raises {d : Duck} {pre : List Ev} {e : Entry} {i size n : Nat} {s : List Entry}
    (h : (run fits arg (d, .start) (.go :: pre)).2 = .loop size n s) (hn : e ∉ (run fits arg (d, .start) (.go :: pre)).1 arg) :
    (run fits arg (d, .start) (.go :: pre ++ [.add arg e i, .go])).2 = .raised := by
  have hi : Inv fits arg d d (.loop (d arg).length 0 []) := ⟨rfl, .inl rfl, rfl⟩
  have hinv := inv_run pre d _ hi
  have hrun : run fits arg (d, .start) (.go :: pre) = run fits arg (d, .loop (d arg).length 0 []) pre := rfl
  rw [← hrun, h] at hinv
  obtain ⟨h1, h2, _⟩ := hinv
  have happ : run fits arg (d, .start) (.go :: pre ++ [.add arg e i, .go]) =
      run fits arg (run fits arg (d, .start) (.go :: pre)) [.add arg e i, .go] := by
    unfold run; rw [List.foldl_append]
  rw [happ]
  generalize run fits arg (d, .start) (.go :: pre) = st at *
  obtain ⟨d', pc⟩ := st
  dsimp only at h hn h2
  subst h
  rcases add_length (arg := arg) d' arg e i with h4 | ⟨_, _, h4⟩
  · exfalso
    apply hn
    rw [← h4]
    simp [add, hn]
  · have hne : ((add d' arg e i) arg).length ≠ size := by
      rcases h2 with h2 | h2
      · rw [h4, h2]; omega
      · omega
    have hst : step fits arg (add d' arg e i) (.loop size n s) = .raised := by
      simp only [step]
      split
      · rfl
      · next hc => exact absurd hne hc
    exact hst

/-- Two types have the argument. -/
def exDuck : Duck := fun a => if a = "json_name" then [(["json"], 8), (["json", "safe"], 9)] else []

/-- C141 is violated: a third is made between two rounds. -/
theorem C141_violated : ¬ C141_statement := by
  intro h
  exact (h (fun _ => true) "json_name" exDuck [.go, .add "json_name" (["json2"], 12) 0, .go]).1 (by decide +kernel)

/-- Types with other arguments may be made, and a type that has the argument after the loop. -/
example : (run (fun i => decide (i = 8)) "json_name" (exDuck, .start)
    [.go, .go, .add "lazy" (["lazy2"], 12) 0, .go, .go, .add "json_name" (["json2"], 13) 0, .go]).2 = .done [(["json"], 8)] := by
  decide +kernel

/-- Even after the last round it is too early. -/
example : (run (fun _ => true) "json_name" (exDuck, .start) [.go, .go, .go, .add "json_name" (["json2"], 13) 1, .go]).2 = .raised := by
  decide +kernel

end Normalize.DuckThreads
