import Verif.Lemmas.JsonThreads

/-!
# C104: marshalling to JSON by several threads
-/

namespace Normalize.JsonThreads

open Normalize.Spec

variable {X T : Type} [DecidableEq T] {O : Objects X T}

/-- **C104**, the full claim: however threads interleave, every object is marshalled by its own `json_data` method if it
has one, with `extraneous` passed if the method takes it. -/
def C104_statement : Prop :=
  ∀ (O : Objects Nat Nat) (calls : List (List Nat)) (sched : List Nat) (i : Nat) (t : Thread Nat) (xs : List Nat),
    UniformTypes O → (run O (begin fresh calls) sched).threads[i]? = some t → calls[i]? = some xs →
    DoneSoFar (fun (x : Nat) (r : Except Exc How) => r = .ok (rightWay O x)) xs t

/-- Objects that all have a `json_data` method that takes `extraneous`, as records of subclasses of `JsonRecord` have. -/
def jsonRecords : Objects Nat Nat := ⟨fun _ => 0, fun _ => true, fun _ => true⟩

theorem jsonRecords_uniform : UniformTypes jsonRecords := fun _ _ _ => ⟨rfl, rfl⟩

/-- The second thread looks when the first has filled one cache but not yet the other. -/
def halfKnown : List Nat := [0, 0, 0, 1, 1, 1]

/-- If two threads marshal the first objects of a type at the same time, one may get `KeyError`. -/
theorem C104_race : (run jsonRecords (begin fresh [[5], [7]]) halfKnown).threads[1]? =
    some ⟨[], .check, [.error .keyError]⟩ := by with_unfolding_all rfl

theorem C104_violated : ¬ C104_statement := by
  intro h
  obtain ⟨done, hd, hf⟩ := h jsonRecords [[5], [7]] halfKnown 1 _ [7] jsonRecords_uniform C104_race rfl
  simp only [List.append_nil] at hd
  subst hd
  cases hf with
  | cons h1 _ => cases h1

/-- The claim for one thread, and objects of one type that need not have the same methods. -/
def C104_types_statement : Prop :=
  ∀ (O : Objects Nat Nat) (xs : List Nat) (sched : List Nat) (t : Thread Nat),
    (run O (begin fresh [xs]) sched).threads[0]? = some t →
    DoneSoFar (fun (x : Nat) (r : Except Exc How) => r = .ok (rightWay O x)) xs t

/-- Objects of one type of which those above 5 have an attribute `json_data` that is a function. -/
def someHave : Objects Nat Nat := ⟨fun _ => 0, fun x => decide (5 < x), fun _ => false⟩

/-- The answer for the first object that has the method is used for all objects of its type. -/
theorem C104_types_violated : ¬ C104_types_statement := by
  intro h
  have hr : (run someHave (begin fresh [[7, 3]]) [0, 0, 0, 0, 0, 0, 0, 0]).threads[0]? =
    some ⟨[], .check, [.ok .noFlag, .ok .noFlag]⟩ := by with_unfolding_all rfl
  obtain ⟨done, hd, hf⟩ := h someHave [7, 3] [0, 0, 0, 0, 0, 0, 0, 0] _ hr
  simp only [List.append_nil] at hd
  subst hd
  cases hf with
  | cons h1 hf =>
    cases hf with
    | cons h2 _ => exact absurd h2 (by decide)

/-- **C104**: under every schedule of any number of threads, every object is marshalled as it should be, or `KeyError` is
raised; this needs an object with a `json_data` method of whose type the second cache had no entry at the start. -/
theorem C104_partial (hu : UniformTypes O) (c : Caches T) (hc : TrueCaches O c) (calls : List (List X))
    (sched : List Nat) (i : Nat) (t : Thread X) (xs : List X)
    (ht : (run O (begin c calls) sched).threads[i]? = some t) (hx : calls[i]? = some xs) :
    DoneSoFar (fun (x : X) (r : Except Exc How) => r = .ok (rightWay O x) ∨
      (r = .error .keyError ∧ O.has x = true ∧ alookup c.takes (O.ty x) = none)) xs t := by
  have g := good_run hu c hc calls (fun (x : X) (r : Except Exc How) => r = .ok (rightWay O x) ∨
      (r = .error .keyError ∧ O.has x = true ∧ alookup c.takes (O.ty x) = none)) (fun x => .inl rfl)
    (fun sched i t x xs g ht htd hpc hn hh => .inr ⟨rfl, hh, by
      cases h : alookup c.takes (O.ty x) with
      | none => rfl
      | some b =>
        obtain ⟨b', hb'⟩ := run_takes_mono (O := O) (s := begin c calls) sched (k := O.ty x) ⟨b, h⟩
        rw [hn] at hb'
        cases hb'⟩) sched
  obtain ⟨xs', hx', hd⟩ := g.done i t ht
  rw [hx] at hx'
  cases hx'
  exact hd

/-- **C104**: once an object of each type with the method has been marshalled, nothing goes wrong under any schedule. -/
theorem C104_warm (hu : UniformTypes O) (c : Caches T) (hc : TrueCaches O c)
    (hw : ∀ x : X, O.has x = true → ∃ b : Bool, alookup c.takes (O.ty x) = some b) (calls : List (List X))
    (sched : List Nat) (i : Nat) (t : Thread X) (xs : List X)
    (ht : (run O (begin c calls) sched).threads[i]? = some t) (hx : calls[i]? = some xs) :
    DoneSoFar (fun (x : X) (r : Except Exc How) => r = .ok (rightWay O x)) xs t := by
  obtain ⟨done, hd, hf⟩ := C104_partial hu c hc calls sched i t xs ht hx
  refine ⟨done, hd, hf.imp (fun x r h => ?_)⟩
  rcases h with h | ⟨_, hh, hn⟩
  · exact h
  · obtain ⟨b, hb⟩ := hw x hh
    rw [hn] at hb
    cases hb

/-- **C104**: a thread on its own marshals every object as it should. -/
theorem C104_alone (hu : UniformTypes O) (c : Caches T) (hc : TrueCaches O c) (hw : WholeCaches c) (xs : List X)
    (sched : List Nat) (t : Thread X) (ht : (run O (begin c [xs]) sched).threads[0]? = some t) :
    DoneSoFar (fun (x : X) (r : Except Exc How) => r = .ok (rightWay O x)) xs t := by
  have g := good_run hu c hc [xs] (fun (x : X) (r : Except Exc How) => r = .ok (rightWay O x)) (fun x => rfl)
    (fun sched i t x ys g ht htd hpc hn hh => by
      exfalso
      have hp := g.pcs i t ht x ys htd
      rw [hpc] at hp
      obtain ⟨-, b, hb⟩ := hp
      have hb' := (g.caches x b).1 hb
      rw [hh] at hb'
      subst hb'
      obtain ⟨⟨t', h1⟩, h2⟩ := completing_run (O := O) hw xs sched
      rw [h1] at ht
      have : t' = t := by
        cases i with
        | zero => cases ht; rfl
        | succ i => cases ht
      subst this
      rcases h2 _ hb with ⟨b', h3⟩ | ⟨t'', x', xs', h3, -, -, h4⟩
      · rw [hn] at h3; cases h3
      · rw [h1] at h3
        cases h3
        rcases h4 with h4 | ⟨b', h4⟩
        · rw [hpc] at h4; cases h4
        · rw [hpc] at h4; cases h4) sched
  obtain ⟨xs', hx', hd⟩ := g.done 0 t ht
  cases hx'
  exact hd

/-- **C104**: afterwards the caches tell the truth, and if the thread has marshalled all its objects, no type is half
known, so that the same holds for what is marshalled next. -/
theorem C104_leaves (hu : UniformTypes O) (c : Caches T) (hc : TrueCaches O c) (hw : WholeCaches c) (xs : List X)
    (sched : List Nat) (t : Thread X) (ht : (run O (begin c [xs]) sched).threads[0]? = some t) (hd : t.todo = []) :
    TrueCaches O (run O (begin c [xs]) sched).caches ∧ WholeCaches (run O (begin c [xs]) sched).caches := by
  have g := good_run hu c hc [xs] (fun (_ : X) (_ : Except Exc How) => True) (fun _ => trivial)
    (fun _ _ _ _ _ _ _ _ _ _ _ => trivial) sched
  refine ⟨g.caches, fun k hk => ?_⟩
  obtain ⟨⟨t', h1⟩, h2⟩ := completing_run (O := O) hw xs sched
  rw [h1] at ht
  cases ht
  rcases h2 k hk with h3 | ⟨t'', x', xs', h3, h4, -⟩
  · exact h3
  · rw [h1] at h3
    cases h3
    rw [hd] at h4
    cases h4

/-- **C104**: no call waits for another thread: a thread that takes six steps for each object has marshalled all. -/
theorem C104_ends (c : Caches T) (calls : List (List X)) (sched : List Nat) (i : Nat) (xs : List X)
    (hx : calls[i]? = some xs) (hs : 6 * xs.length ≤ sched.count i) :
    ∃ t : Thread X, (run O (begin c calls) sched).threads[i]? = some t ∧ t.todo = [] := by
  have h0 : (begin c calls).threads[i]? = some ⟨xs, .check, []⟩ := by simp [begin, hx]
  obtain ⟨t, ht, hl⟩ := run_left (O := O) (begin c calls) sched i _ h0
  refine ⟨t, ht, ?_⟩
  have h1 : (Thread.left (⟨xs, .check, []⟩ : Thread X)) ≤ 6 * xs.length := by
    cases xs with
    | nil => simp [Thread.left]
    | cons x xs => simp only [Thread.left, Pc.left, List.length_cons]; omega
  have h2 : t.left = 0 := by omega
  cases htd : t.todo with
  | nil => rfl
  | cons y ys =>
    exfalso
    simp only [Thread.left, htd] at h2
    have : 1 ≤ t.pc.left := by cases t.pc <;> simp [Pc.left]
    omega

/-- The caches of the module just imported are true and whole. -/
example (O : Objects Nat Nat) : TrueCaches O fresh ∧ WholeCaches (fresh : Caches Nat) := by
  refine ⟨fun x b => ⟨fun h => ?_, fun h => ?_⟩, fun k h => ?_⟩ <;> simp [fresh, alookup] at h

/-- A thread that marshals two objects of a type with the method, and what the caches are then. -/
example : (run jsonRecords (begin fresh [[5, 7]]) (List.replicate 10 0)) =
    ⟨⟨[(0, true)], [(0, true)]⟩, [⟨[], .check, [.ok .withFlag, .ok .withFlag]⟩]⟩ := by with_unfolding_all rfl

/-- Caches in which nothing goes wrong any more. -/
example : ∀ x : Nat, jsonRecords.has x = true → ∃ b : Bool, alookup [(0, true)] (jsonRecords.ty x) = some b :=
  fun _ _ => ⟨true, rfl⟩

end Normalize.JsonThreads
