import Verif.Lemmas.EmptyThreads

/-!
# C105: placeholders under threads
-/

namespace Normalize.EmptyThreads

open Normalize.Empty Normalize.Spec

variable {W : World} {h : Heap}

/-- **C105**, the full claim about objects: each tuple of types has a single placeholder, so that two threads that come
to the same types come to the same object. -/
def C105_single_statement : Prop :=
  ∀ (W : World) (h : Heap) (cs : List (Nat × List Op)) (sched : List Nat) (i j : Nat) (a b : Thread) (t : Types),
    Reached W h → (∀ c ∈ cs, ∃ t : Types, IsFor h c.1 t) →
    (run W (begin h cs) sched).threads[i]? = some a → (run W (begin h cs) sched).threads[j]? = some b →
    a.todo = [] → b.todo = [] → IsFor (run W (begin h cs) sched).heap a.obj t →
    IsFor (run W (begin h cs) sched).heap b.obj t → a.obj = b.obj

/-- Both threads find no placeholder and make one. -/
def bothMake : List Nat := [0, 1, 0, 1, 0, 1, 0, 0, 0, 0, 1, 1, 1, 1]

/-- A class with a property of another class. -/
def exClasses : World :=
  ⟨fun c => [c], fun c nm => if c = "Blog" ∧ nm = "author" then some (.typed (.one (.ty "Person"))) else none,
    fun _ => none⟩

/-- A placeholder for the class. -/
def exStart : Heap := (placeholder {} [.ty "Blog"]).2

theorem C105_single_violated : ¬ C105_single_statement := by
  intro hs
  have := hs exClasses exStart [(0, [.attr "author"]), (0, [.attr "author"])] bothMake 0 1
    ⟨1, [], .start, none⟩ ⟨2, [], .start, none⟩ (.tuple [.ty "Person"]) (.placeholder .init)
    (by
      intro c hc
      simp only [List.mem_cons, List.not_mem_nil, or_false] at hc
      rcases hc with rfl | rfl <;> exact ⟨.tuple [.ty "Blog"], _, rfl, by decide⟩)
    (by with_unfolding_all rfl) (by with_unfolding_all rfl) rfl rfl
    ⟨⟨.tuple [.ty "Person"], [], none⟩, by with_unfolding_all rfl, rfl⟩
    ⟨⟨.tuple [.ty "Person"], [], none⟩, by with_unfolding_all rfl, rfl⟩
  exact absurd this (by decide)

theorem begin_ok (hr : Reached W h) (cs : List (Nat × Types × List Op)) (hc : ∀ c ∈ cs, IsFor h c.1 c.2.1) :
    SysOk W (cs.map (·.2)) (begin h (cs.map (fun c => (c.1, c.2.2)))) := by
  refine ⟨reached_heapOk hr, fun i th hi => ?_⟩
  simp only [begin, List.getElem?_map, Option.map_map, Option.map_eq_some_iff] at hi
  obtain ⟨c, hci, rfl⟩ := hi
  refine ⟨c.2, by simp [hci], ⟨[], c.2.1, rfl, rfl, hc c (List.mem_of_getElem? hci), fun _ _ _ _ => trivial, ?_⟩⟩
  intro e he
  cases he

/-- The types of each placeholder the threads start with. -/
theorem with_types (cs : List (Nat × List Op)) (hc : ∀ c ∈ cs, ∃ t : Types, IsFor h c.1 t) :
    ∃ ds : List (Nat × Types × List Op), cs = ds.map (fun d => (d.1, d.2.2)) ∧ ∀ d ∈ ds, IsFor h d.1 d.2.1 := by
  induction cs with
  | nil => exact ⟨[], rfl, by simp⟩
  | cons c cs ih =>
    obtain ⟨t, ht⟩ := hc c (by simp)
    obtain ⟨ds, h1, h2⟩ := ih (fun c' hc' => hc c' (List.mem_cons_of_mem _ hc'))
    refine ⟨(c.1, t, c.2) :: ds, by simp [h1], fun d hd => ?_⟩
    rcases List.mem_cons.1 hd with rfl | hd
    · exact ht
    · exact h2 d hd

theorem thread_ok (hr : Reached W h) (cs : List (Nat × List Op)) (hc : ∀ c ∈ cs, ∃ t : Types, IsFor h c.1 t)
    (sched : List Nat) (i : Nat) (c : Nat × List Op) (th : Thread) (hi : cs[i]? = some c)
    (ht : (run W (begin h cs) sched).threads[i]? = some th) :
    ∃ t : Types, IsFor h c.1 t ∧ ThreadOk W (run W (begin h cs) sched).heap t c.2 th := by
  obtain ⟨ds, rfl, hd⟩ := with_types cs hc
  have hs := sysOk_run (begin_ok hr ds hd) sched
  obtain ⟨c', hc', hth⟩ := hs.threads i th ht
  simp only [List.getElem?_map, Option.map_eq_some_iff] at hi hc'
  obtain ⟨d, hdi, rfl⟩ := hi
  obtain ⟨d', hdi', rfl⟩ := hc'
  rw [hdi] at hdi'
  cases hdi'
  exact ⟨d.2.1, hd d (List.mem_of_getElem? hdi), hth⟩

/-- **C105**: under every schedule of any number of threads, a thread whose chain of operations ends comes to a
placeholder for the types it would come to on its own. -/
theorem C105_types (hr : Reached W h) (cs : List (Nat × List Op)) (hc : ∀ c ∈ cs, ∃ t : Types, IsFor h c.1 t)
    (sched : List Nat) (i : Nat) (c : Nat × List Op) (th : Thread) (hi : cs[i]? = some c)
    (ht : (run W (begin h cs) sched).threads[i]? = some th) (hf : th.failed = none) (hd : th.todo = []) :
    ∃ (j : Nat) (h' : Heap) (t : Types), chain W h c.1 c.2 = .ok (j, h') ∧ IsFor h' j t ∧
      IsFor (run W (begin h cs) sched).heap th.obj t := by
  obtain ⟨t, hit, ⟨done, t', h1, h2, h3, -⟩⟩ := thread_ok hr cs hc sched i c th hi ht
  rw [hd, List.append_nil] at h1
  subst h1
  obtain ⟨j, h', h4, h5⟩ := (chain_nextAll hr hit c.2).2 t' h2
  exact ⟨j, h', t', h4, h5, h3⟩

/-- **C105**: and a thread that ends with an exception ends with the one it would end with on its own. -/
theorem C105_raises (hr : Reached W h) (cs : List (Nat × List Op)) (hc : ∀ c ∈ cs, ∃ t : Types, IsFor h c.1 t)
    (sched : List Nat) (i : Nat) (c : Nat × List Op) (th : Thread) (e : EErr) (hi : cs[i]? = some c)
    (ht : (run W (begin h cs) sched).threads[i]? = some th) (hf : th.failed = some e) :
    chain W h c.1 c.2 = .error e := by
  obtain ⟨t, hit, ⟨done, t', h1, h2, h3, -, h5⟩⟩ := thread_ok hr cs hc sched i c th hi ht
  obtain ⟨op, rest, h6, h7⟩ := h5 e hf
  refine (chain_nextAll hr hit c.2).1 e ?_
  rw [h1, h6, nextAll_append, h2]
  simp only [nextAll, h7]

/-- **C105**: types that have a placeholder before the threads start keep it, and get no other. -/
theorem C105_single_partial (hr : Reached W h) (cs : List (Nat × List Op)) (sched : List Nat) (t : Types) (i j : Nat)
    (hi : IsFor h i t) (hj : IsFor (run W (begin h cs) sched).heap j t) : j = i := by
  have hg := reached_good hr
  have h0 : One t i (begin h cs) := by
    refine ⟨hg.objs t i hi, fun k hk => C58_single hr hk hi, fun k th hk => ?_⟩
    simp only [begin, List.getElem?_map, Option.map_eq_some_iff] at hk
    obtain ⟨c, -, rfl⟩ := hk
    exact ⟨by simp, by simp⟩
  exact (one_run h0 sched).only j hj

/-- **C105**: no placeholder ever changes its types. -/
theorem C105_kept (hr : Reached W h) (cs : List (Nat × List Op)) (hc : ∀ c ∈ cs, ∃ t : Types, IsFor h c.1 t)
    (sched : List Nat) (i : Nat) (t : Types) (hi : IsFor h i t) : IsFor (run W (begin h cs) sched).heap i t := by
  obtain ⟨ds, rfl, hd⟩ := with_types cs hc
  have : ∀ (sched : List Nat) (s : Sys), SysOk W (ds.map (·.2)) s → IsFor s.heap i t →
      IsFor (run W s sched).heap i t := by
    intro sched
    induction sched with
    | nil => intro s _ hi; exact hi
    | cons k sched ih =>
      intro s hs hi
      exact ih _ (sysOk_tick hs k).1 ((sysOk_tick hs k).2.later i t hi)
  exact this sched _ (begin_ok hr ds hd) hi

/-- **C105**: no thread waits for another: with seven steps for each operation it has ended. -/
theorem C105_ends (cs : List (Nat × List Op)) (sched : List Nat) (i : Nat) (c : Nat × List Op) (hi : cs[i]? = some c)
    (hs : 7 * c.2.length ≤ sched.count i) :
    ∃ th : Thread, (run W (begin h cs) sched).threads[i]? = some th ∧ (th.todo = [] ∨ ∃ e : EErr, th.failed = some e) := by
  have h0 : (begin h cs).threads[i]? = some { obj := c.1, todo := c.2 } := by simp [begin, hi]
  obtain ⟨t, ht, hl⟩ := run_left (W := W) (begin h cs) sched i _ h0
  refine ⟨t, ht, ?_⟩
  have h1 : (Thread.left { obj := c.1, todo := c.2 }) ≤ 7 * c.2.length := by
    obtain ⟨a, ops⟩ := c
    cases ops with
    | nil => simp [Thread.left]
    | cons x xs => simp only [Thread.left, Pc.left, List.length_cons]; omega
  have h2 : t.left = 0 := by omega
  cases hf : t.failed with
  | some e => exact .inr ⟨e, rfl⟩
  | none =>
    left
    cases htd : t.todo with
    | nil => rfl
    | cons y ys =>
      exfalso
      simp only [Thread.left, hf, htd] at h2
      have : 1 ≤ t.pc.left := by cases t.pc <;> simp [Pc.left]
      omega

/-- Two threads, one of which ends with an exception, under a schedule that mixes them. -/
example : (run exClasses (begin exStart [(0, [.attr "author", .slice]), (0, [.attr "author", .attr "x"])])
    (bothMake ++ [0, 1, 0, 1])).threads =
    [⟨1, [], .start, none⟩, ⟨2, [.attr "x"], .start, some .noSuchAttribute⟩] := by with_unfolding_all rfl

end Normalize.EmptyThreads
