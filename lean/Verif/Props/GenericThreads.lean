import Verif.Lemmas.GenericThreads
import Verif.Props.Generic

/-!
# C99: generic collection types asked for by several threads
-/

namespace Normalize.GenericThreads

open Normalize.Coll Normalize.Generic Normalize.Spec

variable {loaded : String → Bool}

/-- **C99**, the full claim: however the threads interleave, two calls with the same argument get the same class,
and it is the class asked for. -/
def C99_statement : Prop :=
  ∀ (loaded : String → Bool) (attrs : List ((String × String) × Nat)) (n : Nat) (cs : List Call) (sched : List Nat)
    (i j : Nat) (c : Call) (g g' : GCls),
    Gave (run loaded (begin attrs n cs) sched) i c g → Gave (run loaded (begin attrs n cs) sched) j c g' →
    g = g' ∧ Answers c g

def foo : PyType := ⟨0, "m", "Foo"⟩
/-- Another class of the same name: the module was reloaded, say. -/
def foo' : PyType := ⟨1, "m", "Foo"⟩

/-- Both threads look before either stores. -/
def race : List Nat := [0, 1, 0, 0, 0, 0, 0, 0, 0, 1, 1, 1, 1, 1, 1, 1, 1]

/-- Two threads that call `list_of(Foo)` at the same time may get different classes. -/
theorem C99_violated : ¬ C99_statement := by
  intro h
  have := (h (fun _ => true) [] 0 [.listOf foo, .listOf foo] race 0 1 (.listOf foo)
    (newCls foo listCollection 0) (newCls foo listCollection 1) (by with_unfolding_all rfl) (by with_unfolding_all rfl)).1
  exact absurd this (by decide)

/-- The order in which the second thread stores its class before the first returns. -/
def race' : List Nat := [0, 1, 0, 0, 1, 1, 0, 0, 0, 0, 0]

/-- If they ask for different classes of one name, one may get a collection of the other's items, where calls one
after the other raise `PropertyNotUnique`. -/
theorem C99_other_type_violated :
    ∃ (cs : List Call) (sched : List Nat) (c : Call) (g : GCls),
      Gave (run (fun _ => true) (begin [] 0 cs) sched) 0 c g ∧ g.itemtype ≠ c.of :=
  ⟨[.listOf foo, .listOf foo'], race', .listOf foo, newCls foo' listCollection 1, by with_unfolding_all rfl,
    by decide⟩

/-- After a race, an object of the class the first thread got comes back from pickle with another class. -/
theorem C99_pickle_violated :
    ∃ (cs : List Call) (sched : List Nat) (c : Call) (g g' : GCls),
      Gave (run (fun _ => true) (begin [] 0 cs) sched) 0 c g ∧
      unpickle (fun _ => (⟨fun _ => true, fun v => .ok v, fun a b => a == b, fun _ => none, true⟩ : CT Nat)) (fun n => n) id
        (run (fun _ => true) (begin [] 0 cs) sched).world (reduce g.key (.list [7])) = .ok (g', .list [7]) ∧ g' ≠ g :=
  ⟨[.listOf foo, .listOf foo], race, .listOf foo, newCls foo listCollection 0, newCls foo listCollection 1,
    by with_unfolding_all rfl, by with_unfolding_all rfl, by decide⟩

theorem answers_of {cs : List Call} (hn : OneNameEach cs) {c : Call} (hc : c ∈ cs) {g : GCls}
    (h : MadeFor cs (Call.key c) g) : Answers c g := by
  obtain ⟨d, hd, hk, id, rfl⟩ := h
  obtain ⟨h1, h2⟩ := key_eq.1 hk
  exact ⟨h1, hn d hd c hc h2⟩

theorem call_mem {cs : List Call} {s : Sys} (h : Ok loaded cs s) {i : Nat} {t : Thread}
    (ht : s.threads[i]? = some t) : t.call ∈ cs := by
  rw [← h.calls]
  exact List.mem_map_of_mem (List.mem_of_getElem? ht)

/-- **C99**: if no two item types share a dotted name then under every schedule of any number of threads each call
that returns gives a class with the container and item type asked for. -/
theorem C99_partial {cs : List Call} (hn : OneNameEach cs) (attrs : List ((String × String) × Nat)) (n : Nat)
    (sched : List Nat) (i : Nat) (c : Call) (g : GCls) (h : Gave (run loaded (begin attrs n cs) sched) i c g) :
    Answers c g := by
  have ok := ok_run (loaded := loaded) (cs := cs) attrs n sched
  exact answers_of hn (call_mem ok h) (ok.pcs i _ h)

/-- **C99**: such a call raises only if the module of the item type is not loaded. -/
theorem C99_no_error {cs : List Call} (hn : OneNameEach cs) (attrs : List ((String × String) × Nat)) (n : Nat)
    (sched : List Nat) (i : Nat) (c : Call) (e : Exc) (h : Raised (run loaded (begin attrs n cs) sched) i c e) :
    e = .keyError ∧ loaded c.of.module = false := by
  have ok := ok_run (loaded := loaded) (cs := cs) attrs n sched
  rcases ok.pcs i _ h with h1 | ⟨-, d, hd, hk, hne⟩
  · exact h1
  · exact absurd (hn d hd c (call_mem ok h) (key_eq.1 hk).2) hne

/-- **C99**: no call waits for another: it has ended once its thread has had eight turns, whatever the others do. -/
theorem C99_ends {cs : List Call} (attrs : List ((String × String) × Nat)) (n : Nat) (sched : List Nat) (i : Nat)
    (hi : i < cs.length) (h8 : 8 ≤ sched.count i) : Finished (run loaded (begin attrs n cs) sched) i := by
  have h0 : (begin attrs n cs).threads[i]? = some ⟨cs[i], .check⟩ := by
    simp [begin, hi]
  obtain ⟨⟨c, p⟩, h1, -, h3⟩ := rank_run (loaded := loaded) sched (begin attrs n cs) i _ h0
  refine ⟨c, ?_⟩
  have hz : rank p = 0 := by
    have : rank p ≤ 8 - sched.count i := h3
    omega
  cases p with
  | done r => exact ⟨r, h1⟩
  | check => exact absurd hz (by decide)
  | compare => exact absurd hz (by decide)
  | make => exact absurd hz (by decide)
  | store g => exact absurd hz (by simp [rank])
  | findModule => exact absurd hz (by decide)
  | hasName => exact absurd hz (by decide)
  | getForName => exact absurd hz (by decide)
  | setName g => exact absurd hz (by simp [rank])
  | ret => exact absurd hz (by decide)

/-- **C99**: there are at most as many new classes as calls. -/
theorem C99_made (cs : List Call) (attrs : List ((String × String) × Nat)) (n : Nat) (sched : List Nat) :
    (run loaded (begin attrs n cs) sched).world.next ≤ n + cs.length := by
  have h := run_ind (loaded := loaded)
    (P := fun s => s.world.next + (s.threads.map (fun t => mayMake t.pc)).sum ≤ n + cs.length)
    (fun s i hs => Nat.le_trans (tick_next s i) hs) sched (begin attrs n cs) (by simp [begin, Function.comp_def, mayMake])
  omega

/-- What is registered stays, if no call with the key is under way. -/
theorem still_of {s : Sys} {c : Call} {g : GCls} (hq : NoneUnderWay s c)
    (hr : alookup s.world.types (Call.key c) = some g) :
    Still (Call.key c) g (fun j => ∃ d, Waiting s j d) s := by
  refine ⟨hr, fun j t ht hk => ?_⟩
  obtain ⟨d, p⟩ := t
  rcases hq j d p ht (key_eq.1 hk).1 (key_eq.1 hk).2 with rfl | ⟨r, rfl⟩
  · exact .inl rfl
  · refine .inr (.inr (.inr ⟨r, rfl, ?_⟩))
    rintro ⟨d', hw⟩
    have hw' : s.threads[j]? = some ⟨d', .check⟩ := hw
    rw [ht] at hw'
    cases hw'

/-- **C99**: let `s` be any state reached in which some call for `c` has returned and none with its container and
item name is under way.  Then there is one class such that every call for `c` that begins later gives this class,
under every schedule; and none raises. -/
theorem C99_settled (attrs : List ((String × String) × Nat)) (n : Nat) (cs : List Call) (sched : List Nat)
    (hn : OneNameEach cs) (i : Nat) (c : Call) (g : GCls)
    (h : Gave (run loaded (begin attrs n cs) sched) i c g)
    (hq : NoneUnderWay (run loaded (begin attrs n cs) sched) c) :
    ∃ G, Answers c G ∧ ∀ later j d r, Waiting (run loaded (begin attrs n cs) sched) j c →
      (run loaded (run loaded (begin attrs n cs) sched) later).threads[j]? = some ⟨d, .done r⟩ → r = .ok G := by
  have ok := ok_run (loaded := loaded) (cs := cs) attrs n sched
  -- a call has returned, so the key is registered
  have hreg : ∀ (sched : List Nat) (s : Sys), (∀ (j : Nat) (t : Thread), s.threads[j]? = some t → ∀ g, t.pc = .done (.ok g) →
      (alookup s.world.types (Call.key t.call)).isSome) → ∀ (j : Nat) (t : Thread), (run loaded s sched).threads[j]? = some t →
      ∀ g, t.pc = .done (.ok g) → (alookup (run loaded s sched).world.types (Call.key t.call)).isSome := by
    intro sched s hs
    refine run_ind (loaded := loaded) (P := fun s => ∀ (j : Nat) (t : Thread), s.threads[j]? = some t → ∀ g, t.pc = .done (.ok g) →
      (alookup s.world.types (Call.key t.call)).isSome) ?_ sched s hs
    intro s m hs j u hu g hg
    cases ht : s.threads[m]? with
    | none =>
      have e : tick loaded s m = s := by unfold tick; rw [ht]
      rw [e] at hu ⊢
      exact hs j u hu g hg
    | some t =>
      rcases get_tick ht u hu with ⟨rfl, rfl⟩ | ⟨-, hj⟩
      · rw [tick_threads ht]
        simp only at hg ⊢
        obtain ⟨d, p⟩ := t
        simp only at hg ⊢
        cases p with
        | check => simp only [step] at hg; split at hg <;> cases hg
        | compare =>
          simp only [step] at hg
          cases hk : alookup s.world.types (Call.key d) with
          | none => rw [hk] at hg; cases hg
          | some g' => rw [hk] at hg; simp only at hg; split at hg <;> cases hg
        | make => cases hg
        | store g => cases hg
        | findModule => simp only [step] at hg; split at hg <;> cases hg
        | hasName => simp only [step] at hg; split at hg <;> cases hg
        | getForName =>
          simp only [step] at hg
          cases hk : alookup s.world.types (Call.key d) <;> rw [hk] at hg <;> cases hg
        | setName g => cases hg
        | ret =>
          simp only [step] at hg ⊢
          cases hk : alookup s.world.types (Call.key d) with
          | none => rw [hk] at hg; cases hg
          | some g' => simp [hk]
        | done r => exact hs m _ ht g hg
      · rw [tick_threads ht]
        exact some_step (hs j u hj g hg)
  have hsome := hreg sched (begin attrs n cs) (by
    intro j t ht g hg
    simp only [begin, List.getElem?_map, Option.map_eq_some_iff] at ht
    obtain ⟨d, -, rfl⟩ := ht
    cases hg) i _ h g rfl
  obtain ⟨G, hG⟩ := Option.isSome_iff_exists.1 hsome
  have hA : Answers c G := answers_of hn (call_mem ok h) (ok.reg _ _ hG)
  refine ⟨G, hA, fun later j d r hw hd => ?_⟩
  have st := run_ind (loaded := loaded) (P := Still (Call.key c) G (fun j => ∃ d, Waiting _ j d))
    (fun s m hs => still_tick hs m) later _ (still_of hq hG)
  obtain ⟨t', h1, h2, -⟩ := rank_run (loaded := loaded) later _ j _ hw
  rw [hd] at h1
  cases h1
  have hdc : d = c := h2
  subst hdc
  rcases st.pcs j _ hd rfl with a | a | ⟨a, -⟩ | ⟨r', a, b⟩
  · cases a
  · cases a
  · cases a
  · cases a
    rcases b ⟨d, hw⟩ with ⟨e, -⟩ | ⟨-, e⟩
    · exact e
    · exact absurd hA.2 e

/-- **C99**: if the first call for `c` has returned before any other begins (a call made while modules are imported,
say) then every later one, in any number of threads and under every schedule, gives that very class. -/
theorem C99_first (attrs : List ((String × String) × Nat)) (n : Nat) (cs : List Call) (sched : List Nat)
    (hn : OneNameEach cs) (i : Nat) (c : Call) (g : GCls)
    (h : Gave (run loaded (begin attrs n cs) sched) i c g)
    (hq : ∀ j d p, (run loaded (begin attrs n cs) sched).threads[j]? = some ⟨d, p⟩ → d.container = c.container →
      dotted d.of = dotted c.of → j ≠ i → p = .check)
    (later : List Nat) (j : Nat) (d : Call) (r : Except Exc GCls) (hj : j ≠ i) (hdc : d = c)
    (hd : (run loaded (run loaded (begin attrs n cs) sched) later).threads[j]? = some ⟨d, .done r⟩) : r = .ok g := by
  subst hdc
  have ok := ok_run (loaded := loaded) (cs := cs) attrs n sched
  have hG : alookup (run loaded (begin attrs n cs) sched).world.types (Call.key d) = some g := by
    have hl := run_ind (loaded := loaded) (P := Lone (Call.key d) i) (fun s m hs => lone_tick hs m) sched _
      (lone_begin attrs n cs (Call.key d) i)
    exact hl (fun j t ht hk hji => hq j t.call t.pc ht (key_eq.1 hk).1 (key_eq.1 hk).2 hji) _ h rfl
  have hA : Answers d g := answers_of hn (call_mem ok h) (ok.reg _ _ hG)
  have hnu : NoneUnderWay (run loaded (begin attrs n cs) sched) d := by
    intro j e p hp h1 h2
    by_cases hji : j = i
    · subst hji
      have h' : (run loaded (begin attrs n cs) sched).threads[j]? = some ⟨d, .done (.ok g)⟩ := h
      rw [hp] at h'
      cases h'
      exact .inr ⟨_, rfl⟩
    · exact .inl (hq j e p hp h1 h2 hji)
  have st := run_ind (loaded := loaded) (P := Still (Call.key d) g (fun j => ∃ d, Waiting _ j d))
    (fun s m hs => still_tick hs m) later _ (still_of hnu hG)
  -- thread `j` was there before, and had not begun
  have hlen : j < (run loaded (begin attrs n cs) sched).threads.length := by
    have l1 : (run loaded (run loaded (begin attrs n cs) sched) later).threads.length = cs.length := by
      have := ok_run (loaded := loaded) (cs := cs) attrs n (sched ++ later)
      rw [run_append] at this
      simpa using congrArg List.length this.calls
    have l2 : (run loaded (begin attrs n cs) sched).threads.length = cs.length := by
      simpa using congrArg List.length ok.calls
    have := (List.getElem?_eq_some_iff.1 hd).1
    omega
  obtain ⟨t', h1, h2, -⟩ := rank_run (loaded := loaded) later _ j _ (List.getElem?_eq_getElem hlen)
  rw [hd] at h1
  cases h1
  have hw : Waiting (run loaded (begin attrs n cs) sched) j d := by
    have e : (run loaded (begin attrs n cs) sched).threads[j].pc = .check :=
      hq j _ _ (List.getElem?_eq_getElem hlen) (congrArg Call.container h2.symm)
        (congrArg (fun c => dotted (Call.of c)) h2.symm) hj
    show (run loaded (begin attrs n cs) sched).threads[j]? = some ⟨d, .check⟩
    rw [List.getElem?_eq_getElem hlen]
    congr 1
    revert e h2
    cases (run loaded (begin attrs n cs) sched).threads[j]
    intro h2 e
    simp only at h2 e
    rw [← h2, e]
  rcases st.pcs j _ hd rfl with a | a | ⟨a, -⟩ | ⟨r', a, b⟩
  · cases a
  · cases a
  · cases a
  · cases a
    rcases b ⟨d, hw⟩ with ⟨e, -⟩ | ⟨-, e⟩
    · exact e
    · exact absurd hA.2 e

/-- **C99**: the class under which an object of a returned class comes back from pickle has the same container and
item type, also after a race. -/
theorem C99_pickle {cs : List Call} (hn : OneNameEach cs) (attrs : List ((String × String) × Nat)) (n : Nat)
    (sched : List Nat) (i : Nat) (c : Call) (g g' : GCls) (h : Gave (run loaded (begin attrs n cs) sched) i c g)
    (hg : alookup (run loaded (begin attrs n cs) sched).world.types g.key = some g') :
    g'.base = g.base ∧ g'.itemtype = g.itemtype := by
  have ok := ok_run (loaded := loaded) (cs := cs) attrs n sched
  have hA := C99_partial hn attrs n sched i c g h
  obtain ⟨d, hd, hk, id, rfl⟩ := ok.pcs i _ h
  have h' : MadeFor cs (Call.key c) g' := by
    have : (newCls d.of d.container id).key = Call.key c := hk
    rw [this] at hg
    exact ok.reg _ _ hg
  have hA' := answers_of hn (call_mem ok h) h'
  exact ⟨hA'.1.trans hA.1.symm, hA'.2.trans hA.2.symm⟩

theorem run_solo : ∀ (m : Nat) (s : Sys) (i : Nat) (c : Call) (f : Nat → Pc × World),
    (∀ m, f (m + 1) = step loaded c (f m).2 (f m).1) → s.world = (f 0).2 → s.threads[i]? = some ⟨c, (f 0).1⟩ →
    (run loaded s (List.replicate m i)).world = (f m).2 ∧
      (run loaded s (List.replicate m i)).threads[i]? = some ⟨c, (f m).1⟩
  | 0, _, _, _, _, _, h1, h2 => ⟨h1, h2⟩
  | m + 1, s, i, c, f, hf, h1, h2 => by
    have hlen : i < s.threads.length := (List.getElem?_eq_some_iff.1 h2).1
    refine run_solo m (tick loaded s i) i c (fun k => f (k + 1)) (fun k => hf (k + 1)) ?_ ?_
    · rw [tick_threads h2, hf 0, h1]
    · rw [tick_threads h2]
      simp [hlen, hf 0, h1]

/-- **C99**: a thread left alone does what the function does without threads (`Generic.call`). -/
theorem C99_alone (s : Sys) (i : Nat) (c : Call) (h : Waiting s i c) :
    ∃ k ≤ 8, (run loaded s (List.replicate k i)).world = (call loaded c s.world).2 ∧
      (run loaded s (List.replicate k i)).threads[i]? = some ⟨c, .done (call loaded c s.world).1⟩ := by
  obtain ⟨k, hk, f, f0, fs, fk⟩ := step_call (loaded := loaded) (c := c) (w := s.world)
  refine ⟨k, hk, ?_⟩
  have := run_solo (loaded := loaded) k s i c f fs (by rw [f0]) (by rw [f0]; exact h)
  rw [fk] at this
  exact this

/-! ## The hypotheses can be met -/

def bar : PyType := ⟨2, "m", "Bar"⟩

example : OneNameEach [.listOf foo, .dictOf foo, .listOf bar, .listOf foo] := by
  intro c hc d hd
  simp only [List.mem_cons, List.not_mem_nil, or_false] at hc hd
  rcases hc with rfl | rfl | rfl | rfl <;> rcases hd with rfl | rfl | rfl | rfl <;> decide

example : Gave (run (fun _ => true) (begin [] 0 [.listOf foo, .listOf bar, .listOf foo]) [0, 1, 0, 0, 0, 1, 0, 0, 0, 0])
    0 (.listOf foo) (newCls foo listCollection 0) := by with_unfolding_all rfl

/-- In this state thread 0 has returned, thread 1 is in the middle of another type, thread 2 has not begun. -/
example : Waiting (run (fun _ => true) (begin [] 0 [.listOf foo, .listOf bar, .listOf foo])
    [0, 1, 0, 0, 0, 1, 0, 0, 0, 0]) 2 (.listOf foo) := by with_unfolding_all rfl

example : NoneUnderWay (run (fun _ => true) (begin [] 0 [.listOf foo, .listOf bar, .listOf foo])
    [0, 1, 0, 0, 0, 1, 0, 0, 0, 0]) (.listOf foo) := by
  intro j d p h _ hd
  match j with
  | 0 =>
    have e : some (⟨.listOf foo, .done (.ok (newCls foo listCollection 0))⟩ : Thread) = some ⟨d, p⟩ := h
    cases e; exact .inr ⟨_, rfl⟩
  | 1 =>
    have e : some (⟨.listOf bar, .store (newCls bar listCollection 1)⟩ : Thread) = some ⟨d, p⟩ := h
    cases e; exact absurd hd (by decide)
  | 2 =>
    have e : some (⟨.listOf foo, .check⟩ : Thread) = some ⟨d, p⟩ := h
    cases e; exact .inl rfl
  | j + 3 => exact (nomatch h)

/-- A call whose module is not loaded raises. -/
example : Raised (run (fun _ => false) (begin [] 0 [.listOf foo]) [0, 0, 0, 0]) 0 (.listOf foo) .keyError := by
  with_unfolding_all rfl

end Normalize.GenericThreads
