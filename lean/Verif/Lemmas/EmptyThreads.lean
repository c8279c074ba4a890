import Verif.Model.EmptyThreads
import Verif.Props.Empty

/-!
# Lemmas for C105
-/

namespace Normalize.EmptyThreads

open Normalize.Empty Normalize.Spec

variable {W : World} {h h' : Heap} {o : Nat} {op : Op}

/-- What holds of the placeholders and their caches, whichever thread filled them. -/
structure HeapOk (W : World) (h : Heap) : Prop where
  vals : ∀ (t : Types) (i : Nat), alookup h.vals t = some i → IsFor h i t
  caches : ∀ (o : Nat) (ob : Obj) (ts : List PTy) (op : Op) (j : Nat), h.objs[o]? = some ob → ob.types = .tuple ts →
    cached ob op = some j → ∃ t : Types, next W (.tuple ts) op = .ok t ∧ IsFor h j t

/-- Nothing is forgotten. -/
structure Grows (h h' : Heap) : Prop where
  later : Later h h'
  vals : ∀ t : Types, (alookup h.vals t).isSome = true → (alookup h'.vals t).isSome = true
  caches : ∀ (o : Nat) (ob : Obj) (op : Op), h.objs[o]? = some ob → (cached ob op).isSome = true →
    ∃ ob' : Obj, h'.objs[o]? = some ob' ∧ (cached ob' op).isSome = true

theorem Grows.refl (h : Heap) : Grows h h := ⟨.rfl, fun _ h => h, fun _ ob _ h1 h2 => ⟨ob, h1, h2⟩⟩

/-- The operation on `o` is to give a placeholder for `t`. -/
def Target (W : World) (h : Heap) (o : Nat) (op : Op) (t : Types) : Prop :=
  ∃ ts : List PTy, IsFor h o (.tuple ts) ∧ next W (.tuple ts) op = .ok t

/-- What a thread knows at each place. -/
def PcOk (W : World) (h : Heap) (o : Nat) (op : Op) : Pc → Prop
  | .start => True
  | .check t => Target W h o op t
  | .make t => Target W h o op t
  | .enter t j => Target W h o op t ∧ IsFor h j t
  | .look t => Target W h o op t ∧ (alookup h.vals t).isSome = true
  | .store j => stored op = true ∧ ∃ t : Types, Target W h o op t ∧ IsFor h j t
  | .fetch => ∃ (ob : Obj) (ts : List PTy), h.objs[o]? = some ob ∧ ob.types = .tuple ts ∧ (cached ob op).isSome = true

theorem Target.mono {t : Types} (hg : Grows h h') : Target W h o op t → Target W h' o op t :=
  fun ⟨ts, h1, h2⟩ => ⟨ts, hg.later _ _ h1, h2⟩

theorem PcOk.mono (hg : Grows h h') : ∀ {pc : Pc}, PcOk W h o op pc → PcOk W h' o op pc
  | .start, _ => trivial
  | .check _, h => Target.mono hg h
  | .make _, h => Target.mono hg h
  | .enter _ _, h => ⟨h.1.mono hg, hg.later _ _ h.2⟩
  | .look _, h => ⟨h.1.mono hg, hg.vals _ h.2⟩
  | .store _, ⟨h1, t, h2, h3⟩ => ⟨h1, t, h2.mono hg, hg.later _ _ h3⟩
  | .fetch, ⟨ob, ts, h1, h2, h3⟩ => by
    obtain ⟨ob', h4, h5⟩ := hg.caches o ob op h1 h3
    obtain ⟨ob'', h6, h7⟩ := hg.later o _ ⟨ob, h1, rfl⟩
    rw [h4] at h6
    cases h6
    exact ⟨ob', ts, h4, h7.trans h2, h5⟩

theorem reached_heapOk (hr : Reached W h) : HeapOk W h := by
  have hg := reached_good hr
  refine ⟨hg.vals, fun o ob ts op j ho ht hc => ?_⟩
  cases op with
  | attr nm =>
    obtain ⟨h1, h2⟩ := hg.attrs o ob ts nm j ho ht hc
    exact ⟨_, by simp [next, h1], h2⟩
  | item =>
    obtain ⟨h1, h2⟩ := hg.member o ob ts j ho ht hc
    exact ⟨_, by simp [next, h1], h2⟩
  | slice => cases hc
  | call => cases hc

/-- A new placeholder. -/
theorem make_ok (hh : HeapOk W h) (t : Types) :
    HeapOk W { h with objs := h.objs ++ [{ types := t }] } ∧ Grows h { h with objs := h.objs ++ [{ types := t }] } ∧
      IsFor { h with objs := h.objs ++ [{ types := t }] } h.objs.length t := by
  have old : ∀ {i : Nat} {ob : Obj}, h.objs[i]? = some ob → (h.objs ++ [({ types := t } : Obj)])[i]? = some ob := by
    intro i ob ho
    rw [List.getElem?_append_left (List.getElem?_eq_some_iff.1 ho).1]
    exact ho
  have later : Later h { h with objs := h.objs ++ [{ types := t }] } := by
    rintro i t ⟨ob, ho, rfl⟩
    exact ⟨ob, old ho, rfl⟩
  refine ⟨⟨fun t' i hi => later _ _ (hh.vals t' i hi), fun o ob ts op j ho ht hc => ?_⟩,
    ⟨later, fun _ h => h, fun o ob op h1 h2 => ⟨ob, old h1, h2⟩⟩, ⟨{ types := t }, by simp, rfl⟩⟩
  simp only [List.getElem?_append] at ho
  split at ho
  · obtain ⟨t', h1, h2⟩ := hh.caches o ob ts op j ho ht hc
    exact ⟨t', h1, later _ _ h2⟩
  · rw [List.getElem?_eq_some_iff] at ho
    obtain ⟨h1, h2⟩ := ho
    simp at h1 h2
    subst h2
    cases op <;> cases hc

/-- Entering it. -/
theorem enter_ok (hh : HeapOk W h) {t : Types} {j : Nat} (hj : IsFor h j t) :
    HeapOk W { h with vals := aset h.vals t j } ∧ Grows h { h with vals := aset h.vals t j } ∧
      (alookup (aset h.vals t j) t).isSome = true := by
  refine ⟨⟨fun t' i hi => ?_, hh.caches⟩, ⟨fun _ _ h => h, fun t' hs => ?_, fun o ob op h1 h2 => ⟨ob, h1, h2⟩⟩, ?_⟩
  · simp only [alookup_aset] at hi
    split at hi
    · rename_i he; cases hi; subst he; exact hj
    · exact hh.vals t' i hi
  · simp only [alookup_aset]
    split
    · rfl
    · exact hs
  · simp [alookup_aset]

theorem put_iff {i : Nat} {ob ob' : Obj} (hi : h.objs[i]? = some ob) (ht : ob'.types = ob.types) (k : Nat) (t : Types) :
    IsFor (h.put i ob') k t ↔ IsFor h k t := by
  have hlen := (List.getElem?_eq_some_iff.1 hi).1
  unfold IsFor
  simp only [Heap.put, List.getElem?_set]
  split
  · rename_i he
    subst he
    rw [hi]
    simp only [hlen, if_true, Option.some.injEq, exists_eq_left', ht]
  · exact Iff.rfl

/-- Filling a cache. -/
theorem fill_ok (hh : HeapOk W h) {t : Types} {j : Nat} (hs : stored op = true) (ht : Target W h o op t)
    (hj : IsFor h j t) :
    HeapOk W (fill h o j op) ∧ Grows h (fill h o j op) ∧ PcOk W (fill h o j op) o op .fetch := by
  obtain ⟨ts, ⟨ob, ho, hts⟩, hn⟩ := ht
  have hlen := (List.getElem?_eq_some_iff.1 ho).1
  have main : ∀ ob' : Obj, ob'.types = ob.types →
      (∀ (op' : Op) (k : Nat), cached ob' op' = some k → (op' = op ∧ k = j) ∨ cached ob op' = some k) →
      (∀ op' : Op, (cached ob op').isSome = true → (cached ob' op').isSome = true) →
      (cached ob' op).isSome = true →
      HeapOk W (h.put o ob') ∧ Grows h (h.put o ob') ∧ PcOk W (h.put o ob') o op .fetch := by
    intro ob' hty hnew hold hgot
    have get : ∀ k, (h.put o ob').objs[k]? = if o = k then some ob' else h.objs[k]? := by
      intro k
      simp only [Heap.put, List.getElem?_set]
      split
      · rename_i he; subst he; simp [hlen]
      · rfl
    have iff := put_iff (h := h) ho hty
    refine ⟨⟨fun t' i hi => (iff i t').2 (hh.vals t' i hi), fun o1 ob1 ts1 op1 j1 h1 h2 h3 => ?_⟩,
      ⟨fun k t' hk => (iff k t').2 hk, fun _ h => h, fun o1 ob1 op1 h1 h2 => ?_⟩, ?_⟩
    · rw [get] at h1
      split at h1
      · cases h1
        rename_i he
        subst he
        have : ts1 = ts := by rw [hty, hts] at h2; cases h2; rfl
        subst this
        rcases hnew op1 j1 h3 with ⟨rfl, rfl⟩ | h4
        · exact ⟨t, hn, (iff _ _).2 hj⟩
        · obtain ⟨t', h5, h6⟩ := hh.caches o ob ts1 op1 j1 ho hts h4
          exact ⟨t', h5, (iff _ _).2 h6⟩
      · obtain ⟨t', h5, h6⟩ := hh.caches o1 ob1 ts1 op1 j1 h1 h2 h3
        exact ⟨t', h5, (iff _ _).2 h6⟩
    · rw [get]
      split
      · rename_i he
        subst he
        rw [ho] at h1
        cases h1
        exact ⟨ob', rfl, hold op1 h2⟩
      · exact ⟨ob1, h1, h2⟩
    · exact ⟨ob', ts, by rw [get]; simp, hty.trans hts, hgot⟩
  cases op with
  | slice => cases hs
  | call => cases hs
  | attr nm =>
    have he : fill h o j (.attr nm) = h.put o { ob with attrs := aset ob.attrs nm j } := by
      simp only [fill, remember, ho]
    rw [he]
    refine main _ rfl ?_ ?_ ?_
    · intro op' k hk
      cases op' with
      | attr nm' =>
        simp only [cached, alookup_aset] at hk
        by_cases hnn : nm = nm'
        · simp only [hnn, if_true, Option.some.injEq] at hk
          exact .inl ⟨by rw [hnn], hk.symm⟩
        · simp only [hnn, if_false] at hk
          exact .inr hk
      | item => exact .inr hk
      | slice => cases hk
      | call => cases hk
    · intro op' hk
      cases op' with
      | attr nm' =>
        simp only [cached, alookup_aset] at hk ⊢
        split
        · rfl
        · exact hk
      | item => exact hk
      | slice => cases hk
      | call => cases hk
    · simp [cached, alookup_aset]
  | item =>
    have he : fill h o j .item = h.put o { ob with member := some j } := by
      simp only [fill, rememberMember, ho]
    rw [he]
    refine main _ rfl ?_ ?_ ?_
    · intro op' k hk
      cases op' with
      | attr nm' => exact .inr hk
      | item => simp only [cached, Option.some.injEq] at hk; exact .inl ⟨rfl, hk.symm⟩
      | slice => cases hk
      | call => cases hk
    · intro op' hk
      cases op' with
      | attr nm' => exact hk
      | item => rfl
      | slice => cases hk
      | call => cases hk
    · rfl

/-- What a step may do. -/
inductive Outcome (W : World) (h' : Heap) (o : Nat) (op : Op) (t : Types) : Pc ⊕ Except EErr Nat → Prop
  | goes {pc : Pc} (h : PcOk W h' o op pc) : Outcome W h' o op t (.inl pc)
  | gives {j : Nat} {t' : Types} (hn : next W t op = .ok t') (hj : IsFor h' j t') : Outcome W h' o op t (.inr (.ok j))
  | raises {e : EErr} (hn : next W t op = .error e) : Outcome W h' o op t (.inr (.error e))

theorem first_ok {ob : Obj} (ho : h.objs[o]? = some ob) (hh : HeapOk W h) :
    Outcome W h o op ob.types (first W o ob op) := by
  unfold first
  cases ht : ob.types with
  | any => exact .gives (t' := .any) (by cases op <;> rfl) ⟨ob, ho, ht⟩
  | tuple ts =>
    have tgt : ∀ t : Types, next W (.tuple ts) op = .ok t → Target W h o op t := fun t hn => ⟨ts, ⟨ob, ho, ht⟩, hn⟩
    cases op with
    | attr nm =>
      simp only
      split
      · rename_i hc; exact .goes ⟨ob, ts, ho, ht, hc⟩
      · split
        · rename_i he; exact .raises (by simp [next, he])
        · rename_i he; exact .goes (tgt _ (by simp [next, he, attrTypes]))
    | item =>
      simp only
      split
      · rename_i hc; exact .goes ⟨ob, ts, ho, ht, hc⟩
      · split
        · rename_i he; exact .raises (by simp [next, he])
        · rename_i he; exact .goes (tgt _ (by simp [next, he, itemTypes]))
    | slice => exact .gives (t' := .tuple ts) rfl ⟨ob, ho, ht⟩
    | call =>
      simp only
      split
      · rename_i hc; exact .goes (tgt _ (by simp only [next, hc, if_true]))
      · rename_i hc; exact .raises (by simp only [next, hc]; rfl)

theorem step_ok (hh : HeapOk W h) {t : Types} (ho : IsFor h o t) {pc : Pc} (hp : PcOk W h o op pc) :
    HeapOk W (step W o op h pc).2 ∧ Grows h (step W o op h pc).2 ∧
      Outcome W (step W o op h pc).2 o op t (step W o op h pc).1 := by
  cases pc with
  | start =>
    obtain ⟨ob, hob, rfl⟩ := ho
    simp only [step, hob]
    exact ⟨hh, .refl h, first_ok hob hh⟩
  | check t' =>
    simp only [step]
    refine ⟨hh, .refl h, .goes ?_⟩
    split
    · rename_i hs; exact ⟨hp, hs⟩
    · exact hp
  | make t' =>
    simp only [step]
    obtain ⟨h1, h2, h3⟩ := make_ok hh t'
    exact ⟨h1, h2, .goes ⟨hp.mono h2, h3⟩⟩
  | enter t' j =>
    simp only [step]
    obtain ⟨h1, h2, h3⟩ := enter_ok hh hp.2
    exact ⟨h1, h2, .goes ⟨hp.1.mono h2, h3⟩⟩
  | look t' =>
    simp only [step]
    cases hl : alookup h.vals t' with
    | none => have := hp.2; rw [hl] at this; cases this
    | some j =>
      simp only
      refine ⟨hh, .refl h, ?_⟩
      cases hs : stored op with
      | true => exact .goes ⟨hs, t', hp.1, hh.vals _ _ hl⟩
      | false =>
        obtain ⟨ts, h1, h2⟩ := hp.1
        exact .gives (t' := t') (by rw [isFor_unique ho h1]; exact h2) (hh.vals _ _ hl)
  | store j =>
    simp only [step]
    obtain ⟨hs, t', h1, h2⟩ := hp
    obtain ⟨h3, h4, h5⟩ := fill_ok hh hs h1 h2
    exact ⟨h3, h4, .goes h5⟩
  | fetch =>
    obtain ⟨ob, ts, h1, h2, h3⟩ := hp
    simp only [step, h1]
    cases hc : cached ob op with
    | none => rw [hc] at h3; cases h3
    | some j =>
      simp only
      obtain ⟨t', h4, h5⟩ := hh.caches o ob ts op j h1 h2 hc
      refine ⟨hh, .refl h, .gives (t' := t') ?_ h5⟩
      rw [isFor_unique ho ⟨ob, h1, h2⟩]
      exact h4

/-! ## All steps -/

/-- The types after a chain of operations. -/
def nextAll (W : World) : Types → List Op → Except EErr Types
  | t, [] => .ok t
  | t, op :: ops =>
    match next W t op with
    | .error e => .error e
    | .ok t' => nextAll W t' ops

theorem nextAll_append (t : Types) (xs ys : List Op) : nextAll W t (xs ++ ys) =
    (match nextAll W t xs with | .error e => .error e | .ok t' => nextAll W t' ys) := by
  induction xs generalizing t with
  | nil => rfl
  | cons x xs ih =>
    simp only [List.cons_append, nextAll]
    cases next W t x with
    | error e => rfl
    | ok t' => exact ih t'

/-- One thread on its own gives a placeholder for these types. -/
theorem chain_nextAll (hr : Reached W h) {i : Nat} {t : Types} (hi : IsFor h i t) (ops : List Op) :
    (∀ e : EErr, nextAll W t ops = .error e → chain W h i ops = .error e) ∧
    (∀ t' : Types, nextAll W t ops = .ok t' →
      ∃ (j : Nat) (h' : Heap), chain W h i ops = .ok (j, h') ∧ IsFor h' j t') := by
  induction ops generalizing h i t with
  | nil =>
    refine ⟨fun e he => (nomatch he), fun t' ht' => ?_⟩
    cases ht'
    exact ⟨i, h, rfl, hi⟩
  | cons op ops ih =>
    have hg := reached_good hr
    cases hn : next W t op with
    | error e =>
      have := ((run_next hg hi op).1 e).2 hn
      simp [nextAll, hn, chain, this]
    | ok t1 =>
      obtain ⟨j, h1, hrun, hj⟩ := run_ok hg hi hn
      have := ih (.run hr hrun) hj
      simpa only [nextAll, hn, chain, hrun] using this

/-- How far a thread has come that was to do `ops` with a placeholder for `t`. -/
structure ThreadOk (W : World) (h : Heap) (t : Types) (ops : List Op) (th : Thread) : Prop where
  here : ∃ (done : List Op) (t' : Types), ops = done ++ th.todo ∧ nextAll W t done = .ok t' ∧ IsFor h th.obj t' ∧
    (∀ (op : Op) (rest : List Op), th.failed = none → th.todo = op :: rest → PcOk W h th.obj op th.pc) ∧
    (∀ e : EErr, th.failed = some e → ∃ (op : Op) (rest : List Op), th.todo = op :: rest ∧ next W t' op = .error e)

theorem ThreadOk.mono {t : Types} {ops : List Op} {th : Thread} (hg : Grows h h') (ht : ThreadOk W h t ops th) :
    ThreadOk W h' t ops th := by
  obtain ⟨done, t', h1, h2, h3, h4, h5⟩ := ht.here
  exact ⟨done, t', h1, h2, hg.later _ _ h3, fun op rest hf hr => (h4 op rest hf hr).mono hg, h5⟩

/-- What holds at all times; `cs` says what each thread was to do. -/
structure SysOk (W : World) (cs : List (Types × List Op)) (s : Sys) : Prop where
  heap : HeapOk W s.heap
  threads : ∀ (i : Nat) (th : Thread), s.threads[i]? = some th →
    ∃ c : Types × List Op, cs[i]? = some c ∧ ThreadOk W s.heap c.1 c.2 th

theorem set_cases {α : Type} {l : List α} {i j : Nat} {a b : α} (h : (l.set i a)[j]? = some b) :
    (j = i ∧ b = a) ∨ (j ≠ i ∧ l[j]? = some b) := by
  rw [List.getElem?_set] at h
  by_cases hij : i = j
  · subst hij
    by_cases hlt : i < l.length
    · simp only [hlt, if_true, Option.some.injEq] at h
      exact .inl ⟨rfl, h.symm⟩
    · simp only [hlt, if_false, if_true] at h
      cases h
  · simp only [hij, if_false] at h
    exact .inr ⟨fun e => hij e.symm, h⟩

theorem tick_none {s : Sys} {i : Nat} (h : s.threads[i]? = none) : tick W s i = s := by simp only [tick, h]

theorem tick_failed {s : Sys} {i : Nat} {th : Thread} {e : EErr} (h : s.threads[i]? = some th)
    (hf : th.failed = some e) : tick W s i = s := by simp only [tick, h, hf]

theorem tick_done {s : Sys} {i : Nat} {th : Thread} (h : s.threads[i]? = some th) (ht : th.todo = []) :
    tick W s i = s := by
  simp only [tick, h, ht]
  cases th.failed <;> rfl

theorem tick_go {s : Sys} {i : Nat} {th : Thread} {op : Op} {ops : List Op} (h : s.threads[i]? = some th)
    (hf : th.failed = none) (ht : th.todo = op :: ops) :
    tick W s i = { heap := (step W th.obj op s.heap th.pc).2
                   threads := s.threads.set i (advance th ops (step W th.obj op s.heap th.pc).1) } := by
  simp only [tick, h, hf, ht]

theorem sysOk_tick {cs : List (Types × List Op)} {s : Sys} (hs : SysOk W cs s) (i : Nat) :
    SysOk W cs (tick W s i) ∧ Grows s.heap (tick W s i).heap := by
  cases ht : s.threads[i]? with
  | none => rw [tick_none ht]; exact ⟨hs, .refl _⟩
  | some th =>
    obtain ⟨c, hc, hth⟩ := hs.threads i th ht
    cases hf : th.failed with
    | some e => rw [tick_failed ht hf]; exact ⟨hs, .refl _⟩
    | none =>
      cases htd : th.todo with
      | nil => rw [tick_done ht htd]; exact ⟨hs, .refl _⟩
      | cons op ops =>
        rw [tick_go ht hf htd]
        obtain ⟨done, t', h1, h2, h3, h4, h5⟩ := hth.here
        obtain ⟨k1, k2, k3⟩ := step_ok (W := W) hs.heap h3 (h4 op ops hf htd)
        refine ⟨⟨k1, fun j th' hj => ?_⟩, k2⟩
        rcases set_cases hj with ⟨rfl, rfl⟩ | ⟨_, hj'⟩
        · refine ⟨c, hc, ⟨?_⟩⟩
          cases hr : (step W th.obj op s.heap th.pc).1 with
          | inl pc =>
            rw [hr] at k3
            cases k3 with
            | goes hpc =>
              refine ⟨done, t', h1, h2, k2.later _ _ h3, fun op' rest _ hto => ?_, fun e he => ?_⟩
              · simp only [advance] at hto ⊢
                rw [htd] at hto
                cases hto
                exact hpc
              · simp only [advance] at he
                rw [hf] at he
                cases he
          | inr r =>
            rw [hr] at k3
            cases k3 with
            | @gives k t'' hn hk =>
              refine ⟨done ++ [op], t'', ?_, ?_, hk, fun op' rest _ hto => trivial, fun e he => ?_⟩
              · rw [h1, htd]; simp [advance]
              · rw [nextAll_append, h2]; simp only [nextAll, hn]
              · simp only [advance] at he
                rw [hf] at he
                cases he
            | @raises e hn =>
              refine ⟨done, t', h1, h2, k2.later _ _ h3, fun op' rest hff => (nomatch hff), fun e' he => ?_⟩
              cases he
              exact ⟨op, ops, htd, hn⟩
        · obtain ⟨c', hc', hth'⟩ := hs.threads j th' hj'
          exact ⟨c', hc', hth'.mono k2⟩

theorem sysOk_run {cs : List (Types × List Op)} {s : Sys} (hs : SysOk W cs s) (sched : List Nat) :
    SysOk W cs (run W s sched) := by
  induction sched generalizing s with
  | nil => exact hs
  | cons i sched ih => exact ih (sysOk_tick hs i).1

/-! ## Types that have a placeholder already -/

/-- There is one placeholder for the types, and no thread is about to make another. -/
structure One (t : Types) (i : Nat) (s : Sys) : Prop where
  vals : alookup s.heap.vals t = some i
  only : ∀ j : Nat, IsFor s.heap j t → j = i
  none : ∀ (k : Nat) (th : Thread), s.threads[k]? = some th → th.pc ≠ .make t ∧ ∀ j : Nat, th.pc ≠ .enter t j

theorem fill_isFor {j k : Nat} {t : Types} : IsFor (fill h o j op) k t ↔ IsFor h k t := by
  cases op with
  | attr nm =>
    simp only [fill, remember]
    cases ho : h.objs[o]? with
    | none => exact Iff.rfl
    | some ob => exact put_iff (ob' := { ob with attrs := aset ob.attrs nm j }) ho rfl k t
  | item =>
    simp only [fill, rememberMember]
    cases ho : h.objs[o]? with
    | none => exact Iff.rfl
    | some ob => exact put_iff (ob' := { ob with member := some j }) ho rfl k t
  | slice => exact Iff.rfl
  | call => exact Iff.rfl

theorem fill_vals {j : Nat} : (fill h o j op).vals = h.vals := by
  cases op with
  | attr nm => simp only [fill, remember]; split <;> rfl
  | item => simp only [fill, rememberMember]; split <;> rfl
  | slice => rfl
  | call => rfl

theorem first_pc {ob : Obj} {pc : Pc} (h : first W o ob op = .inl pc) : pc = .fetch ∨ ∃ t : Types, pc = .check t := by
  unfold first at h
  split at h
  · cases h
  · split at h
    · split at h
      · cases h; exact .inl rfl
      · split at h
        · cases h
        · cases h; exact .inr ⟨_, rfl⟩
    · split at h
      · cases h; exact .inl rfl
      · split at h
        · cases h
        · cases h; exact .inr ⟨_, rfl⟩
    · cases h
    · split at h
      · cases h; exact .inr ⟨_, rfl⟩
      · cases h

theorem one_tick {t : Types} {i0 : Nat} {s : Sys} (hs : One t i0 s) (i : Nat) : One t i0 (tick W s i) := by
  cases ht : s.threads[i]? with
  | none => rw [tick_none ht]; exact hs
  | some th =>
    cases hf : th.failed with
    | some e => rw [tick_failed ht hf]; exact hs
    | none =>
      cases htd : th.todo with
      | nil => rw [tick_done ht htd]; exact hs
      | cons op ops =>
        rw [tick_go ht hf htd]
        obtain ⟨hm, he⟩ := hs.none i th ht
        have main : alookup (step W th.obj op s.heap th.pc).2.vals t = some i0 ∧
            (∀ j : Nat, IsFor (step W th.obj op s.heap th.pc).2 j t → j = i0) ∧
            ∀ pc : Pc, (step W th.obj op s.heap th.pc).1 = .inl pc → pc ≠ .make t ∧ ∀ j : Nat, pc ≠ .enter t j := by
          cases hpc : th.pc with
          | start =>
            simp only [step]
            cases ho : s.heap.objs[th.obj]? with
            | none => exact ⟨hs.vals, hs.only, fun pc h => (nomatch h)⟩
            | some ob =>
              refine ⟨hs.vals, hs.only, fun pc h => ?_⟩
              rcases first_pc h with rfl | ⟨t', rfl⟩ <;> exact ⟨by simp, by simp⟩
          | check t' =>
            simp only [step]
            refine ⟨hs.vals, hs.only, fun pc h => ?_⟩
            by_cases hte : t' = t
            · subst hte
              rw [hs.vals] at h
              cases h
              exact ⟨by simp, by simp⟩
            · split at h
              · cases h; exact ⟨by simp, by simp⟩
              · cases h; exact ⟨by simpa using hte, by simp⟩
          | make t' =>
            have hte : t' ≠ t := fun e => hm (by rw [hpc, e])
            simp only [step]
            refine ⟨hs.vals, fun j hj => ?_, fun pc h => ?_⟩
            · obtain ⟨ob, ho, hty⟩ := hj
              simp only [List.getElem?_append] at ho
              split at ho
              · exact hs.only j ⟨ob, ho, hty⟩
              · rw [List.getElem?_eq_some_iff] at ho
                obtain ⟨h1, h2⟩ := ho
                simp at h1 h2
                subst h2
                exact absurd hty hte
            · cases h; exact ⟨by simp, by simp [hte]⟩
          | enter t' j =>
            have hte : t' ≠ t := fun e => he j (by rw [hpc, e])
            simp only [step]
            refine ⟨?_, hs.only, fun pc h => ?_⟩
            · simp only [alookup_aset, hte, if_false]; exact hs.vals
            · cases h; exact ⟨by simp, by simp⟩
          | look t' =>
            simp only [step]
            cases hl : alookup s.heap.vals t' with
            | none => exact ⟨hs.vals, hs.only, fun pc h => (nomatch h)⟩
            | some j =>
              refine ⟨hs.vals, hs.only, fun pc h => ?_⟩
              simp only at h
              split at h
              · cases h; exact ⟨by simp, by simp⟩
              · cases h
          | store j =>
            simp only [step]
            refine ⟨by rw [fill_vals]; exact hs.vals, fun k hk => hs.only k (fill_isFor.1 hk), fun pc h => ?_⟩
            cases h
            exact ⟨by simp, by simp⟩
          | fetch =>
            simp only [step]
            cases ho : s.heap.objs[th.obj]? with
            | none => exact ⟨hs.vals, hs.only, fun pc h => (nomatch h)⟩
            | some ob =>
              simp only
              cases hc : cached ob op with
              | none => exact ⟨hs.vals, hs.only, fun pc h => (nomatch h)⟩
              | some j => exact ⟨hs.vals, hs.only, fun pc h => (nomatch h)⟩
        refine ⟨main.1, main.2.1, fun k th' hk => ?_⟩
        rcases set_cases hk with ⟨rfl, rfl⟩ | ⟨_, hk'⟩
        · cases hr : (step W th.obj op s.heap th.pc).1 with
          | inl pc => exact main.2.2 pc hr
          | inr r =>
            cases r with
            | ok j => exact ⟨by simp [advance], by simp [advance]⟩
            | error e => exact ⟨hm, he⟩
        · exact hs.none k th' hk'

theorem one_run {t : Types} {i0 : Nat} {s : Sys} (hs : One t i0 s) (sched : List Nat) : One t i0 (run W s sched) := by
  induction sched generalizing s with
  | nil => exact hs
  | cons i sched ih => exact ih (one_tick hs i)

/-! ## Every operation ends -/

/-- Steps left in an operation. -/
def Pc.left : Pc → Nat
  | .start => 7
  | .check _ => 6
  | .make _ => 5
  | .enter _ _ => 4
  | .look _ => 3
  | .store _ => 2
  | .fetch => 1

/-- Steps left in a thread, at most. -/
def Thread.left (t : Thread) : Nat :=
  match t.failed, t.todo with
  | none, _ :: ops => 7 * ops.length + t.pc.left
  | _, _ => 0

theorem advance_left (h : Heap) {t : Thread} {op : Op} {ops : List Op} (hf : t.failed = none) (ht : t.todo = op :: ops) :
    (advance t ops (step W t.obj op h t.pc).1).left + 1 ≤ t.left := by
  have hp : 1 ≤ t.pc.left := by cases t.pc <;> simp [Pc.left]
  have hl : t.left = 7 * ops.length + t.pc.left := by simp only [Thread.left, hf, ht]
  have hend : ∀ r : Except EErr Nat, (advance t ops (.inr r)).left + 1 ≤ t.left := by
    intro r
    rw [hl]
    cases r with
    | error e => simp only [advance, Thread.left]; omega
    | ok j =>
      simp only [advance, Thread.left, hf]
      cases ops with
      | nil => simp only [List.length_nil]; omega
      | cons y ys =>
        show 7 * ys.length + 7 + 1 ≤ 7 * (ys.length + 1) + t.pc.left
        omega
  have hgo : ∀ pc : Pc, pc.left + 1 ≤ t.pc.left → (advance t ops (.inl pc)).left + 1 ≤ t.left := by
    intro pc hpc
    rw [hl]
    simp only [advance, Thread.left, hf, ht]
    omega
  cases hpc : t.pc with
  | start =>
    simp only [step]
    split
    · exact hend _
    · cases hfi : first W t.obj ‹Obj› op with
      | inl pc =>
        refine hgo _ ?_
        rw [hpc]
        rcases first_pc hfi with rfl | ⟨t', rfl⟩ <;> simp [Pc.left]
      | inr r => exact hend _
  | check t' => refine hgo _ ?_; rw [hpc]; split <;> simp [Pc.left]
  | make t' => exact hgo _ (by rw [hpc]; simp [Pc.left])
  | enter t' j => exact hgo _ (by rw [hpc]; simp [Pc.left])
  | look t' =>
    simp only [step]
    split
    · exact hend _
    · split
      · exact hgo _ (by rw [hpc]; simp [Pc.left])
      · exact hend _
  | store j => exact hgo _ (by rw [hpc]; simp [Pc.left])
  | fetch =>
    simp only [step]
    split
    · exact hend _
    · split
      · exact hend _
      · exact hend _

theorem tick_left (s : Sys) (i j : Nat) (t : Thread) (h : s.threads[i]? = some t) :
    ∃ t' : Thread, (tick W s j).threads[i]? = some t' ∧
      t'.left + (if j = i then 1 else 0) ≤ max t.left (if j = i then 1 else 0) := by
  by_cases hji : j = i
  · subst hji
    simp only [if_true]
    have hlt : j < s.threads.length := (List.getElem?_eq_some_iff.1 h).1
    cases hf : t.failed with
    | some e => rw [tick_failed h hf]; exact ⟨t, h, by simp [Thread.left, hf]⟩
    | none =>
      cases htd : t.todo with
      | nil => rw [tick_done h htd]; exact ⟨t, h, by simp [Thread.left, hf, htd]⟩
      | cons op ops =>
        rw [tick_go h hf htd]
        refine ⟨_, by rw [List.getElem?_set_self hlt], ?_⟩
        have := advance_left (W := W) s.heap hf htd
        omega
  · simp only [hji, if_false]
    refine ⟨t, ?_, by simp⟩
    simp only [tick]
    split
    · exact h
    · split
      · simp only; rw [List.getElem?_set_ne hji]; exact h
      · exact h

theorem run_left (s : Sys) (sched : List Nat) (i : Nat) (t : Thread) (h : s.threads[i]? = some t) :
    ∃ t' : Thread, (run W s sched).threads[i]? = some t' ∧ t'.left ≤ t.left - sched.count i := by
  induction sched generalizing s t with
  | nil => exact ⟨t, h, by simp⟩
  | cons j sched ih =>
    obtain ⟨t1, h1, hl1⟩ := tick_left (W := W) s i j t h
    obtain ⟨t2, h2, hl2⟩ := ih (tick W s j) t1 h1
    refine ⟨t2, h2, ?_⟩
    rw [List.count_cons]
    by_cases hji : j = i
    · subst hji
      simp only [if_true, beq_self_eq_true] at hl1 ⊢
      omega
    · have : (j == i) = false := by simpa using hji
      simp only [hji, if_false, this, Bool.false_eq_true] at hl1 ⊢
      omega

end Normalize.EmptyThreads
