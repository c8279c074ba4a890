import Verif.Spec.SelectorObj
import Mathlib.Data.List.Nodup

/-!
# C132: field selectors are values
-/

namespace Normalize.SelObj
open Spec

/-- C132: whatever a program does with selectors, they are values: every operation makes a new one or changes one, and
leaves the others as they are. -/
def C132_statement : Prop :=
  ∀ ops : List Op, (selValues (run start ops).1, (run start ops).2) = selActs [] ops

/-- Every selector has a list of its own. -/
structure Own (m : Mem) : Prop where
  nodup : m.objs.Nodup
  bound : ∀ a ∈ m.objs, a < m.lists.length

theorem own_start : Own start := ⟨List.nodup_nil, fun a h => by cases h⟩

theorem values_eq (m : Mem) : selValues m = m.objs.map (fun a => m.lists.getD a []) := by
  apply List.ext_getElem?
  intro i
  simp only [selValues, List.getElem?_map]
  by_cases h : i < m.objs.length
  · simp [Mem.row, h]
  · simp [h]

theorem values_getD (m : Mem) (i : Nat) : (selValues m).getD i [] = m.row i := by
  by_cases h : i < m.objs.length
  · simp [selValues, h]
  · simp [selValues, Mem.row, h]

theorem values_length (m : Mem) : (selValues m).length = m.objs.length := by simp [selValues]

theorem init_checked (r : Row) : (∃ e, FS.init r = .error e ∧ checked r = .raises e) ∨
    (FS.init r = .ok r ∧ checked r = .new r) := by
  unfold FS.init checked
  by_cases h : ∃ e ∈ r, e.valid = false ∧ e.truthy = true
  · left
    have : (r.filter (fun e => !e.valid)).any RawComp.truthy = true := by
      obtain ⟨e, he, h1, h2⟩ := h
      exact List.any_eq_true.2 ⟨e, List.mem_filter.2 ⟨he, by simp [h1]⟩, h2⟩
    exact ⟨.valueError, by rw [if_pos this], by rw [if_pos h]⟩
  · right
    have : ¬ (r.filter (fun e => !e.valid)).any RawComp.truthy = true := by
      intro ha
      obtain ⟨e, he, h2⟩ := List.any_eq_true.1 ha
      obtain ⟨h1, h3⟩ := List.mem_filter.1 he
      exact h ⟨e, h1, by simpa using h3, h2⟩
    exact ⟨by rw [if_neg this], by rw [if_neg h]⟩

theorem own_new {m : Mem} (h : Own m) (r : Row) : Own (newObj m r).1 := by
  refine ⟨?_, ?_⟩
  · simp only [newObj, List.nodup_append, h.nodup, true_and]
    refine ⟨by simp, fun a ha b hb => ?_⟩
    rw [List.mem_singleton.1 hb]
    exact Nat.ne_of_lt (h.bound a ha)
  · intro a ha
    simp only [newObj, List.mem_append, List.mem_singleton, List.length_append, List.length_singleton] at ha ⊢
    rcases ha with ha | rfl
    · exact Nat.lt_succ_of_lt (h.bound a ha)
    · exact Nat.lt_succ_self _

theorem values_new {m : Mem} (h : Own m) (r : Row) : selValues (newObj m r).1 = selValues m ++ [r] := by
  simp only [values_eq, newObj, List.map_append, List.map_cons, List.map_nil]
  congr 1
  · apply List.map_congr_left
    intro a ha
    have := h.bound a ha
    simp [List.getD_eq_getElem?_getD, List.getElem?_append_left this]
  · simp [List.getD_eq_getElem?_getD]

theorem own_store {m : Mem} (h : Own m) (i : Nat) (r : Row) : Own (m.store i r) := by
  unfold Mem.store
  split
  · exact ⟨h.nodup, fun a ha => by simpa using h.bound a ha⟩
  · exact h

theorem values_store {m : Mem} (h : Own m) (i : Nat) (r : Row) : selValues (m.store i r) = (selValues m).set i r := by
  unfold Mem.store
  cases hi : m.objs[i]? with
  | none =>
    have hle : m.objs.length ≤ i := List.getElem?_eq_none_iff.1 hi
    exact (List.set_eq_of_length_le (by rw [values_length]; exact hle)).symm
  | some a =>
    obtain ⟨hlt, ha⟩ := List.getElem?_eq_some_iff.1 hi
    have hb : a < m.lists.length := h.bound a (ha ▸ List.getElem_mem hlt)
    apply List.ext_getElem?
    intro j
    rw [List.getElem?_set]
    simp only [values_eq, List.getElem?_map, List.length_map, hlt, if_true]
    by_cases hij : i = j
    · subst hij
      rw [if_pos rfl, hi]
      simp [List.getD_eq_getElem?_getD, hb]
    · rw [if_neg hij]
      cases hj : m.objs[j]? with
      | none => rfl
      | some b =>
        have hab : a ≠ b := by
          rintro rfl
          obtain ⟨hlt', hb'⟩ := List.getElem?_eq_some_iff.1 hj
          exact hij ((List.Nodup.getElem_inj_iff h.nodup).1 (ha.trans hb'.symm))
        simp [List.getD_eq_getElem?_getD, List.getElem?_set_ne hab]

/-- One step does to the values what it should. -/
def StepOK (m : Mem) (op : Op) (x : Mem × Except Exc (Option Nat)) : Prop :=
  Own x.1 ∧ selValues x.1 = selAct (selValues m) op ∧ x.2 = selReturn (selValues m) op

theorem step_new {m : Mem} (h : Own m) {op : Op} {r : Row}
    (ho : selOutcome (fun i => (selValues m).getD i []) op = .new r) : StepOK m op (newObj m r) := by
  refine ⟨own_new h r, ?_, ?_⟩
  · rw [values_new h]
    simp only [selAct, ho]
  · simp only [selReturn, ho, values_length]
    rfl

theorem step_construct {m : Mem} (h : Own m) {op : Op} {r : Row}
    (ho : selOutcome (fun i => (selValues m).getD i []) op = checked r) : StepOK m op (construct m r) := by
  unfold construct
  rcases init_checked r with ⟨e, h1, h2⟩ | ⟨h1, h2⟩
  · rw [h1]
    rw [h2] at ho
    refine ⟨h, ?_, ?_⟩
    · simp only [selAct, ho]
    · simp only [selReturn, ho]
  · rw [h1]
    rw [h2] at ho
    exact step_new h ho

theorem step_store {m : Mem} (h : Own m) {op : Op} {i : Nat} {r : Row}
    (ho : selOutcome (fun i => (selValues m).getD i []) op = .becomes i r) (hx : ∀ i j, op ≠ .extend i j) :
    StepOK m op (inPlace m i (.ok r)) := by
  refine ⟨own_store h i r, ?_, ?_⟩
  · simp only [inPlace, values_store h, selAct, ho]
  · simp only [selReturn, ho, inPlace]

theorem step_raises {m : Mem} (h : Own m) {op : Op} {e : Exc}
    (ho : selOutcome (fun i => (selValues m).getD i []) op = .raises e) : StepOK m op (m, .error e) := by
  refine ⟨h, ?_, ?_⟩
  · simp only [selAct, ho]
  · simp only [selReturn, ho]

theorem row_new {m : Mem} (h : Own m) (r : Row) : (newObj m r).1.row m.objs.length = r := by
  rw [← values_getD, values_new h]
  simp [List.getD_eq_getElem?_getD, values_length]

theorem step_plus {m : Mem} (h : Own m) (i j : Nat) : StepOK m (.plus i j) (plusObj m i j) := by
  have hv : ∀ i, (selValues m).getD i [] = m.row i := values_getD m
  unfold plusObj construct
  rcases init_checked (m.row i) with ⟨e, h1, h2⟩ | ⟨h1, h2⟩
  · rw [h1]
    exact step_raises h (by simp only [selOutcome, hv, h2])
  · rw [h1]
    have ho : selOutcome (fun i => (selValues m).getD i []) (.plus i j) = .new (m.row i ++ m.row j) := by
      simp only [selOutcome, hv, h2]
    show StepOK m (.plus i j) ((newObj m (m.row i)).1.store m.objs.length
      (FS.extend ((newObj m (m.row i)).1.row m.objs.length) (m.row j)), .ok (some m.objs.length))
    refine ⟨own_store (own_new h _) _ _, ?_, ?_⟩
    · rw [values_store (own_new h _), row_new h, values_new h, ← values_length]
      simp only [selAct, ho, FS.extend]
      simp [List.set_append]
    · simp only [selReturn, ho, values_length]

theorem take_drop_range {α : Type} (l : List α) (a b : Nat) : (List.range l.length).filterMap
    (fun k => if a ≤ k ∧ k < b then l[k]? else none) = (l.take b).drop a := by
  induction l generalizing a b with
  | nil => simp
  | cons x l ih =>
    rw [List.length_cons, List.range_succ_eq_map, List.filterMap_cons]
    simp only [List.getElem?_cons_zero, List.filterMap_map, Function.comp_def, Nat.succ_eq_add_one,
      List.getElem?_cons_succ]
    cases b with
    | zero => simp
    | succ b =>
      cases a with
      | zero =>
        have := ih 0 b
        simp only [Nat.zero_le, true_and, List.drop_zero] at this
        simp [this]
      | succ a =>
        have := ih a b
        simp [this]

theorem clamp_bound (n k : Nat) (i : Int) (hk : k < n) :
    (boundAt n i ≤ k ↔ FS.clampIdx n i ≤ k) ∧ ((k : Int) < boundAt n i ↔ k < FS.clampIdx n i) := by
  unfold boundAt FS.clampIdx
  split <;> constructor <;> omega

theorem slice_cut (r : Row) (lo hi : Option Int) : rowSlice r lo hi = cut r lo hi := by
  unfold rowSlice cut
  rw [← take_drop_range]
  apply List.filterMap_congr
  intro k hk
  have hk := List.mem_range.1 hk
  congr 1
  refine propext (and_congr ?_ ?_)
  · cases lo with
    | none => simp
    | some i => simp [(clamp_bound r.length k i hk).1]
  · cases hi with
    | none => simp [hk]
    | some i => simp [(clamp_bound r.length k i hk).2]

theorem step_ok {m : Mem} (h : Own m) {op : Op} (hop : NoShallow op) : StepOK m op (step m op) := by
  have hv : ∀ i, (selValues m).getD i [] = m.row i := values_getD m
  cases op with
  | make xs => exact step_construct h rfl
  | remake i => exact step_construct h (by simp only [selOutcome, hv])
  | addProperty i e =>
    rcases e with (s | n | _) | b
    · exact step_store h (by simp only [selOutcome, hv]) (fun _ _ => by simp)
    all_goals exact step_raises h rfl
  | addIndex i e =>
    rcases e with (s | n | _) | b
    · exact step_raises h rfl
    · exact step_store h (by simp only [selOutcome, hv]) (fun _ _ => by simp)
    all_goals exact step_raises h rfl
  | addFullCollection i => exact step_store h (by simp only [selOutcome, hv]; rfl) (fun _ _ => by simp)
  | extend i j =>
    refine ⟨own_store h i _, ?_, ?_⟩
    · simp only [step, extendObj, values_store h, selAct, selOutcome, hv, FS.extend]
    · simp only [selReturn, selOutcome, step, extendObj]
  | plus i j => exact step_plus h i j
  | plusItems i xs => exact step_construct h (by simp only [selOutcome, hv])
  | plusComp i e =>
    rcases e with (s | n | _) | b
    · exact step_construct h (by simp only [selOutcome, hv])
    · exact step_construct h (by simp only [selOutcome, hv])
    all_goals exact step_raises h rfl
  | slice i lo hi => exact step_construct h (by simp only [selOutcome, hv, slice_cut])
  | copy i => exact absurd hop (by simp [NoShallow])
  | deepcopy i => exact step_new h (by simp only [selOutcome, hv])

theorem run_ok {m : Mem} (h : Own m) (ops : List Op) (hops : ∀ op ∈ ops, NoShallow op) :
    Own (run m ops).1 ∧ (selValues (run m ops).1, (run m ops).2) = selActs (selValues m) ops := by
  induction ops generalizing m with
  | nil => exact ⟨h, rfl⟩
  | cons op ops ih =>
    obtain ⟨h1, h2, h3⟩ := step_ok h (hops op List.mem_cons_self)
    obtain ⟨h4, h5⟩ := ih h1 (fun o ho => hops o (List.mem_cons_of_mem _ ho))
    refine ⟨h4, ?_⟩
    simp only [run, selActs, ← h2, ← h3, ← h5]

/-- **C132 (what holds).** In programs that do not use `copy.copy`, selectors are values. -/
theorem C132_partial (ops : List Op) (hops : ∀ op ∈ ops, NoShallow op) :
    (selValues (run start ops).1, (run start ops).2) = selActs [] ops :=
  (run_ok own_start ops hops).2

/-- A program that extends, adds, slices and pickles. -/
def prog : List Op := [.make [.ok (.str "a")], .make [.ok (.int 1)], .plus 0 1, .extend 0 1, .addProperty 1 (.ok (.str "b")),
  .deepcopy 0, .addFullCollection 0, .slice 3 (some 1) none, .addIndex 3 (.ok (.str "x")), .extend 2 2]

example : (∀ op ∈ prog, NoShallow op) ∧ selValues (run start prog).1 = [[.ok (.str "a"), .ok (.int 1), .ok .none],
    [.ok (.int 1), .ok (.str "b")], [.ok (.str "a"), .ok (.int 1), .ok (.str "a"), .ok (.int 1)],
    [.ok (.str "a"), .ok (.int 1)], [.ok (.int 1)]] := by
  refine ⟨?_, by decide +kernel⟩
  intro op h
  simp only [prog, List.mem_cons, List.not_mem_nil, or_false] at h
  rcases h with rfl | rfl | rfl | rfl | rfl | rfl | rfl | rfl | rfl | rfl <;> trivial

/-- **C132 does not hold**: `copy.copy` gives a selector with the same list, and extending it extends the original. -/
theorem C132_violated : ¬ C132_statement := by
  intro h
  have := congrArg Prod.fst (h [.make [.ok (.str "a")], .copy 0, .addProperty 1 (.ok (.str "b"))])
  exact absurd this (by decide +kernel)

/-! ## What `copy.copy` does -/

/-- The two selectors have the same list. -/
def Shares (m : Mem) (i j : Nat) : Prop := ∃ a, m.objs[i]? = some a ∧ m.objs[j]? = some a

/-- After any program, what changes one selector changes exactly those that share its list, in the same way; a copy made
by `copy.copy` shares the list of the original. -/
theorem C132_shared (ops : List Op) (i j : Nat) (op : Op) (ht : selTarget op = some i) :
    (Shares (run start ops).1 i j → (step (run start ops).1 op).1.row j = (step (run start ops).1 op).1.row i) ∧
    (¬ Shares (run start ops).1 i j → (step (run start ops).1 op).1.row j = (run start ops).1.row j) ∧
    (i < (run start ops).1.objs.length → Shares (step (run start ops).1 (.copy i)).1 i (run start ops).1.objs.length) := by
  generalize (run start ops).1 = m
  have hstore : ∀ r, (Shares m i j → (m.store i r).row j = (m.store i r).row i) ∧
      (¬ Shares m i j → (m.store i r).row j = m.row j) := by
    intro r
    refine ⟨?_, fun h => ?_⟩
    · rintro ⟨a, h1, h2⟩
      simp [Mem.store, Mem.row, h1, h2]
    · unfold Mem.store
      cases hi : m.objs[i]? with
      | none => rfl
      | some a =>
        simp only [Mem.row]
        cases hj : m.objs[j]? with
        | none => rfl
        | some b =>
          have hab : a ≠ b := by
            rintro rfl
            exact h ⟨a, hi, hj⟩
          simp [List.getD_eq_getElem?_getD, List.getElem?_set_ne hab]
  have hraise : (Shares m i j → m.row j = m.row i) ∧ (¬ Shares m i j → m.row j = m.row j) := by
    refine ⟨?_, fun _ => rfl⟩
    rintro ⟨a, h1, h2⟩
    simp [Mem.row, h1, h2]
  have hin : ∀ x, (Shares m i j → (inPlace m i x).1.row j = (inPlace m i x).1.row i) ∧
      (¬ Shares m i j → (inPlace m i x).1.row j = m.row j) := by
    intro x
    cases x with
    | ok r => exact hstore r
    | error e => exact hraise
  have key : (Shares m i j → (step m op).1.row j = (step m op).1.row i) ∧
      (¬ Shares m i j → (step m op).1.row j = m.row j) := by
    cases op with
    | addProperty k e => cases ht; exact hin _
    | addIndex k e => cases ht; exact hin _
    | addFullCollection k => cases ht; exact hin _
    | extend k l => cases ht; exact hstore _
    | _ => cases ht
  refine ⟨key.1, key.2, fun h => ?_⟩
  refine ⟨m.objs[i], ?_, ?_⟩ <;> simp [step, h, List.getElem?_append_left]

example : Shares (run start [.make [.ok (.str "a")], .copy 0]).1 0 1 ∧
    ¬ Shares (run start [.make [.ok (.str "a")], .deepcopy 0]).1 0 1 := by
  refine ⟨⟨0, rfl, rfl⟩, ?_⟩
  rintro ⟨a, h1, h2⟩
  cases h1
  cases h2

/-! ## Hashes -/

/-- Equal selectors have equal hashes, so that either can be used to find what was stored under the other in a dict. -/
def C132_hash_statement : Prop :=
  ∀ (H : Nat → Int) (ops : List Op) (i j : Nat), eqThing (run start ops).1 i (.sel j) = .ok true → hashOf H i = hashOf H j

/-- **Equal selectors have different hashes**, if different objects have. -/
theorem C132_hash_violated : ¬ C132_hash_statement := by
  intro h
  have := h (fun i => i) [.make [.ok (.str "a")], .make [.ok (.str "a")]] 0 1 (by decide +kernel)
  exact absurd this (by decide +kernel)

/-- The entry for this object. -/
def lookupObj {V : Type} (i : Nat) (d : List (Nat × V)) : Option V := (d.find? (fun x => decide (x.1 = i))).map (·.2)

/-- What holds instead: if different objects have different hashes, a dict finds a selector by which object it is,
whatever was done to it and to others since. -/
theorem C132_dict {V : Type} (H : Nat → Int) (hH : Function.Injective H) (ops : List Op) (i : Nat) (d : List (Nat × V)) :
    dictGet H (run start ops).1 i d = lookupObj i d := by
  induction d with
  | nil => rfl
  | cons x d ih =>
    obtain ⟨j, v⟩ := x
    simp only [dictGet, lookupObj, List.find?_cons]
    by_cases hj : j = i
    · simp [hj]
    · rw [if_neg (fun h => hj (hH h.1)), ih]
      simp [hj, lookupObj]

example : dictGet (fun i => i) (run start [.make [.ok (.str "a")], .make [.ok (.str "a")], .addFullCollection 0]).1 0
    [(1, "one"), (0, "zero")] = some "zero" := by decide +kernel

/-! ## Comparing -/

/-- A selector can be compared with anything. -/
def C132_compare_statement : Prop := ∀ (ops : List Op) (i : Nat) (t : Thing), ∃ b, eqThing (run start ops).1 i t = .ok b

/-- **A selector cannot be compared with what is no selector**: `==` raises `TypeError`. -/
theorem C132_compare_violated : ¬ C132_compare_statement := by
  intro h
  obtain ⟨b, hb⟩ := h [.make []] 0 (.other 0 none)
  cases hb

/-- `==` and `!=` are opposite on selectors, and say whether the components are the same; with anything else, `==`
raises, and `!=` looks for an attribute `selectors` (its `==` may say otherwise); `in` of a list raises if
something that is no selector comes before all the selectors that are equal, and else says whether there is one. -/
theorem C132_compare_partial (ops : List Op) (i : Nat) :
    (∀ j, eqThing (run start ops).1 i (.sel j) = .ok (decide ((run start ops).1.row i = (run start ops).1.row j)) ∧
      neThing (run start ops).1 i (.sel j) = .ok (decide ((run start ops).1.row i ≠ (run start ops).1.row j))) ∧
    (∀ n r, eqThing (run start ops).1 i (.other n r) = .error .typeError) ∧
    (∀ n, neThing (run start ops).1 i (.other n none) = .error .attributeError) ∧
    (∀ n r, neThing (run start ops).1 i (.other n (some r)) = .ok (decide ((run start ops).1.row i ≠ r))) ∧
    ∀ ts, (inList (run start ops).1 i ts = .ok true ↔ ∃ (js : List Nat) (j : Nat) (rest : List Thing), ts = js.map Thing.sel ++ .sel j :: rest ∧
        (run start ops).1.row i = (run start ops).1.row j) ∧
      (inList (run start ops).1 i ts = .ok false ↔ ∃ js : List Nat, ts = js.map Thing.sel ∧
        ∀ j ∈ js, (run start ops).1.row i ≠ (run start ops).1.row j) := by
  refine ⟨fun j => ⟨rfl, rfl⟩, fun _ _ => rfl, fun _ => rfl, fun _ _ => rfl, ?_⟩
  generalize (run start ops).1 = m
  intro ts
  induction ts with
  | nil =>
    refine ⟨⟨fun h => (by cases h), ?_⟩, fun _ => ⟨[], rfl, by simp⟩, fun _ => rfl⟩
    rintro ⟨js, j, rest, h, _⟩
    simp at h
  | cons t ts ih =>
    cases t with
    | other n r =>
      refine ⟨⟨fun h => (by simp [inList, eqThing] at h), ?_⟩, fun h => (by simp [inList, eqThing] at h), ?_⟩
      · rintro ⟨js, j, rest, h, _⟩
        cases js <;> simp at h
      · rintro ⟨js, h, _⟩
        cases js <;> simp at h
    | sel k =>
      by_cases hk : m.row i = m.row k
      · have ht : inList m i (.sel k :: ts) = .ok true := by
          simp [inList, eqThing, hk]
        rw [ht]
        refine ⟨⟨fun _ => ⟨[], k, ts, rfl, hk⟩, fun _ => rfl⟩, fun h => (by cases h), ?_⟩
        rintro ⟨js, h, hjs⟩
        cases js with
        | nil => simp at h
        | cons j js =>
          simp only [List.map_cons, List.cons.injEq, Thing.sel.injEq] at h
          exact absurd hk (h.1 ▸ hjs j List.mem_cons_self)
      · have hne : k ≠ i := by
          rintro rfl
          exact hk rfl
        have ht : inList m i (.sel k :: ts) = inList m i ts := by
          simp [inList, eqThing, hk, hne]
        rw [ht, ih.1, ih.2]
        constructor
        · constructor
          · rintro ⟨js, j, rest, rfl, h⟩
            exact ⟨k :: js, j, rest, rfl, h⟩
          · rintro ⟨js, j, rest, h, hj⟩
            cases js with
            | nil =>
              simp only [List.map_nil, List.nil_append, List.cons.injEq, Thing.sel.injEq] at h
              exact absurd (h.1 ▸ hj) hk
            | cons j' js =>
              simp only [List.map_cons, List.cons_append, List.cons.injEq, Thing.sel.injEq] at h
              exact ⟨js, j, rest, h.2, hj⟩
        · constructor
          · rintro ⟨js, rfl, h⟩
            exact ⟨k :: js, rfl, by simpa using ⟨hk, h⟩⟩
          · rintro ⟨js, h, hjs⟩
            cases js with
            | nil => simp at h
            | cons j' js =>
              simp only [List.map_cons, List.cons.injEq, Thing.sel.injEq] at h
              exact ⟨js, h.2, fun j hj => hjs j (List.mem_cons_of_mem _ hj)⟩

example : inList (run start [.make [.ok (.str "a")], .make []]).1 0 [.sel 1, .sel 0, .other 3 none] = .ok true ∧
    inList (run start [.make [.ok (.str "a")], .make []]).1 0 [.sel 1, .other 3 none, .sel 0] = .error .typeError := by
  decide +kernel

end Normalize.SelObj
