import Verif.Spec.PySlice
import Mathlib.Tactic.Ring
import Mathlib.Tactic.Linarith
import Mathlib.Tactic.Positivity

/-! C34: the operations that collections forward to python lists. -/

namespace Normalize.Py

open Normalize.Spec

variable {α : Type}

theorem lt_count_up (s : Slice) (n j : Nat) (h : 0 < s.stride) : j < s.count n ↔ s.first n + j * s.stride < s.last n := by
  have hn : ¬ s.stride < 0 := by omega
  have hj : 0 ≤ (j : Int) * s.stride := by positivity
  unfold Slice.count
  rw [if_neg hn]
  split
  · rename_i hlt
    have h0 : 0 ≤ (s.last n - s.first n - 1) / s.stride := Int.ediv_nonneg (by omega) (by omega)
    have := Int.le_ediv_iff_mul_le h (a := (j : Int)) (b := s.last n - s.first n - 1)
    omega
  · omega

theorem lt_count_down (s : Slice) (n j : Nat) (h : s.stride < 0) : j < s.count n ↔ s.last n < s.first n + j * s.stride := by
  have hj : 0 ≤ (j : Int) * -s.stride := Int.mul_nonneg (by omega) (by omega)
  have hj' : (j : Int) * -s.stride = -(j * s.stride) := by ring
  unfold Slice.count
  rw [if_pos h]
  split
  · rename_i hlt
    have h0 : 0 ≤ (s.first n - s.last n - 1) / -s.stride := Int.ediv_nonneg (by omega) (by omega)
    have := Int.le_ediv_iff_mul_le (c := -s.stride) (by omega) (a := (j : Int)) (b := s.first n - s.last n - 1)
    omega
  · omega

/-- The positions of a slice are those that the language reference says. -/
theorem C34_slice_positions (s : Slice) (n k : Nat) (h : s.stride ≠ 0) : k ∈ s.positions n ↔ InSlice s n k := by
  unfold Slice.positions InSlice
  rw [List.mem_map]
  simp only [List.mem_range]
  have hst : s.step.getD 1 = s.stride := rfl
  rw [hst]
  by_cases hp : 0 < s.stride
  · simp only [if_pos hp, lt_count_up s n _ hp]
    have hn : ¬ s.stride < 0 := by omega
    have hL : ∀ x : Int, 0 ≤ x → (x < s.last n ↔ x < n ∧ ∀ i, s.stop = some i → x < absolute n i) := by
      intro x hx
      unfold Slice.last adjust absolute
      cases s.stop with
      | none => simp [hn]
      | some i => simp only [hn, decide_false, Bool.false_eq_true, if_false, Option.some.injEq, forall_eq']; grind
    have hb : 0 ≤ fromBelow n s.start := by cases s.start <;> simp [fromBelow]
    have hF : s.first n = min (fromBelow n s.start) n := by
      unfold Slice.first adjust fromBelow absolute
      cases s.start with
      | none => simp [hn]
      | some i => simp only [hn, decide_false, Bool.false_eq_true, if_false]; grind
    generalize fromBelow n s.start = b at hF hb ⊢
    constructor
    · rintro ⟨j, hj, rfl⟩
      have h0 : 0 ≤ (j : Int) * s.stride := by positivity
      have := (hL _ (by omega)).1 hj
      refine ⟨by omega, fun i hi => ?_, j, by omega⟩
      have := this.2 i hi
      omega
    · rintro ⟨hk, hs, j, hj⟩
      have h0 : 0 ≤ (j : Int) * s.stride := by positivity
      refine ⟨j, (hL _ (by omega)).2 ⟨by omega, fun i hi => ?_⟩, by omega⟩
      have := hs i hi
      omega
  · have hn : s.stride < 0 := by omega
    simp only [if_neg hp, lt_count_down s n _ hn]
    have hL : ∀ x : Int, x < n → (s.last n < x ↔ 0 ≤ x ∧ ∀ i, s.stop = some i → absolute n i < x) := by
      intro x hx
      unfold Slice.last adjust absolute
      cases s.stop with
      | none => simp [hn]; omega
      | some i => simp only [hn, decide_true, if_true, Option.some.injEq, forall_eq']; grind
    have hb : fromAbove n s.start ≤ n - 1 := by cases s.start <;> simp [fromAbove]
    have hF : s.first n = max (fromAbove n s.start) (-1) := by
      unfold Slice.first adjust fromAbove absolute
      cases s.start with
      | none => simp [hn] <;> omega
      | some i => simp only [hn, decide_true, if_true]; grind
    generalize fromAbove n s.start = b at hF hb ⊢
    constructor
    · rintro ⟨j, hj, rfl⟩
      have h0 : 0 ≤ (j : Int) * -s.stride := Int.mul_nonneg (by omega) (by omega)
      have h1 : (j : Int) * -s.stride = -(j * s.stride) := by ring
      have := (hL _ (by omega)).1 hj
      refine ⟨by omega, fun i hi => ?_, j, by omega⟩
      have := this.2 i hi
      omega
    · rintro ⟨hk, hs, j, hj⟩
      have h0 : 0 ≤ (j : Int) * -s.stride := Int.mul_nonneg (by omega) (by omega)
      have h1 : (j : Int) * -s.stride = -(j * s.stride) := by ring
      refine ⟨j, (hL _ (by omega)).2 ⟨by omega, fun i hi => ?_⟩, by omega⟩
      have := hs i hi
      omega

/-- They are in order: upwards for a positive step, downwards for a negative one. -/
theorem C34_slice_order (s : Slice) (n : Nat) :
    (0 < s.stride → (s.positions n).Pairwise (· < ·)) ∧ (s.stride < 0 → (s.positions n).Pairwise (· > ·)) := by
  have key : ∀ j < s.count n, ∀ hs : s.stride ≠ 0, 0 ≤ s.first n + j * s.stride := by
    intro j hj hs
    rcases Int.lt_or_gt_of_ne hs with h | h
    · have := (lt_count_down s n j h).1 hj
      have : -1 ≤ s.last n := by
        unfold Slice.last adjust
        cases s.stop with
        | none => simp [h]
        | some i => simp only [h, decide_true, if_true]; grind
      omega
    · have h0 : 0 ≤ (j : Int) * s.stride := by positivity
      have : 0 ≤ s.first n := by
        have hn : ¬ s.stride < 0 := by omega
        unfold Slice.first adjust
        cases s.start with
        | none => simp [hn]
        | some i => simp only [hn, decide_false, Bool.false_eq_true, if_false]; grind
      omega
  unfold Slice.positions
  refine ⟨fun h => ?_, fun h => ?_⟩
  · refine List.pairwise_map.2 ((List.pairwise_lt_range).imp_of_mem ?_)
    intro a b ha hb hab
    have h1 := key a (List.mem_range.1 ha) (by omega)
    have : (a : Int) * s.stride < b * s.stride := Int.mul_lt_mul_of_pos_right (by omega) h
    omega
  · refine List.pairwise_map.2 ((List.pairwise_lt_range).imp_of_mem ?_)
    intro a b ha hb hab
    have h1 := key b (List.mem_range.1 hb) (by omega)
    have : (b : Int) * s.stride < a * s.stride := Int.mul_lt_mul_of_neg_right (by omega) h
    show _ < _
    omega

/-- `xs[s]` has the items at the positions of the slice, in their order. -/
theorem C34_slice_get (xs ys : List α) (s : Slice) (h : getSlice xs s = .ok ys) :
    s.stride ≠ 0 ∧ ItemsAt xs (s.positions xs.length) ys := by
  unfold getSlice at h
  split at h
  · cases h
  · rename_i hs
    cases h
    refine ⟨hs, ?_⟩
    have : ∀ k ∈ s.positions xs.length, k < xs.length := fun k hk => ((C34_slice_positions s _ k hs).1 hk).1
    unfold ItemsAt
    generalize s.positions xs.length = ps at this ⊢
    induction ps with
    | nil => exact .nil
    | cons k ks ih =>
      have hk := this k (by simp)
      simp only [List.filterMap_cons, List.getElem?_eq_getElem hk]
      exact .cons (List.getElem?_eq_getElem hk) (ih fun k' hk' => this k' (by simp [hk']))

theorem items_filter (xs : List α) (p : Nat → Bool) : ∀ (zs : List α) (o : Nat), (∀ i x, zs[i]? = some x → xs[o + i]? = some x) →
    ItemsAt xs ((List.range' o zs.length).filter p) (((zs.zipIdx o).filter (fun e => p e.2)).map (·.1))
  | [], o, _ => .nil
  | z :: zs, o, h => by
    have ih := items_filter xs p zs (o + 1) (fun i x hi => by
      have := h (i + 1) x (by simpa using hi)
      rwa [show o + 1 + i = o + (i + 1) by omega])
    have h0 := h 0 z rfl
    simp only [List.length_cons, List.range'_succ, List.zipIdx_cons, List.filter_cons]
    cases hp : p o with
    | true => exact .cons h0 ih
    | false => exact ih

/-- `del xs[s]` leaves the items at the other positions, in their order. -/
theorem C34_slice_del (xs ys : List α) (s : Slice) (h : delSlice xs s = .ok ys) :
    ∃ ks : List Nat, ks.Pairwise (· < ·) ∧ (∀ k, k ∈ ks ↔ k < xs.length ∧ ¬ InSlice s xs.length k) ∧ ItemsAt xs ks ys := by
  unfold delSlice at h
  split at h
  · cases h
  · rename_i hs
    cases h
    refine ⟨(List.range xs.length).filter (fun k => k ∉ s.positions xs.length), List.pairwise_lt_range.filter _, ?_, ?_⟩
    · intro k
      simp [C34_slice_positions s _ k hs]
    · rw [List.range_eq_range']
      exact items_filter xs (fun k => k ∉ s.positions xs.length) xs 0 (fun i x hi => by simpa using hi)

/-- `xs[a:b] = ys` puts the items in place of the selected part, or where it would be if nothing is selected. -/
theorem C34_slice_set (xs ys zs : List α) (s : Slice) (hs : s.step = none ∨ s.step = some 1) (h : setSlice xs s ys = .ok zs) :
    ∃ a b : Nat, (a : Int) = min (fromBelow xs.length s.start) xs.length ∧ a ≤ b ∧ b ≤ xs.length ∧
      (∀ k, InSlice s xs.length k ↔ a ≤ k ∧ k < b) ∧ zs = xs.take a ++ ys ++ xs.drop b := by
  have h1 : s.stride = 1 := by rcases hs with hs | hs <;> simp [Slice.stride, hs]
  have hn : ¬ s.stride < 0 := by omega
  have hF : s.first xs.length = min (fromBelow xs.length s.start) xs.length := by
    unfold Slice.first adjust fromBelow absolute
    cases s.start with
    | none => simp [hn]
    | some i => simp only [hn, decide_false, Bool.false_eq_true, if_false]; grind
  have hb : 0 ≤ fromBelow xs.length s.start := by cases s.start <;> simp [fromBelow]
  have hL : s.last xs.length ≤ xs.length := by
    unfold Slice.last adjust
    cases s.stop with
    | none => simp [hn]
    | some i => simp only [hn, decide_false, Bool.false_eq_true, if_false]; grind
  simp only [setSlice, h1] at h
  simp only [one_ne_zero, if_false, if_true, Except.ok.injEq] at h
  refine ⟨_, _, ?_, ?_, ?_, ?_, h.symm⟩
  · omega
  · omega
  · omega
  · intro k
    rw [← C34_slice_positions s _ k (by omega), Slice.positions, List.mem_map]
    simp only [List.mem_range, lt_count_up s _ _ (by omega : 0 < s.stride), h1]
    constructor
    · rintro ⟨j, hj, rfl⟩
      omega
    · intro hk
      exact ⟨k - (s.first xs.length).toNat, by omega, by omega⟩

/-- `xs[a:b:c] = ys` replaces the selected items, in the order of the positions, and no other. -/
theorem C34_slice_set_step (xs ys zs : List α) (s : Slice) (hs : s.stride ≠ 1) (h : setSlice xs s ys = .ok zs) :
    zs.length = xs.length ∧ ItemsAt zs (s.positions xs.length) ys ∧ ∀ k, ¬ InSlice s xs.length k → zs[k]? = xs[k]? := by
  unfold setSlice at h
  split at h
  · cases h
  rename_i h0
  split at h
  · rename_i hl
    cases h
    have hnd : (s.positions xs.length).Nodup := by
      have := C34_slice_order s xs.length
      rcases Int.lt_or_gt_of_ne h0 with h | h
      · exact (this.2 h).imp (fun h => Nat.ne_of_gt h)
      · exact (this.1 h).imp (fun h => Nat.ne_of_lt h)
    have hlen : ys.length = (s.positions xs.length).length := by simp [hl, Slice.positions]
    have hlt : ∀ k ∈ s.positions xs.length, k < xs.length := fun k hk => ((C34_slice_positions s _ k h0).1 hk).1
    have key : ∀ (ps : List Nat) (ys xs : List α), ps.Nodup → ys.length = ps.length → (∀ k ∈ ps, k < xs.length) →
        ((ps.zip ys).foldl (fun zs e => zs.set e.1 e.2) xs).length = xs.length ∧
        ItemsAt ((ps.zip ys).foldl (fun zs e => zs.set e.1 e.2) xs) ps ys ∧
        ∀ k, k ∉ ps → ((ps.zip ys).foldl (fun zs e => zs.set e.1 e.2) xs)[k]? = xs[k]? := by
      intro ps
      induction ps with
      | nil => intro ys xs _ hl _; cases ys with | nil => exact ⟨rfl, .nil, fun _ _ => rfl⟩ | cons _ _ => cases hl
      | cons p ps ih =>
        intro ys xs hnd hl hlt
        cases ys with
        | nil => cases hl
        | cons y ys =>
          have hp := List.nodup_cons.1 hnd
          obtain ⟨i1, i2, i3⟩ := ih ys (xs.set p y) hp.2 (by simpa using hl) (by intro k hk; simpa using hlt k (by simp [hk]))
          simp only [List.zip_cons_cons, List.foldl_cons]
          refine ⟨by simpa using i1, .cons ?_ i2, fun k hk => ?_⟩
          · rw [i3 p hp.1]
            simp [hlt p (by simp)]
          · rw [i3 k (fun h' => hk (by simp [h']))]
            exact List.getElem?_set_ne (fun h' => hk (by simp [h']))
    obtain ⟨k1, k2, k3⟩ := key _ ys xs hnd hlen hlt
    exact ⟨k1, k2, fun k hk => k3 k (fun h' => hk ((C34_slice_positions s _ k h0).1 h'))⟩
  · cases h

/-- `[0, 1, 2, 3, 4, 5][4:0:-2]` -/
example : getSlice [0, 1, 2, 3, 4, 5] ⟨some 4, some 0, some (-2)⟩ = .ok [4, 2] ∧
    delSlice [0, 1, 2, 3, 4, 5] ⟨some 4, some 0, some (-2)⟩ = .ok [0, 1, 3, 5] ∧
    setSlice [0, 1, 2, 3, 4, 5] ⟨some 4, some 0, some (-2)⟩ [7, 8] = .ok [0, 1, 8, 3, 7, 5] ∧
    setSlice [0, 1, 2, 3, 4, 5] ⟨some (-2), none, none⟩ [7] = .ok [0, 1, 2, 3, 7] := by decide +kernel

/-- A slice with step 0 is refused. -/
theorem C34_slice_zero (xs ys : List α) (s : Slice) (h : s.step = some 0) :
    getSlice xs s = .error .valueError ∧ delSlice xs s = .error .valueError ∧ setSlice xs s ys = .error .valueError := by
  have : s.stride = 0 := by simp [Slice.stride, h]
  simp [getSlice, delSlice, setSlice, this]

end Normalize.Py
