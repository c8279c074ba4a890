import Verif.Spec.Types
import Mathlib.Tactic.IntervalCases

/-!
# Dates and their texts
-/

namespace Normalize.Types

open Spec

theorem goodDate_iff {d : Date} : goodDate d = true ↔ RealDate d := by
  obtain ⟨y, m, d⟩ := d
  simp only [goodDate, Bool.and_eq_true, decide_eq_true_eq]
  constructor
  · rintro ⟨⟨⟨⟨⟨h1, h2⟩, h3⟩, h4⟩, h5⟩, h6⟩
    refine ⟨⟨h1, h2⟩, ⟨h3, h4⟩, h5, ?_, ?_, ?_⟩
    · intro h
      simp at h
      rcases h with rfl | rfl | rfl | rfl | rfl | rfl | rfl <;> simpa [daysIn] using h6
    · intro h
      simp at h
      rcases h with rfl | rfl | rfl | rfl <;> simpa [daysIn] using h6
    · rintro rfl
      simp only [daysIn, if_true] at h6
      split at h6
      · rename_i hl
        simp only [leap, Bool.and_eq_true, Bool.or_eq_true, beq_iff_eq, bne_iff_ne] at hl
        simp only
        omega
      · simp only
        omega
  · rintro ⟨⟨h1, h2⟩, ⟨h3, h4⟩, h5, h6, h7, h8⟩
    simp only at *
    refine ⟨⟨⟨⟨⟨h1, h2⟩, h3⟩, h4⟩, h5⟩, ?_⟩
    simp only [daysIn]
    split
    · rename_i hm
      have h8 := h8 hm
      split
      · omega
      · rename_i hl
        simp only [leap, Bool.and_eq_true, Bool.or_eq_true, beq_iff_eq, bne_iff_ne] at hl
        omega
    · split
      · rename_i hm
        exact h7 (by simpa using hm)
      · apply h6
        simp only [List.mem_cons, List.not_mem_nil, or_false]
        omega

theorem goodTime_iff {t : DateTime} : goodTime t = true ↔ RealTime t := by
  obtain ⟨d, h, mi, s, us, tz⟩ := t
  simp only [goodTime, Bool.and_eq_true, decide_eq_true_eq, goodDate_iff]
  constructor
  · rintro ⟨⟨⟨⟨⟨h1, h2⟩, h3⟩, h4⟩, h5⟩, h6⟩
    refine ⟨h1, h2, h3, h4, h5, ?_⟩
    rintro o rfl
    simp at h6
    omega
  · rintro ⟨h1, h2, h3, h4, h5, h6⟩
    refine ⟨⟨⟨⟨⟨h1, h2⟩, h3⟩, h4⟩, h5⟩, ?_⟩
    cases tz with
    | none => rfl
    | some o =>
      have := h6 o rfl
      simp
      omega

/-! ## Digits -/

theorem dig_toNat {k : Nat} (h : k < 10) : (dig k).toNat = 48 + k := by
  interval_cases k <;> rfl

theorem asciiDigit_iff {c : Char} {k : Nat} : asciiDigit c = some k ↔ c = dig k ∧ k < 10 := by
  unfold asciiDigit
  constructor
  · intro h
    split at h
    · rename_i hc
      cases h
      refine ⟨?_, by omega⟩
      have : 48 + (c.toNat - 48) = c.toNat := by omega
      rw [dig, this, Char.ofNat_toNat]
    · cases h
  · rintro ⟨rfl, h⟩
    rw [dig_toNat h, if_pos (by omega)]
    congr 1
    omega

theorem num_two {digit : Char → Option Nat} {cs : List Char} {n : Nat} :
    Num digit 2 cs n ↔ ∃ a b x y, cs = [a, b] ∧ digit a = some x ∧ digit b = some y ∧ x < 10 ∧ y < 10 ∧ n = 10 * x + y := by
  simp only [Num]
  constructor
  · rintro ⟨cs', c, n', k, rfl, rfl, hc, hk, cs'', c', n'', k', rfl, rfl, hc', hk', rfl, rfl⟩
    exact ⟨c', c, k', k, rfl, hc', hc, hk', hk, by omega⟩
  · rintro ⟨a, b, x, y, rfl, ha, hb, hx, hy, rfl⟩
    exact ⟨[a], b, x, y, rfl, rfl, hb, hy, [], a, 0, x, rfl, by omega, ha, hx, rfl, rfl⟩

theorem num_four {digit : Char → Option Nat} {cs : List Char} {n : Nat} :
    Num digit 4 cs n ↔ ∃ u v p q, cs = u ++ v ∧ Num digit 2 u p ∧ Num digit 2 v q ∧ n = 100 * p + q := by
  constructor
  · intro h
    simp only [Num] at h
    obtain ⟨cs', c, n', k, rfl, rfl, hc, hk, cs'', c', n'', k', rfl, rfl, hc', hk', d3, c3, n3, k3, rfl, rfl, hc3, hk3, d4, c4, n4, k4, rfl, rfl, hc4, hk4, rfl, rfl⟩ := h
    exact ⟨[c4, c3], [c', c], 10 * k4 + k3, 10 * k' + k, rfl, num_two.2 ⟨_, _, _, _, rfl, hc4, hc3, hk4, hk3, rfl⟩,
      num_two.2 ⟨_, _, _, _, rfl, hc', hc, hk', hk, rfl⟩, by omega⟩
  · rintro ⟨u, v, p, q, rfl, hu, hv, rfl⟩
    obtain ⟨a, b, x, y, rfl, ha, hb, hx, hy, rfl⟩ := num_two.1 hu
    obtain ⟨a', b', x', y', rfl, ha', hb', hx', hy', rfl⟩ := num_two.1 hv
    exact ⟨[a, b, a'], b', 100 * x + 10 * y + x', y', rfl, by omega, hb', hy', [a, b], a', 10 * x + y, x', rfl, by omega, ha', hx', num_two.2 ⟨_, _, _, _, rfl, ha, hb, hx, hy, rfl⟩⟩

theorem num_pad2 {cs : List Char} {n : Nat} : Num asciiDigit 2 cs n ↔ cs = pad2 n ∧ n < 100 := by
  rw [num_two]
  constructor
  · rintro ⟨a, b, x, y, rfl, ha, hb, hx, hy, rfl⟩
    obtain ⟨rfl, _⟩ := asciiDigit_iff.1 ha
    obtain ⟨rfl, _⟩ := asciiDigit_iff.1 hb
    have h1 : (10 * x + y) / 10 = x := by omega
    have h2 : (10 * x + y) % 10 = y := by omega
    exact ⟨by rw [pad2, h1, h2], by omega⟩
  · rintro ⟨rfl, h⟩
    exact ⟨_, _, n / 10, n % 10, rfl, asciiDigit_iff.2 ⟨rfl, by omega⟩, asciiDigit_iff.2 ⟨rfl, by omega⟩, by omega, by omega, by omega⟩

theorem num_pad4 {cs : List Char} {n : Nat} : Num asciiDigit 4 cs n ↔ cs = pad4 n ∧ n < 10000 := by
  rw [num_four]
  constructor
  · rintro ⟨u, v, p, q, rfl, hu, hv, rfl⟩
    obtain ⟨rfl, hp⟩ := num_pad2.1 hu
    obtain ⟨rfl, hq⟩ := num_pad2.1 hv
    have h1 : (100 * p + q) / 100 = p := by omega
    have h2 : (100 * p + q) % 100 = q := by omega
    exact ⟨by rw [pad4, h1, h2], by omega⟩
  · rintro ⟨rfl, h⟩
    exact ⟨_, _, n / 100, n % 100, rfl, num_pad2.2 ⟨rfl, by omega⟩, num_pad2.2 ⟨rfl, by omega⟩, by omega⟩

/-! ## What the directives match -/

variable {py : Py}

theorem alts_Y (hd : GoodDigits py.digit) {n : Nat} (h : n < 10000) (rest : List Char) : alts py .Y (pad4 n ++ rest) = [(n, rest)] := by
  have hdig : ∀ k, k < 10 → py.digit (dig k) = some k := fun k hk => hd.ascii _ _ (asciiDigit_iff.2 ⟨rfl, hk⟩)
  simp only [alts, four, pad4, pad2, List.cons_append, List.nil_append, two, hdig (n / 100 / 10) (by omega), hdig (n / 100 % 10) (by omega),
    hdig (n % 100 / 10) (by omega), hdig (n % 100 % 10) (by omega), List.flatMap_cons, List.flatMap_nil, List.append_nil, List.map_cons, List.map_nil]
  congr 2
  omega

theorem alts_y (hd : GoodDigits py.digit) {n : Nat} (h : n < 100) (rest : List Char) : alts py .y (pad2 n ++ rest) = [(n, rest)] := by
  have hdig : ∀ k, k < 10 → py.digit (dig k) = some k := fun k hk => hd.ascii _ _ (asciiDigit_iff.2 ⟨rfl, hk⟩)
  simp only [alts, pad2, List.cons_append, List.nil_append, two, hdig (n / 10) (by omega), hdig (n % 10) (by omega)]
  congr 2
  omega

theorem range_dig {lo hi k : Nat} (hk : k < 10) : range lo hi (dig k) = if lo ≤ k ∧ k ≤ hi then some k else none := by
  simp only [range, dig_toNat hk]
  split
  · rw [if_pos (by omega)]; congr 1; omega
  · rw [if_neg (by omega)]

theorem alts_m {n : Nat} (h1 : 1 ≤ n) (h : n ≤ 12) (rest : List Char) : ∃ l, alts py .m (pad2 n ++ rest) = (n, rest) :: l := by
  have h2 : n / 10 = 0 ∨ n / 10 = 1 := by omega
  simp only [alts, pad2, List.cons_append, List.nil_append, two, range_dig (k := n / 10) (by omega), range_dig (k := n % 10) (by omega)]
  rcases h2 with h2 | h2
  · have h3 : 1 ≤ n % 10 ∧ n % 10 ≤ 9 := by omega
    have h4 : n % 10 = n := by omega
    simp only [h2, h3, h4]
    simp
    simp [h4.symm ▸ h3.1, show n ≤ 9 by omega, h1]
  · have h3 : n % 10 ≤ 2 := by omega
    have h4 : n = 10 + n % 10 := by omega
    simp [h2, h3, ← h4]

theorem alts_d (hd : GoodDigits py.digit) {n : Nat} (h1 : 1 ≤ n) (h : n ≤ 31) (rest : List Char) : ∃ l, alts py .d (pad2 n ++ rest) = (n, rest) :: l := by
  have hdig : ∀ k, k < 10 → py.digit (dig k) = some k := fun k hk => hd.ascii _ _ (asciiDigit_iff.2 ⟨rfl, hk⟩)
  simp only [alts, pad2, List.cons_append, List.nil_append, two, range_dig (k := n / 10) (by omega), range_dig (k := n % 10) (by omega), hdig (n % 10) (by omega)]
  have h2 : n / 10 = 0 ∨ (n / 10 = 1 ∨ n / 10 = 2) ∨ n / 10 = 3 := by omega
  rcases h2 with h2 | h2 | h2
  · have h4 : n % 10 = n := by omega
    simp [h2, h4, show n ≤ 9 by omega, h1]
  · have h3 : 1 ≤ n / 10 ∧ n / 10 ≤ 2 := by omega
    have h4 : 10 * (n / 10) + n % 10 = n := by omega
    have h5 : ¬ (3 ≤ n / 10 ∧ n / 10 ≤ 3) := by omega
    simp [h3, h4, h5]
  · have h3 : n % 10 ≤ 1 := by omega
    have h4 : n = 30 + n % 10 := by omega
    simp [h2, h3, ← h4]

theorem alts_H (hd : GoodDigits py.digit) {n : Nat} (h : n < 24) (rest : List Char) : ∃ l, alts py .H (pad2 n ++ rest) = (n, rest) :: l := by
  have hdig : ∀ k, k < 10 → py.digit (dig k) = some k := fun k hk => hd.ascii _ _ (asciiDigit_iff.2 ⟨rfl, hk⟩)
  simp only [alts, pad2, List.cons_append, List.nil_append, two, range_dig (k := n / 10) (by omega), range_dig (k := n % 10) (by omega), hdig (n % 10) (by omega)]
  have h2 : n / 10 ≤ 1 ∨ n / 10 = 2 := by omega
  rcases h2 with h2 | h2
  · have h4 : 10 * (n / 10) + n % 10 = n := by omega
    have h5 : ¬ (2 ≤ n / 10 ∧ n / 10 ≤ 2) := by omega
    simp [h2, h4, h5]
  · have h3 : n % 10 ≤ 3 := by omega
    have h4 : n = 20 + n % 10 := by omega
    simp [h2, h3, ← h4]

theorem alts_M (hd : GoodDigits py.digit) {n : Nat} (h : n < 60) (rest : List Char) : ∃ l, alts py .M (pad2 n ++ rest) = (n, rest) :: l := by
  have hdig : ∀ k, k < 10 → py.digit (dig k) = some k := fun k hk => hd.ascii _ _ (asciiDigit_iff.2 ⟨rfl, hk⟩)
  simp only [alts, pad2, List.cons_append, List.nil_append, two, range_dig (k := n / 10) (by omega), hdig (n % 10) (by omega)]
  have h4 : 10 * (n / 10) + n % 10 = n := by omega
  have h5 : n / 10 ≤ 5 := by omega
  simp [h4, h5]

theorem alts_S (hd : GoodDigits py.digit) {n : Nat} (h : n < 60) (rest : List Char) : ∃ l, alts py .S (pad2 n ++ rest) = (n, rest) :: l := by
  have hdig : ∀ k, k < 10 → py.digit (dig k) = some k := fun k hk => hd.ascii _ _ (asciiDigit_iff.2 ⟨rfl, hk⟩)
  simp only [alts, pad2, List.cons_append, List.nil_append, two, range_dig (k := n / 10) (by omega), range_dig (k := n % 10) (by omega), hdig (n % 10) (by omega)]
  have h4 : 10 * (n / 10) + n % 10 = n := by omega
  have h5 : n / 10 ≤ 5 := by omega
  have h6 : ¬ (6 ≤ n / 10 ∧ n / 10 ≤ 6) := by omega
  simp [h4, h5, h6]

theorem run_step {d : Dir} {ds : List Dir} {s r rest : List Char} {v : Nat} {vs : List Nat} {l : List (Nat × List Char)} (h : alts py d s = (v, r) :: l)
    (hr : run py ds r = some (vs, rest)) : run py (d :: ds) s = some (v :: vs, rest) := by
  simp [run, h, firstOf, hr]

theorem alts_lit (c : Char) (rest : List Char) : alts py (.lit c) (c :: rest) = [(0, rest)] := by
  simp [alts, one]

/-! ## Texts that say a time are read -/

theorem stripped_append (a b : List Char) : stripped (a ++ b) = stripped a ++ stripped b := by simp [stripped]

theorem stripped_num {w : Nat} {cs : List Char} {n : Nat} (h : Num asciiDigit w cs n) : stripped cs = cs := by
  induction w generalizing cs n with
  | zero => simp only [Num] at h; simp [h.1, stripped]
  | succ w ih =>
    obtain ⟨cs', c, n', k, rfl, _, hc, _, h⟩ := h
    rw [stripped_append, ih h]
    congr 1
    obtain ⟨rfl, hk⟩ := asciiDigit_iff.1 hc
    interval_cases k <;> rfl

theorem stripped_year {cs : List Char} {y : Nat} (h : YearText asciiDigit cs y) : stripped cs = cs := by
  rcases h with h | ⟨n, h, _⟩ <;> exact stripped_num h

theorem stripped_cons (c : Char) (s : List Char) : stripped (c :: s) = if c = '-' ∨ c = 'T' ∨ c = ' ' then stripped s else c :: stripped s := by
  simp only [stripped, List.filter_cons]
  by_cases h1 : c = '-'
  · simp [h1]
  · by_cases h2 : c = 'T'
    · simp [h2]
    · by_cases h3 : c = ' '
      · simp [h3]
      · simp [h1, h2, h3]

theorem stripped_clock {cs : List Char} {t : DateTime} (h : ClockText asciiDigit cs t) : stripped cs = cs := by
  obtain ⟨hs, ms, ss, z, rfl, h1, h2, h3, h4⟩ := h
  have hz : stripped z = z := by
    simp at h4
    rcases h4 with rfl | rfl | rfl <;> rfl
  have hss : stripped ss = ss := by
    rcases h3 with ⟨rfl, _⟩ | ⟨s, rfl, hs⟩
    · rfl
    · rw [stripped_cons, stripped_num hs]; simp
  rw [stripped_append, stripped_append, stripped_append, stripped_cons, stripped_num h1, stripped_num h2, hz, hss]
  simp

theorem stripped_date {Year : List Char → Nat → Prop} (hy : ∀ cs y, Year cs y → stripped cs = cs) {a : List Char} {d : Date} (h : DateText asciiDigit Year a d) :
    ∃ ys ms ds, stripped a = ys ++ ms ++ ds ∧ Year ys d.year ∧ Num asciiDigit 2 ms d.month ∧ Num asciiDigit 2 ds d.day := by
  obtain ⟨ys, ms, ds, h1, h2, h3, h⟩ := h
  refine ⟨ys, ms, ds, ?_, h1, h2, h3⟩
  rcases h with rfl | rfl
  · rw [stripped_append, stripped_append, hy _ _ h1, stripped_num h2, stripped_num h3]
  · rw [stripped_append, stripped_append, stripped_cons, stripped_cons, hy _ _ h1, stripped_num h2, stripped_num h3]
    simp

theorem says_compact {s : List Char} {t : DateTime} (h : Says asciiDigit s t) : SaysCompact asciiDigit (stripped s) t := by
  obtain ⟨h1, h2, h⟩ := h
  refine ⟨h1, h2, ?_⟩
  rcases h with ⟨h, h3⟩ | ⟨a, sep, b, rfl, h, hsep, hb⟩
  · obtain ⟨ys, ms, ds, hs, hy, hm, hd⟩ := stripped_date (fun _ _ => stripped_year) h
    exact ⟨ys, ms, ds, [], by simp [hs], hy, hm, hd, .inl ⟨rfl, h3⟩⟩
  · obtain ⟨ys, ms, ds, hs, hy, hm, hd⟩ := stripped_date (fun _ _ => stripped_num) h
    refine ⟨ys, ms, ds, b, ?_, .inl hy, hm, hd, .inr ⟨hy, hb⟩⟩
    rw [stripped_append, hs, stripped_cons, stripped_clock hb]
    rcases hsep with rfl | rfl <;> simp

theorem alts_z {z : Char} (h : z = 'Z' ∨ z = 'z') (rest : List Char) : alts py (.lit 'Z') (z :: rest) = [(0, rest)] := by
  rcases h with rfl | rfl <;> simp [alts, one]

theorem pad2_length (n : Nat) : (pad2 n).length = 2 := rfl

theorem pad4_length (n : Nat) : (pad4 n).length = 4 := rfl

theorem strptime_ok {f : List Dir} {s : List Char} {vs : List Nat} {t : DateTime} (h : run py f s = some (vs, [])) (hf : fields f vs epoch = t) (ht : RealTime t) :
    strptime py f s = .ok t := by
  simp [strptime, h, hf, goodTime_iff.2 ht]

/-- All texts that say a date or time of the calendar are read as that. -/
theorem compact_reads (hd : GoodDigits py.digit) {s : List Char} {t : DateTime} (h : SaysCompact asciiDigit s t) (ht : RealTime t) :
    ∃ f, formats s.length = some f ∧ strptime py f s = .ok t := by
  obtain ⟨h1, h2, ys, ms, ds, c, rfl, hy, hm, hdd, h⟩ := h
  obtain ⟨rfl, _⟩ := num_pad2.1 hm
  obtain ⟨rfl, _⟩ := num_pad2.1 hdd
  have hday : t.date.day ≤ 31 := by
    have := ht.date
    have h3 := this.month
    by_cases h4 : t.date.month ∈ [1, 3, 5, 7, 8, 10, 12]
    · exact this.long h4
    · by_cases h5 : t.date.month ∈ [4, 6, 9, 11]
      · have := this.short h5; omega
      · have h6 := this.february (by simp only [List.mem_cons, List.not_mem_nil, or_false] at h4 h5; omega)
        omega
  obtain ⟨date, hour, minute, second, micro, tz⟩ := t
  obtain ⟨year, month, day⟩ := date
  simp only at *
  subst h1 h2
  obtain ⟨hr1, hr2, hr3, _⟩ := ht.date
  have hr4 := ht.hour
  have hr5 := ht.minute
  have hr6 := ht.second
  simp only at hr1 hr2 hr3 hr4 hr5 hr6
  have step_m : ∀ ds vs rest s', run py ds s' = some (vs, rest) → run py (.m :: ds) (pad2 month ++ s') = some (month :: vs, rest) := by
    intro ds vs rest s' h
    obtain ⟨l, hl⟩ := alts_m (py := py) hr2.1 hr2.2 s'
    exact run_step hl h
  have step_d : ∀ ds vs rest s', run py ds s' = some (vs, rest) → run py (.d :: ds) (pad2 day ++ s') = some (day :: vs, rest) := by
    intro ds vs rest s' h
    obtain ⟨l, hl⟩ := alts_d hd hr3 hday s'
    exact run_step hl h
  have step_H : ∀ ds vs rest s', run py ds s' = some (vs, rest) → run py (.H :: ds) (pad2 hour ++ s') = some (hour :: vs, rest) := by
    intro ds vs rest s' h
    obtain ⟨l, hl⟩ := alts_H hd hr4 s'
    exact run_step hl h
  have step_M : ∀ ds vs rest s', run py ds s' = some (vs, rest) → run py (.M :: ds) (pad2 minute ++ s') = some (minute :: vs, rest) := by
    intro ds vs rest s' h
    obtain ⟨l, hl⟩ := alts_M hd hr5 s'
    exact run_step hl h
  have step_S : ∀ ds vs rest s', run py ds s' = some (vs, rest) → run py (.S :: ds) (pad2 second ++ s') = some (second :: vs, rest) := by
    intro ds vs rest s' h
    obtain ⟨l, hl⟩ := alts_S hd hr6 s'
    exact run_step hl h
  have step_Y : ∀ ds vs rest s', run py ds s' = some (vs, rest) → run py (.Y :: ds) (pad4 year ++ s') = some (year :: vs, rest) := by
    intro ds vs rest s' h
    exact run_step (alts_Y hd (by omega) s') h
  have step_l : ∀ c ds vs rest s', run py ds s' = some (vs, rest) → run py (.lit c :: ds) (c :: s') = some (0 :: vs, rest) := by
    intro c ds vs rest s' h
    exact run_step (alts_lit c s') h
  have nil : run py [] [] = some ([], []) := rfl
  rcases h with ⟨rfl, rfl, rfl, rfl⟩ | ⟨hy, hc⟩
  · rcases hy with hy | ⟨n, hy, hn⟩
    · obtain ⟨rfl, _⟩ := num_pad4.1 hy
      refine ⟨[.Y, .m, .d], by simp [pad2_length, pad4_length, formats], strptime_ok (vs := [year, month, day]) ?_ rfl ht⟩
      have := step_Y _ _ _ _ (step_m _ _ _ _ (step_d _ _ _ _ nil))
      simpa using this
    · obtain ⟨rfl, hn2⟩ := num_pad2.1 hy
      refine ⟨[.y, .m, .d], by simp [pad2_length, formats], strptime_ok (vs := [n, month, day]) ?_ ?_ ht⟩
      · have := run_step (alts_y hd hn2 _) (step_m _ _ _ _ (step_d _ _ _ _ nil))
        simpa using this
      · simp only [fields, century, epoch]
        congr 2
        split <;> omega
  · obtain ⟨rfl, _⟩ := num_pad4.1 hy
    obtain ⟨hs, ms, ss, z, rfl, hh, hmi, hs, hz⟩ := hc
    obtain ⟨rfl, _⟩ := num_pad2.1 hh
    obtain ⟨rfl, _⟩ := num_pad2.1 hmi
    simp only at *
    have hz' : z = [] ∨ ∃ c, z = [c] ∧ (c = 'Z' ∨ c = 'z') := by
      simp at hz
      rcases hz with rfl | rfl | rfl
      · exact .inl rfl
      · exact .inr ⟨_, rfl, .inl rfl⟩
      · exact .inr ⟨_, rfl, .inr rfl⟩
    rcases hs with ⟨rfl, rfl⟩ | ⟨s, rfl, hs⟩
    · rcases hz' with rfl | ⟨c, rfl, hc⟩
      · refine ⟨[.Y, .m, .d, .H, .lit ':', .M], by simp [pad2_length, pad4_length, formats],
          strptime_ok (vs := [year, month, day, hour, 0, minute]) ?_ rfl ht⟩
        have := step_Y _ _ _ _ (step_m _ _ _ _ (step_d _ _ _ _ (step_H _ _ _ _ (step_l ':' _ _ _ _ (step_M _ _ _ _ nil)))))
        simpa using this
      · refine ⟨[.Y, .m, .d, .H, .lit ':', .M, .lit 'Z'], by simp [pad2_length, pad4_length, formats],
          strptime_ok (vs := [year, month, day, hour, 0, minute, 0]) ?_ rfl ht⟩
        have := step_Y _ _ _ _ (step_m _ _ _ _ (step_d _ _ _ _ (step_H _ _ _ _ (step_l ':' _ _ _ _ (step_M _ _ _ _ (run_step (alts_z hc []) nil))))))
        simpa using this
    · obtain ⟨rfl, _⟩ := num_pad2.1 hs
      rcases hz' with rfl | ⟨c, rfl, hc⟩
      · refine ⟨[.Y, .m, .d, .H, .lit ':', .M, .lit ':', .S], by simp [pad2_length, pad4_length, formats],
          strptime_ok (vs := [year, month, day, hour, 0, minute, 0, second]) ?_ rfl ht⟩
        have := step_Y _ _ _ _ (step_m _ _ _ _ (step_d _ _ _ _ (step_H _ _ _ _ (step_l ':' _ _ _ _ (step_M _ _ _ _ (step_l ':' _ _ _ _ (step_S _ _ _ _ nil)))))))
        simpa using this
      · refine ⟨[.Y, .m, .d, .H, .lit ':', .M, .lit ':', .S, .lit 'Z'], by simp [pad2_length, pad4_length, formats],
          strptime_ok (vs := [year, month, day, hour, 0, minute, 0, second, 0]) ?_ rfl ht⟩
        have := step_Y _ _ _ _ (step_m _ _ _ _ (step_d _ _ _ _ (step_H _ _ _ _ (step_l ':' _ _ _ _ (step_M _ _ _ _ (step_l ':' _ _ _ _ (step_S _ _ _ _
          (run_step (alts_z hc []) nil))))))))
        simpa using this

theorem fallback_reads (hd : GoodDigits py.digit) {s : List Char} {t : DateTime} (h : Says asciiDigit s t) (ht : RealTime t) : fallback py s = .ok t := by
  obtain ⟨f, hf, hs⟩ := compact_reads hd (says_compact h) ht
  simp [fallback, hf, hs]

/-! ## What is read says so -/

/-- How many characters a directive takes. -/
def width : Dir → Nat
  | .Y => 4
  | .lit _ => 1
  | _ => 2

def widths : List Dir → Nat
  | [] => 0
  | d :: ds => width d + widths ds

/-- The directive takes all these characters. -/
def Full (py : Py) : Dir → List Char → Nat → Prop
  | .lit c, a, _ => a = [c] ∨ (c = 'Z' ∧ a = ['z'])
  | d, a, v => Num py.digit (width d) a v

def Fits (py : Py) : List Dir → List Nat → List Char → Prop
  | [], [], s => s = []
  | d :: ds, v :: vs, s => ∃ a b, s = a ++ b ∧ Full py d a v ∧ Fits py ds vs b
  | _, _, _ => False

theorem two_spec {p q : Char → Option Nat} {s r : List Char} {v : Nat} (h : (v, r) ∈ two p q s) : ∃ a b x y, s = a :: b :: r ∧ p a = some x ∧ q b = some y ∧ v = 10 * x + y := by
  unfold two at h
  split at h
  · split at h
    · simp at h
      obtain ⟨rfl, rfl⟩ := h
      exact ⟨_, _, _, _, rfl, ‹_›, ‹_›, rfl⟩
    · cases h
  · cases h

theorem one_spec {p : Char → Option Nat} {s r : List Char} {v : Nat} (h : (v, r) ∈ one p s) : ∃ a, s = a :: r ∧ p a = some v := by
  unfold one at h
  split at h
  · split at h
    · simp at h
      obtain ⟨rfl, rfl⟩ := h
      exact ⟨_, rfl, ‹_›⟩
    · cases h
  · cases h

theorem range_digit (hd : GoodDigits py.digit) {lo hi : Nat} {c : Char} {k : Nat} (hh : hi ≤ 9) (h : range lo hi c = some k) : py.digit c = some k := by
  unfold range at h
  split at h
  · rename_i hc
    apply hd.ascii
    unfold asciiDigit
    rw [if_pos (by omega)]
    exact h
  · cases h

theorem full_two (hd : GoodDigits py.digit) {p q : Char → Option Nat} (hp : ∀ c k, p c = some k → py.digit c = some k) (hq : ∀ c k, q c = some k → py.digit c = some k)
    {s r : List Char} {v : Nat} (h : (v, r) ∈ two p q s) : ∃ a, s = a ++ r ∧ a.length = 2 ∧ Num py.digit 2 a v := by
  obtain ⟨a, b, x, y, rfl, ha, hb, rfl⟩ := two_spec h
  exact ⟨[a, b], rfl, rfl, num_two.2 ⟨a, b, x, y, rfl, hp _ _ ha, hq _ _ hb, hd.small _ _ (hp _ _ ha), hd.small _ _ (hq _ _ hb), rfl⟩⟩

theorem alts_spec (hd : GoodDigits py.digit) {d : Dir} {s r : List Char} {v : Nat} (hs : ' ' ∉ s) (h : (v, r) ∈ alts py d s) :
    ∃ a, s = a ++ r ∧ a.length ≤ width d ∧ (a.length = width d → Full py d a v) := by
  have of_two : ∀ {p q : Char → Option Nat}, (∀ c k, p c = some k → py.digit c = some k) → (∀ c k, q c = some k → py.digit c = some k) → (v, r) ∈ two p q s →
      width d = 2 → (∀ a v, Num py.digit 2 a v → Full py d a v) → ∃ a, s = a ++ r ∧ a.length ≤ width d ∧ (a.length = width d → Full py d a v) := by
    intro p q hp hq h hw hf
    obtain ⟨a, h1, h2, h3⟩ := full_two hd hp hq h
    exact ⟨a, h1, by omega, fun _ => hf _ _ h3⟩
  have of_one : ∀ {p : Char → Option Nat}, (v, r) ∈ one p s → width d = 2 → ∃ a, s = a ++ r ∧ a.length ≤ width d ∧ (a.length = width d → Full py d a v) := by
    intro p h hw
    obtain ⟨a, h1, _⟩ := one_spec h
    exact ⟨[a], h1, by simp; omega, fun hl => by simp at hl; omega⟩
  have rd : ∀ {lo hi : Nat}, hi ≤ 9 → ∀ c k, range lo hi c = some k → py.digit c = some k := fun hh c k h => range_digit hd hh h
  have dd : ∀ c k, py.digit c = some k → py.digit c = some k := fun _ _ h => h
  cases d with
  | Y =>
    simp only [alts, four, List.mem_flatMap, List.mem_map] at h
    obtain ⟨⟨x, r1⟩, h1, ⟨y, r2⟩, h2, h3⟩ := h
    cases h3
    obtain ⟨a, rfl, ha, hna⟩ := full_two hd dd dd h1
    obtain ⟨b, hb', hb, hnb⟩ := full_two hd dd dd h2
    simp only at hb'
    subst hb'
    exact ⟨a ++ b, by simp, by simp [ha, hb, width], fun _ => num_four.2 ⟨a, b, x, y, rfl, hna, hnb, rfl⟩⟩
  | y => exact of_two dd dd h rfl (fun _ _ h => h)
  | m =>
    simp only [alts, List.mem_append] at h
    rcases h with (h | h) | h
    · exact of_two (rd (by omega)) (rd (by omega)) h rfl (fun _ _ h => h)
    · exact of_two (rd (by omega)) (rd (by omega)) h rfl (fun _ _ h => h)
    · exact of_one h rfl
  | d =>
    simp only [alts, List.mem_append] at h
    rcases h with (((h | h) | h) | h) | h
    · exact of_two (rd (by omega)) (rd (by omega)) h rfl (fun _ _ h => h)
    · exact of_two (rd (by omega)) dd h rfl (fun _ _ h => h)
    · exact of_two (rd (by omega)) (rd (by omega)) h rfl (fun _ _ h => h)
    · exact of_one h rfl
    · obtain ⟨a, b, x, y, rfl, ha, _⟩ := two_spec h
      split at ha
      · rename_i hsp
        subst hsp
        exact absurd List.mem_cons_self hs
      · cases ha
  | H =>
    simp only [alts, List.mem_append] at h
    rcases h with (h | h) | h
    · exact of_two (rd (by omega)) (rd (by omega)) h rfl (fun _ _ h => h)
    · exact of_two (rd (by omega)) dd h rfl (fun _ _ h => h)
    · exact of_one h rfl
  | M =>
    simp only [alts, List.mem_append] at h
    rcases h with h | h
    · exact of_two (rd (by omega)) dd h rfl (fun _ _ h => h)
    · exact of_one h rfl
  | S =>
    simp only [alts, List.mem_append] at h
    rcases h with (h | h) | h
    · exact of_two (rd (by omega)) (rd (by omega)) h rfl (fun _ _ h => h)
    · exact of_two (rd (by omega)) dd h rfl (fun _ _ h => h)
    · exact of_one h rfl
  | lit c =>
    simp only [alts] at h
    obtain ⟨a, rfl, ha⟩ := one_spec h
    refine ⟨[a], rfl, by simp [width], fun _ => ?_⟩
    split at ha
    · rename_i hc
      rcases hc with rfl | ⟨h1, h2⟩
      · exact .inl rfl
      · subst h2
        exact .inr ⟨h1, rfl⟩
    · cases ha

theorem firstOf_spec {α β : Type} {f : α → Option β} {l : List α} {b : β} (h : firstOf f l = some b) : ∃ a ∈ l, f a = some b := by
  induction l with
  | nil => cases h
  | cons a l ih =>
    simp only [firstOf] at h
    split at h
    · rename_i b' hb
      cases h
      exact ⟨a, List.mem_cons_self, hb⟩
    · obtain ⟨a', ha', h'⟩ := ih h
      exact ⟨a', List.mem_cons_of_mem _ ha', h'⟩

theorem run_spec (hd : GoodDigits py.digit) {ds : List Dir} : ∀ {s rest : List Char} {vs : List Nat}, ' ' ∉ s → run py ds s = some (vs, rest) →
    ∃ pre, s = pre ++ rest ∧ pre.length ≤ widths ds ∧ (pre.length = widths ds → Fits py ds vs pre) := by
  induction ds with
  | nil =>
    intro s rest vs _ h
    simp only [run] at h
    cases h
    exact ⟨[], rfl, by simp [widths], fun _ => rfl⟩
  | cons d ds ih =>
    intro s rest vs hs h
    simp only [run] at h
    obtain ⟨⟨v, r⟩, ha, h⟩ := firstOf_spec h
    simp only [Option.map_eq_some_iff] at h
    obtain ⟨⟨vs', rest'⟩, hr, h⟩ := h
    cases h
    obtain ⟨a, rfl, h1, h2⟩ := alts_spec hd hs ha
    obtain ⟨pre, rfl, h3, h4⟩ := ih (fun hm => hs (List.mem_append_right _ hm)) hr
    refine ⟨a ++ pre, by simp, by simp [widths]; omega, fun hl => ?_⟩
    simp [widths] at hl
    exact ⟨a, pre, rfl, h2 (by omega), h4 (by omega)⟩

theorem formats_width {n : Nat} {f : List Dir} (h : formats n = some f) : widths f = n := by
  unfold formats at h
  split at h <;> first | (cases h; rfl) | cases h

theorem strptime_spec (hd : GoodDigits py.digit) {f : List Dir} {s : List Char} {t : DateTime} (hs : ' ' ∉ s) (hw : widths f = s.length) (h : strptime py f s = .ok t) :
    ∃ vs, Fits py f vs s ∧ t = fields f vs epoch ∧ RealTime t := by
  unfold strptime at h
  split at h
  · cases h
  · rename_i vs rest hr
    split at h
    · rename_i hrest
      subst hrest
      split at h
      · rename_i hg
        cases h
        obtain ⟨pre, h1, _, h3⟩ := run_spec hd hs hr
        simp at h1
        subst h1
        exact ⟨vs, h3 hw.symm, rfl, goodTime_iff.1 hg⟩
      · cases h
    · cases h

theorem fits_cons {d : Dir} {ds : List Dir} {vs : List Nat} {s : List Char} (h : Fits py (d :: ds) vs s) : ∃ v vs' a b, vs = v :: vs' ∧ s = a ++ b ∧ Full py d a v ∧ Fits py ds vs' b := by
  cases vs with
  | nil => exact absurd h (by simp [Fits])
  | cons v vs =>
    obtain ⟨a, b, h1, h2, h3⟩ := h
    exact ⟨v, vs, a, b, rfl, h1, h2, h3⟩

theorem fits_nil {vs : List Nat} {s : List Char} (h : Fits py [] vs s) : vs = [] ∧ s = [] := by
  cases vs with
  | nil => exact ⟨rfl, h⟩
  | cons v vs => exact absurd h (by simp [Fits])

theorem full_colon {a : List Char} {v : Nat} (h : Full py (.lit ':') a v) : a = [':'] := by
  rcases h with h | ⟨h, _⟩
  · exact h
  · exact absurd h (by decide)

theorem full_z {a : List Char} {v : Nat} (h : Full py (.lit 'Z') a v) : a = ['Z'] ∨ a = ['z'] := by
  rcases h with h | ⟨_, h⟩
  · exact .inl h
  · exact .inr h

/-- What is read as a date or time says that. -/
theorem fallback_says (hd : GoodDigits py.digit) {s : List Char} {t : DateTime} (h : fallback py s = .ok t) : SaysCompact py.digit (stripped s) t ∧ RealTime t := by
  unfold fallback at h
  split at h
  · rename_i f hf
    have hsp : ' ' ∉ stripped s := by simp [stripped]
    obtain ⟨vs, hfit, ht, hreal⟩ := strptime_spec hd hsp (formats_width hf) h
    refine ⟨?_, hreal⟩
    clear h hreal
    generalize stripped s = u at *
    unfold formats at hf
    split at hf
    · cases hf
      obtain ⟨y, vs, ys, u, rfl, rfl, hy, hfit⟩ := fits_cons hfit
      obtain ⟨m, vs, ms, u, rfl, rfl, hm, hfit⟩ := fits_cons hfit
      obtain ⟨d, vs, ds, u, rfl, rfl, hdd, hfit⟩ := fits_cons hfit
      obtain ⟨rfl, rfl⟩ := fits_nil hfit
      subst ht
      refine ⟨rfl, rfl, ys, ms, ds, [], by simp, .inr ⟨y, hy, ?_⟩, hm, hdd, .inl ⟨rfl, rfl, rfl, rfl⟩⟩
      simp only [fields, century]
      split <;> omega
    · cases hf
      obtain ⟨y, vs, ys, u, rfl, rfl, hy, hfit⟩ := fits_cons hfit
      obtain ⟨m, vs, ms, u, rfl, rfl, hm, hfit⟩ := fits_cons hfit
      obtain ⟨d, vs, ds, u, rfl, rfl, hdd, hfit⟩ := fits_cons hfit
      obtain ⟨rfl, rfl⟩ := fits_nil hfit
      subst ht
      exact ⟨rfl, rfl, ys, ms, ds, [], by simp, .inl hy, hm, hdd, .inl ⟨rfl, rfl, rfl, rfl⟩⟩
    · cases hf
      obtain ⟨y, vs, ys, u, rfl, rfl, hy, hfit⟩ := fits_cons hfit
      obtain ⟨m, vs, ms, u, rfl, rfl, hm, hfit⟩ := fits_cons hfit
      obtain ⟨d, vs, ds, u, rfl, rfl, hdd, hfit⟩ := fits_cons hfit
      obtain ⟨hh, vs, hs, u, rfl, rfl, hhh, hfit⟩ := fits_cons hfit
      obtain ⟨c1, vs, cs1, u, rfl, rfl, hc1, hfit⟩ := fits_cons hfit
      obtain ⟨mi, vs, mis, u, rfl, rfl, hmi, hfit⟩ := fits_cons hfit
      obtain ⟨rfl, rfl⟩ := fits_nil hfit
      have := full_colon hc1
      subst this ht
      exact ⟨rfl, rfl, ys, ms, ds, hs ++ ':' :: mis, by simp, .inl hy, hm, hdd, .inr ⟨hy, hs, mis, [], [], by simp, hhh, hmi, .inl ⟨rfl, rfl⟩, by simp⟩⟩
    · cases hf
      obtain ⟨y, vs, ys, u, rfl, rfl, hy, hfit⟩ := fits_cons hfit
      obtain ⟨m, vs, ms, u, rfl, rfl, hm, hfit⟩ := fits_cons hfit
      obtain ⟨d, vs, ds, u, rfl, rfl, hdd, hfit⟩ := fits_cons hfit
      obtain ⟨hh, vs, hs, u, rfl, rfl, hhh, hfit⟩ := fits_cons hfit
      obtain ⟨c1, vs, cs1, u, rfl, rfl, hc1, hfit⟩ := fits_cons hfit
      obtain ⟨mi, vs, mis, u, rfl, rfl, hmi, hfit⟩ := fits_cons hfit
      obtain ⟨c2, vs, z, u, rfl, rfl, hz, hfit⟩ := fits_cons hfit
      obtain ⟨rfl, rfl⟩ := fits_nil hfit
      have := full_colon hc1
      subst this ht
      refine ⟨rfl, rfl, ys, ms, ds, hs ++ ':' :: mis ++ z, by simp, .inl hy, hm, hdd, .inr ⟨hy, hs, mis, [], z, by simp, hhh, hmi, .inl ⟨rfl, rfl⟩, ?_⟩⟩
      rcases full_z hz with rfl | rfl <;> simp
    · cases hf
      obtain ⟨y, vs, ys, u, rfl, rfl, hy, hfit⟩ := fits_cons hfit
      obtain ⟨m, vs, ms, u, rfl, rfl, hm, hfit⟩ := fits_cons hfit
      obtain ⟨d, vs, ds, u, rfl, rfl, hdd, hfit⟩ := fits_cons hfit
      obtain ⟨hh, vs, hs, u, rfl, rfl, hhh, hfit⟩ := fits_cons hfit
      obtain ⟨c1, vs, cs1, u, rfl, rfl, hc1, hfit⟩ := fits_cons hfit
      obtain ⟨mi, vs, mis, u, rfl, rfl, hmi, hfit⟩ := fits_cons hfit
      obtain ⟨c2, vs, cs2, u, rfl, rfl, hc2, hfit⟩ := fits_cons hfit
      obtain ⟨sec, vs, ss, u, rfl, rfl, hsec, hfit⟩ := fits_cons hfit
      obtain ⟨rfl, rfl⟩ := fits_nil hfit
      have := full_colon hc1
      have := full_colon hc2
      subst cs1 cs2 ht
      exact ⟨rfl, rfl, ys, ms, ds, hs ++ ':' :: mis ++ ':' :: ss, by simp, .inl hy, hm, hdd,
        .inr ⟨hy, hs, mis, ':' :: ss, [], by simp, hhh, hmi, .inr ⟨ss, rfl, hsec⟩, by simp⟩⟩
    · cases hf
      obtain ⟨y, vs, ys, u, rfl, rfl, hy, hfit⟩ := fits_cons hfit
      obtain ⟨m, vs, ms, u, rfl, rfl, hm, hfit⟩ := fits_cons hfit
      obtain ⟨d, vs, ds, u, rfl, rfl, hdd, hfit⟩ := fits_cons hfit
      obtain ⟨hh, vs, hs, u, rfl, rfl, hhh, hfit⟩ := fits_cons hfit
      obtain ⟨c1, vs, cs1, u, rfl, rfl, hc1, hfit⟩ := fits_cons hfit
      obtain ⟨mi, vs, mis, u, rfl, rfl, hmi, hfit⟩ := fits_cons hfit
      obtain ⟨c2, vs, cs2, u, rfl, rfl, hc2, hfit⟩ := fits_cons hfit
      obtain ⟨sec, vs, ss, u, rfl, rfl, hsec, hfit⟩ := fits_cons hfit
      obtain ⟨c3, vs, z, u, rfl, rfl, hz, hfit⟩ := fits_cons hfit
      obtain ⟨rfl, rfl⟩ := fits_nil hfit
      have := full_colon hc1
      have := full_colon hc2
      subst cs1 cs2 ht
      refine ⟨rfl, rfl, ys, ms, ds, hs ++ ':' :: mis ++ ':' :: ss ++ z, by simp, .inl hy, hm, hdd,
        .inr ⟨hy, hs, mis, ':' :: ss, z, by simp, hhh, hmi, .inr ⟨ss, rfl, hsec⟩, ?_⟩⟩
      rcases full_z hz with rfl | rfl <;> simp
    · cases hf
  · cases h

end Normalize.Types
