import Verif.Spec.Repr
import Verif.Lemmas.SelectorPath
import Mathlib.Tactic.Ring

/-! Reading back the texts of strings, numbers and names. -/

namespace Normalize.Repr

theorem hexVal_digit : ∀ m < 16, hexVal (Nat.digitChar m) = some m := by decide

theorem pHex_snoc : ∀ (k acc : Nat) (cs : List Char) (m : Nat) (d : Char) (r : List Char),
    pHex k acc cs = some (m, d :: r) → pHex (k + 1) acc cs = (hexVal d).map (fun x => (m * 16 + x, r)) := by
  intro k
  induction k with
  | zero =>
    intro acc cs m d r h
    simp only [pHex, Option.some.injEq, Prod.mk.injEq] at h
    obtain ⟨rfl, rfl⟩ := h
    simp only [pHex]
    cases hexVal d <;> rfl
  | succ k ih =>
    intro acc cs m d r h
    cases cs with
    | nil => simp [pHex] at h
    | cons c cs =>
      rw [pHex] at h ⊢
      cases hc : hexVal c with
      | none => rw [hc] at h; simp at h
      | some x =>
        rw [hc] at h
        exact ih _ _ _ _ _ h

theorem pHex_hex : ∀ (k acc n : Nat) (rest : List Char),
    pHex k acc (hex k n ++ rest) = some (acc * 16 ^ k + n % 16 ^ k, rest) := by
  intro k
  induction k with
  | zero => intro acc n rest; simp [pHex, hex, Nat.mod_one]
  | succ k ih =>
    intro acc n rest
    have h := ih acc (n / 16) (hexDigit n :: rest)
    have h2 := pHex_snoc k acc _ _ _ _ h
    rw [hex, List.append_assoc]
    show pHex (k + 1) acc (hex k (n / 16) ++ hexDigit n :: rest) = _
    rw [h2, hexDigit, hexVal_digit _ (Nat.mod_lt _ (by decide))]
    simp only [Option.map_some, Option.some.injEq, Prod.mk.injEq, and_true]
    rw [Nat.pow_succ', Nat.mod_mul, Nat.add_mul]
    ring

theorem charOf_hex (k : Nat) (c : Char) (rest : List Char) (h : c.toNat < 16 ^ k) :
    charOf (pHex k 0 (hex k c.toNat ++ rest)) = some (c, rest) := by
  rw [pHex_hex, Nat.mod_eq_of_lt h]
  have hv : Nat.isValidChar c.toNat := c.valid
  simp [charOf, hv]

theorem toNat_lt (c : Char) : c.toNat < 16 ^ 8 := by
  have hv : Nat.isValidChar c.toNat := c.valid
  unfold Nat.isValidChar at hv
  omega

/-- A quote. -/
def IsQuote (q : Char) : Prop := q = '\'' ∨ q = '"'

theorem escape_cases (pr : Char → Bool) (q c : Char) (hq : IsQuote q) :
    (escape pr q c = [c] ∧ c ≠ q ∧ c ≠ '\\' ∧ c ≠ '\n' ∧ c ≠ '\r') ∨
      (∃ t, escape pr q c = '\\' :: t ∧ ∀ rest, pEscape (t ++ rest) = some (c, rest)) := by
  unfold escape
  by_cases h1 : c = q ∨ c = '\\'
  · rw [if_pos h1]
    refine Or.inr ⟨[c], rfl, fun rest => ?_⟩
    have : c = '\\' ∨ c = '\'' ∨ c = '"' := by
      rcases h1 with h | h
      · rcases hq with hq | hq
        · exact Or.inr (Or.inl (h.trans hq))
        · exact Or.inr (Or.inr (h.trans hq))
      · exact Or.inl h
    simp [pEscape, this]
  · rw [if_neg h1]
    push Not at h1
    by_cases h2 : c = '\t'
    · subst h2; exact Or.inr ⟨['t'], by simp, fun rest => by simp [pEscape]⟩
    rw [if_neg h2]
    by_cases h3 : c = '\n'
    · subst h3; exact Or.inr ⟨['n'], by simp, fun rest => by simp [pEscape]⟩
    rw [if_neg h3]
    by_cases h4 : c = '\r'
    · subst h4; exact Or.inr ⟨['r'], by simp, fun rest => by simp [pEscape]⟩
    rw [if_neg h4]
    by_cases h5 : c.toNat < 32 ∨ c.toNat = 127
    · rw [if_pos h5]
      refine Or.inr ⟨'x' :: hex 2 c.toNat, rfl, fun rest => ?_⟩
      have := charOf_hex 2 c rest (by omega)
      simpa [pEscape] using this
    rw [if_neg h5]
    by_cases h6 : c.toNat < 127
    · rw [if_pos h6]; exact Or.inl ⟨rfl, h1.1, h1.2, h3, h4⟩
    rw [if_neg h6]
    by_cases h7 : pr c = true
    · rw [if_pos h7]; exact Or.inl ⟨rfl, h1.1, h1.2, h3, h4⟩
    rw [if_neg h7]
    by_cases h8 : c.toNat < 256
    · rw [if_pos h8]
      refine Or.inr ⟨'x' :: hex 2 c.toNat, rfl, fun rest => ?_⟩
      have := charOf_hex 2 c rest (by omega)
      simpa [pEscape] using this
    rw [if_neg h8]
    by_cases h9 : c.toNat < 65536
    · rw [if_pos h9]
      refine Or.inr ⟨'u' :: hex 4 c.toNat, rfl, fun rest => ?_⟩
      have := charOf_hex 4 c rest (by omega)
      simpa [pEscape] using this
    rw [if_neg h9]
    refine Or.inr ⟨'U' :: hex 8 c.toNat, rfl, fun rest => ?_⟩
    have := charOf_hex 8 c rest (toNat_lt c)
    simpa [pEscape] using this

theorem pStr_escape (pr : Char → Bool) (q : Char) (hq : IsQuote q) (rest : List Char) : ∀ (s : List Char) (n : Nat),
    s.length < n → pStr q n (s.flatMap (escape pr q) ++ q :: rest) = some (s, rest) := by
  intro s
  induction s with
  | nil =>
    intro n hn
    cases n with
    | zero => omega
    | succ n => simp [pStr]
  | cons c s ih =>
    intro n hn
    cases n with
    | zero => omega
    | succ n =>
      have hs := ih n (by simpa using hn)
      rw [List.flatMap_cons, List.append_assoc]
      rcases escape_cases pr q c hq with ⟨he, h1, h2, h3, h4⟩ | ⟨t, he, ht⟩
      · rw [he]
        show pStr q (n + 1) (c :: (s.flatMap (escape pr q) ++ q :: rest)) = _
        rw [pStr, if_neg h1, if_neg (by push Not; exact ⟨h3, h4⟩), if_neg h2, hs]
      · rw [he]
        show pStr q (n + 1) ('\\' :: (t ++ (s.flatMap (escape pr q) ++ q :: rest))) = _
        have hq' : ('\\' : Char) ≠ q := by rcases hq with h | h <;> subst h <;> decide
        rw [pStr, if_neg hq', if_neg (by decide), if_pos rfl, ht]
        simp only [hs]

theorem quoteOf_isQuote (s : List Char) : IsQuote (quoteOf s) := by
  unfold quoteOf IsQuote
  split <;> simp

theorem escape_length (pr : Char → Bool) (q c : Char) (hq : IsQuote q) : 1 ≤ (escape pr q c).length := by
  rcases escape_cases pr q c hq with ⟨h, _⟩ | ⟨t, h, _⟩ <;> rw [h] <;> simp

theorem flatMap_length (pr : Char → Bool) (q : Char) (hq : IsQuote q) (s : List Char) :
    s.length ≤ (s.flatMap (escape pr q)).length := by
  induction s with
  | nil => simp
  | cons c s ih =>
    have := escape_length pr q c hq
    simp only [List.flatMap_cons, List.length_append, List.length_cons]
    omega

/-! ## Numbers -/

theorem toDigits_head (n : Nat) (h : 0 < n) : (Nat.toDigits 10 n).head? ≠ some '0' := by
  induction n using Nat.strong_induction_on with
  | _ n ih =>
    by_cases hlt : n < 10
    · rw [Nat.toDigits_of_lt_base hlt]
      simp only [List.head?_cons, ne_eq, Option.some.injEq, Nat.digitChar_eq_zero]
      omega
    · rw [Nat.toDigits_of_base_le (by decide) (by omega)]
      have := ih (n / 10) (by omega) (by omega)
      cases hd : Nat.toDigits 10 (n / 10) with
      | nil => exact absurd hd Nat.toDigits_ne_nil
      | cons d ds => rw [hd] at this; simpa using this

theorem isDigit_idCont {c : Char} (h : c.isDigit = true) : idCont c = true := by
  simp [idCont, Char.isAlphanum, h]

theorem span_append {p : Char → Bool} {l rest : List Char} (h : ∀ c ∈ l, p c = true)
    (hr : ∀ c r, rest = c :: r → p c = false) :
    (l ++ rest).takeWhile p = l ∧ (l ++ rest).dropWhile p = rest := by
  induction l with
  | nil =>
    cases rest with
    | nil => simp
    | cons c r => simp [hr c r rfl]
  | cons d l ih =>
    have := ih (fun c hc => h c (by simp [hc]))
    simp [h d (by simp), this]

theorem pNum_toDigits (n : Nat) (rest : List Char) (hr : afterNum rest = true) :
    pNum (Nat.toDigits 10 n ++ rest) = some (n, rest) := by
  have hs := span_append (p := Char.isDigit) (l := Nat.toDigits 10 n) (rest := rest)
    (fun c hc => toDigits_isDigit hc)
    (fun c r e => by
      subst e
      cases hd : c.isDigit with
      | false => rfl
      | true => simp [afterNum, isDigit_idCont hd] at hr)
  unfold pNum
  rw [hs.1, hs.2, if_neg Nat.toDigits_ne_nil, if_neg, if_pos hr, Nat.ofDigitChars_ten_toDigits]
  rintro ⟨h1, h2⟩
  rcases Nat.eq_zero_or_pos n with h | h
  · subst h; exact h2 (Nat.toDigits_zero 10)
  · exact toDigits_head n h h1

end Normalize.Repr
