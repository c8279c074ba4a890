import Verif.Spec.Numbers
import Verif.Props.Types

/-! # C136: a property of whole numbers holds the number it was given -/

namespace Normalize.Types
open Normalize.Spec

variable {py : Py} {V : NumValues}

/-- C136, in full: what an `IntProperty` (`LongProperty`, `IntegerProperty`) holds is the number that was assigned. -/
def C136_statement : Prop := ∀ (py : Py) (V : NumValues), GoodTrunc py V → ∀ (k : Kind), WholeKind k → ∀ (v w : TVal) (q : Frac),
  IsNumber V v q → assign py k v = .ok w → IsNumber V w q

theorem assign_whole {k : Kind} (hk : WholeKind k) {v : TVal} (hi : ∀ i, v ≠ .int i) (hb : ∀ b, v ≠ .bool b) :
    assign py k v = match toInt py v with
      | .ok i => .ok (.int i)
      | .error _ => .error .coerceError := by
  have h1 : isa k v = false := by
    rcases hk with rfl | rfl | rfl <;> cases v <;> first | rfl | exact absurd rfl (hi _) | exact absurd rfl (hb _)
  have h2 : coerce py k v = (toInt py v).map .int := by
    rcases hk with rfl | rfl | rfl <;> rfl
  have h3 : ∀ i, isa k (.int i) = true := by
    intro i
    rcases hk with rfl | rfl | rfl <;> rfl
  simp only [assign, typeSafe, h1, h2]
  cases toInt py v <;> simp [Except.map, h3]

theorem drops_whole {p : Frac} {i j : Int} (h : DropsFraction p i) (hj : p.num = j * p.den) : i = j := by
  have hp : (0 : Int) < p.den := Int.natCast_pos.2 p.pos
  rcases Int.le_total 0 p.num with h0 | h0
  · have := h.1 h0
    rw [hj] at this
    have a := Int.le_of_mul_le_mul_right this.2.1 hp
    have b := Int.lt_of_mul_lt_mul_right this.2.2 (Int.le_of_lt hp)
    omega
  · have := h.2 h0
    rw [hj] at this
    have a := Int.le_of_mul_le_mul_right this.2.1 hp
    have b := Int.lt_of_mul_lt_mul_right this.2.2 (Int.le_of_lt hp)
    omega

theorem whole_same {p q : Frac} {j : Int} (hj : p.num = j * p.den) (h : SameNumber p q) : q.num = j * q.den := by
  have hp : (p.den : Int) ≠ 0 := Int.ne_of_gt (Int.natCast_pos.2 p.pos)
  unfold SameNumber at h
  rw [hj] at h
  apply Int.eq_of_mul_eq_mul_right hp
  rw [← h, Int.mul_assoc, Int.mul_assoc, Int.mul_comm (p.den : Int)]

/-- C136, what holds: whole numbers are taken, of whatever type they are, and stay the same number. -/
theorem C136_partial (hV : GoodTrunc py V) {k : Kind} (hk : WholeKind k) {v : TVal} {j : Int} (hv : IsNumber V v ⟨j, 1, by decide⟩) :
    ∃ w, assign py k v = .ok w ∧ ∀ q, IsNumber V v q → IsNumber V w q := by
  cases v with
  | int i => exact ⟨.int i, by rcases hk with rfl | rfl | rfl <;> rfl, fun q h => h⟩
  | bool b => exact ⟨.bool b, by rcases hk with rfl | rfl | rfl <;> rfl, fun q h => h⟩
  | float x =>
    obtain ⟨p, hp, hs⟩ := hv
    obtain ⟨i, hi, hd⟩ := hV.float x p hp
    have hj : p.num = j * p.den := by simpa [SameNumber] using hs
    refine ⟨.int i, ?_, ?_⟩
    · rw [assign_whole hk (by simp) (by simp)]
      simp only [toInt, hi]
    · rintro q ⟨p', hp', hq⟩
      rw [hp] at hp'
      cases hp'
      rw [drops_whole hd hj]
      exact whole_same hj hq
  | decimal x =>
    obtain ⟨p, hp, hs⟩ := hv
    obtain ⟨i, hi, hd⟩ := hV.decimal x p hp
    have hj : p.num = j * p.den := by simpa [SameNumber] using hs
    refine ⟨.int i, ?_, ?_⟩
    · rw [assign_whole hk (by simp) (by simp)]
      simp only [toInt, hi]
    · rintro q ⟨p', hp', hq⟩
      rw [hp] at hp'
      cases hp'
      rw [drops_whole hd hj]
      exact whole_same hj hq
  | none => exact absurd hv id
  | str s => exact absurd hv id
  | date d => exact absurd hv id
  | datetime t => exact absurd hv id
  | dated d => exact absurd hv id
  | other n => exact absurd hv id

/-- Other numbers lose what comes after the point, without an error; nan and the infinities are refused. -/
theorem C136_fraction (hV : GoodTrunc py V) {k : Kind} (hk : WholeKind k) (x : Nat) :
    (∀ q, V.float x = some q → ∃ i, assign py k (.float x) = .ok (.int i) ∧ DropsFraction q i) ∧
      (∀ q, V.decimal x = some q → ∃ i, assign py k (.decimal x) = .ok (.int i) ∧ DropsFraction q i) ∧
      (V.float x = none → assign py k (.float x) = .error .coerceError) ∧
      (V.decimal x = none → assign py k (.decimal x) = .error .coerceError) := by
  refine ⟨?_, ?_, ?_, ?_⟩
  · intro q hq
    obtain ⟨i, hi, hd⟩ := hV.float x q hq
    refine ⟨i, ?_, hd⟩
    rw [assign_whole hk (by simp) (by simp)]
    simp only [toInt, hi]
  · intro q hq
    obtain ⟨i, hi, hd⟩ := hV.decimal x q hq
    refine ⟨i, ?_, hd⟩
    rw [assign_whole hk (by simp) (by simp)]
    simp only [toInt, hi]
  · intro hq
    obtain ⟨e, he⟩ := hV.notFloat x hq
    rw [assign_whole hk (by simp) (by simp)]
    simp only [toInt, he]
  · intro hq
    obtain ⟨e, he⟩ := hV.notDecimal x hq
    rw [assign_whole hk (by simp) (by simp)]
    simp only [toInt, he]

/-- What is neither a number nor a text is refused. -/
theorem C136_refused {k : Kind} (hk : WholeKind k) {v : TVal} (hs : ∀ s, v ≠ .str s) (hi : ∀ i, v ≠ .int i) (hb : ∀ b, v ≠ .bool b)
    (hf : ∀ x, v ≠ .float x) (hd : ∀ x, v ≠ .decimal x) : assign py k v = .error .coerceError := by
  rw [assign_whole hk hi hb]
  cases v <;> first | rfl | exact absurd rfl (hs _) | exact absurd rfl (hi _) | exact absurd rfl (hb _) | exact absurd rfl (hf _) |
    exact absurd rfl (hd _)

/-! ## Texts -/

theorem digits_sound (cs : List Char) : (∀ pre a n, DigitText py.digit pre a → digits py true a cs = some n → DigitText py.digit (pre ++ cs) n) ∧
    ∀ pre a n, DigitText py.digit pre a → digits py false a cs = some n → DigitText py.digit (pre ++ '_' :: cs) n := by
  induction cs with
  | nil =>
    constructor
    · intro pre a n hp h
      simp only [digits, if_true, Option.some.injEq] at h
      subst h
      simpa using hp
    · intro pre a n hp h
      simp [digits] at h
  | cons c cs ih =>
    constructor
    · intro pre a n hp h
      by_cases hc : c = '_'
      · subst hc
        simp only [digits, if_true] at h
        exact ih.2 pre a n hp h
      · simp only [digits, hc, if_false] at h
        cases hk : py.digit c with
        | none => simp [hk] at h
        | some k =>
          rw [hk] at h
          have := ih.1 (pre ++ [c]) _ n (.more hp hk) h
          simpa using this
    · intro pre a n hp h
      by_cases hc : c = '_'
      · subst hc
        simp [digits] at h
      · simp only [digits, hc, if_false] at h
        cases hk : py.digit c with
        | none => simp [hk] at h
        | some k =>
          rw [hk] at h
          have := ih.1 (pre ++ ['_', c]) _ n (.under hp hk) h
          simpa using this

theorem digits_start {cs : List Char} {n : Nat} (h : digits py false 0 cs = some n) : DigitText py.digit cs n := by
  cases cs with
  | nil => simp [digits] at h
  | cons c cs =>
    by_cases hc : c = '_'
    · subst hc
      simp [digits] at h
    · simp only [digits, hc, if_false] at h
      cases hk : py.digit c with
      | none => simp [hk] at h
      | some k =>
        rw [hk] at h
        have h' : digits py true k cs = some n := by simpa using h
        exact (digits_sound cs).1 [c] k n (.one hk) h'

theorem digits_complete (hp : PlainChars py) {pre : List Char} {a : Nat} (h : DigitText py.digit pre a) (cs : List Char) :
    digits py false 0 (pre ++ cs) = digits py true a cs := by
  have hne : ∀ c k, py.digit c = some k → c ≠ '_' := by
    rintro c k hk rfl
    rw [hp.under] at hk
    cases hk
  induction h generalizing cs with
  | one hk => simp [digits, hne _ _ hk, hk]
  | more _ hk ih =>
    rw [List.append_assoc, ih]
    simp [digits, hne _ _ hk, hk]
  | under _ hk ih =>
    rw [List.append_assoc, ih]
    simp [digits, hne _ _ hk, hk]

theorem digitText_ends {cs : List Char} {n : Nat} (h : DigitText py.digit cs n) :
    (∃ c k cs', cs = c :: cs' ∧ py.digit c = some k) ∧ ∃ c k cs', cs = cs' ++ [c] ∧ py.digit c = some k := by
  induction h with
  | one hk => exact ⟨⟨_, _, [], rfl, hk⟩, ⟨_, _, [], rfl, hk⟩⟩
  | more _ hk ih =>
    obtain ⟨⟨d, l, ds, rfl, hl⟩, _⟩ := ih
    exact ⟨⟨d, l, _, rfl, hl⟩, ⟨_, _, _, rfl, hk⟩⟩
  | under _ hk ih =>
    obtain ⟨⟨d, l, ds, rfl, hl⟩, _⟩ := ih
    refine ⟨⟨d, l, _, rfl, hl⟩, ⟨_, _, (d :: ds) ++ ['_'], ?_, hk⟩⟩
    simp

/-- A sign and digits. -/
def SignText (py : Py) (s : List Char) (i : Int) : Prop :=
  ∃ (sign cs : List Char) (n : Nat), s = sign ++ cs ∧ DigitText py.digit cs n ∧
    (((sign = [] ∨ sign = ['+']) ∧ i = n) ∨ (sign = ['-'] ∧ i = -(n : Int)))

theorem signed_iff (hp : PlainChars py) (s : List Char) (i : Int) : signed py s = some i ↔ SignText py s i := by
  constructor
  · intro h
    unfold signed at h
    split at h
    · rename_i cs
      cases hn : digits py false 0 cs with
      | none => simp [hn] at h
      | some n =>
        obtain rfl : -(n : Int) = i := by simpa [hn] using h
        exact ⟨['-'], _, n, rfl, digits_start hn, .inr ⟨rfl, rfl⟩⟩
    · rename_i cs
      cases hn : digits py false 0 cs with
      | none => simp [hn] at h
      | some n =>
        obtain rfl : (n : Int) = i := by simpa [hn] using h
        exact ⟨['+'], _, n, rfl, digits_start hn, .inl ⟨.inr rfl, rfl⟩⟩
    · cases hn : digits py false 0 s with
      | none => simp [hn] at h
      | some n =>
        obtain rfl : (n : Int) = i := by simpa [hn] using h
        exact ⟨[], _, n, rfl, digits_start hn, .inl ⟨.inl rfl, rfl⟩⟩
  · rintro ⟨sign, cs, n, rfl, hd, h⟩
    have hn : digits py false 0 cs = some n := by
      have := digits_complete hp hd []
      rw [List.append_nil] at this
      rw [this]
      rfl
    rcases h with ⟨rfl | rfl, rfl⟩ | ⟨rfl, rfl⟩
    · obtain ⟨⟨c, k, cs', rfl, hk⟩, _⟩ := digitText_ends hd
      have h1 : c ≠ '-' := by rintro rfl; rw [hp.minus.1] at hk; cases hk
      have h2 : c ≠ '+' := by rintro rfl; rw [hp.plus.1] at hk; cases hk
      show signed py (c :: cs') = _
      unfold signed
      split
      · rename_i heq; exact absurd (List.cons.inj heq).1 h1
      · rename_i heq; exact absurd (List.cons.inj heq).1 h2
      · rw [hn]; rfl
    · simp [signed, hn]
    · simp [signed, hn]

theorem dropSpaces (p : Char → Bool) (s : List Char) : ∃ a, s = a ++ s.dropWhile p ∧ ∀ c ∈ a, p c = true := by
  induction s with
  | nil => exact ⟨[], rfl, by simp⟩
  | cons c s ih =>
    by_cases hc : p c = true
    · obtain ⟨a, ha, hs⟩ := ih
      refine ⟨c :: a, ?_, ?_⟩
      · rw [List.dropWhile_cons_of_pos hc, List.cons_append, ← ha]
      · intro d hd
        rcases List.mem_cons.1 hd with rfl | hd
        · exact hc
        · exact hs d hd
    · exact ⟨[], by rw [List.dropWhile_cons_of_neg hc]; rfl, by simp⟩

theorem dropAll (p : Char → Bool) {a : List Char} (ha : ∀ c ∈ a, p c = true) {c : Char} (hc : p c = false) (s : List Char) :
    (a ++ c :: s).dropWhile p = c :: s := by
  induction a with
  | nil => simp [hc]
  | cons d a ih =>
    rw [List.cons_append, List.dropWhile_cons_of_pos (ha d List.mem_cons_self)]
    exact ih fun x hx => ha x (List.mem_cons_of_mem _ hx)

theorem trim_parts (s : List Char) : ∃ a b, s = a ++ trim py s ++ b ∧ (∀ c ∈ a, py.space c = true) ∧ ∀ c ∈ b, py.space c = true := by
  obtain ⟨a, ha, hs⟩ := dropSpaces py.space s
  obtain ⟨b, hb, ht⟩ := dropSpaces py.space (s.dropWhile py.space).reverse
  refine ⟨a, b.reverse, ?_, hs, fun c hc => ht c (List.mem_reverse.1 hc)⟩
  have : s.dropWhile py.space = trim py s ++ b.reverse := by
    rw [← List.reverse_reverse (s.dropWhile py.space), hb, List.reverse_append]
    rfl
  rw [List.append_assoc, ← this]
  exact ha

theorem trim_between {a t b : List Char} {c d : Char} {t₁ t₂ : List Char} (ha : ∀ c ∈ a, py.space c = true) (hb : ∀ c ∈ b, py.space c = true)
    (h1 : t = c :: t₁) (hc : py.space c = false) (h2 : t = t₂ ++ [d]) (hd : py.space d = false) : trim py (a ++ t ++ b) = t := by
  unfold trim
  have e1 : (a ++ t ++ b).dropWhile py.space = t ++ b := by
    rw [h1, List.append_assoc, List.cons_append]
    exact dropAll _ ha hc _
  rw [e1]
  have e2 : (t ++ b).reverse = b.reverse ++ d :: t₂.reverse := by
    rw [h2]
    simp
  rw [e2, dropAll _ (fun x hx => hb x (List.mem_reverse.1 hx)) hd, h2]
  simp

theorem toInt_text (hp : PlainChars py) (s : String) (i : Int) : toInt py (.str s) = .ok i ↔ IntText py s.toList i := by
  have key : toInt py (.str s) = .ok i ↔ signed py (trim py s.toList) = some i := by
    simp only [toInt]
    cases signed py (trim py s.toList) <;> simp
  rw [key, signed_iff hp]
  constructor
  · rintro ⟨sign, cs, n, ht, hd, h⟩
    obtain ⟨a, b, hs, ha, hb⟩ := trim_parts (py := py) s.toList
    rw [ht] at hs
    exact ⟨a, sign, cs, b, n, hs, ha, hb, hd, h⟩
  · rintro ⟨a, sign, cs, b, n, hs, ha, hb, hd, h⟩
    refine ⟨sign, cs, n, ?_, hd, h⟩
    obtain ⟨⟨c, k, cs', h1, hk⟩, d, l, ds, h2, hl⟩ := digitText_ends hd
    rw [hs]
    rcases h with ⟨rfl | rfl, _⟩ | ⟨rfl, _⟩
    · exact trim_between ha hb h1 (hp.digit _ _ hk) h2 (hp.digit _ _ hl)
    · exact trim_between (t₁ := cs) (t₂ := '+' :: ds) ha hb rfl hp.plus.2 (by rw [h2]; rfl) (hp.digit _ _ hl)
    · exact trim_between (t₁ := cs) (t₂ := '-' :: ds) ha hb rfl hp.minus.2 (by rw [h2]; rfl) (hp.digit _ _ hl)

/-- Texts: exactly those that say a whole number are taken, as that number. -/
theorem C136_text (hp : PlainChars py) {k : Kind} (hk : WholeKind k) (s : String) :
    (∀ w, assign py k (.str s) = .ok w ↔ ∃ i, w = .int i ∧ IntText py s.toList i) ∧
      ((¬ ∃ i, IntText py s.toList i) → assign py k (.str s) = .error .coerceError) := by
  rw [assign_whole hk (by simp) (by simp)]
  cases h : toInt py (.str s) with
  | ok i =>
    have hi := (toInt_text hp s i).1 h
    refine ⟨fun w => ⟨?_, ?_⟩, fun hn => absurd ⟨i, hi⟩ hn⟩
    · intro hw
      exact ⟨i, by simpa using hw.symm, hi⟩
    · rintro ⟨j, rfl, hj⟩
      have := (toInt_text hp s j).2 hj
      rw [h] at this
      cases this
      rfl
  | error e =>
    refine ⟨fun w => ⟨fun hw => (by simp at hw), ?_⟩, fun _ => rfl⟩
    rintro ⟨j, rfl, hj⟩
    have := (toInt_text hp s j).2 hj
    rw [h] at this
    cases this

/-- `NumberProperty`: texts that say whole numbers become these, whatever their size; all others are left to `float`. -/
theorem C136_number (hp : PlainChars py) (s : String) :
    (∀ i, IntText py s.toList i → assign py .number (.str s) = .ok (.int i)) ∧
      ((¬ ∃ i, IntText py s.toList i) →
        (∀ x, py.float (.str s) = .ok x → assign py .number (.str s) = .ok (.float x)) ∧
          ∀ e, py.float (.str s) = .error e → assign py .number (.str s) = .error .coerceError) := by
  constructor
  · intro i hi
    have := (toInt_text hp s i).2 hi
    simp [assign, typeSafe, isa, coerce, coerceNumber, this]
  · intro hn
    have he : toInt py (.str s) = .error .valueError := by
      cases h : toInt py (.str s) with
      | ok i => exact absurd ⟨i, (toInt_text hp s i).1 h⟩ hn
      | error e =>
        simp only [toInt] at h
        split at h
        · cases h
        · exact h.symm
    constructor
    · intro x hx
      simp [assign, typeSafe, isa, coerce, coerceNumber, he, hx]
    · intro e hx
      simp [assign, typeSafe, isa, coerce, coerceNumber, he, hx]

/-! ## Examples: floats number 0, 1, 2 are 2.0, 2.75 and nan, and 3 is -2.75 -/

def exPyNum : Py :=
  { digit := asciiDigit
    space := fun c => c = ' '
    float := fun v => match v with | .str "2.75" => .ok 1 | _ => .error .valueError
    trunc := fun v => match v with
      | .float 0 => .ok 2
      | .float 1 => .ok 2
      | .float 3 => .ok (-2)
      | _ => .error .valueError
    str := fun _ => ""
    dateutil := none }

def exValues : NumValues :=
  { float := fun x => match x with
      | 0 => some ⟨4, 2, by decide⟩
      | 1 => some ⟨11, 4, by decide⟩
      | 3 => some ⟨-11, 4, by decide⟩
      | _ => none
    decimal := fun _ => none }

theorem exGoodTrunc : GoodTrunc exPyNum exValues where
  float := by
    intro x q h
    match x, h with
    | 0, h => cases h; exact ⟨2, rfl, by simp [DropsFraction]⟩
    | 1, h => cases h; exact ⟨2, rfl, by simp [DropsFraction]⟩
    | 2, h => cases h
    | 3, h => cases h; exact ⟨-2, rfl, by simp [DropsFraction]⟩
    | x + 4, h => cases h
  decimal := by intro x q h; cases h
  notFloat := by
    intro x h
    match x, h with
    | 0, h => cases h
    | 1, h => cases h
    | 2, h => exact ⟨_, rfl⟩
    | 3, h => cases h
    | x + 4, h => exact ⟨_, rfl⟩
  notDecimal := by intro x h; exact ⟨_, rfl⟩

theorem exPlain : PlainChars exPyNum where
  digit := by
    intro c k h
    by_cases hc : c = ' '
    · subst hc
      have : exPyNum.digit ' ' = none := by decide
      rw [this] at h
      cases h
    · simp [exPyNum, hc]
  minus := by decide
  plus := by decide
  under := by decide

/-- **C136 does not hold**: 2.75 becomes 2. -/
theorem C136_violated : ¬ C136_statement := by
  intro h
  have := h exPyNum exValues exGoodTrunc .int (.inl rfl) (.float 1) (.int 2) ⟨11, 4, by decide⟩ ⟨_, rfl, rfl⟩ rfl
  exact absurd this (by simp [IsNumber])

example : IsNumber exValues (.float 0) ⟨2, 1, by decide⟩ ∧ WholeKind .integer ∧
    assign exPyNum .integer (.float 0) = .ok (.int 2) ∧ assign exPyNum .integer (.float 2) = .error .coerceError ∧
    assign exPyNum .integer (.float 3) = .ok (.int (-2)) :=
  ⟨⟨_, rfl, rfl⟩, .inr (.inr rfl), rfl, rfl, rfl⟩

example : IntText exPyNum " -1_0 ".toList (-10) :=
  ⟨[' '], ['-'], ['1', '_', '0'], [' '], 10, by decide, by decide, by decide, .under (cs := ['1']) (n := 1) (c := '0') (k := 0) (.one (by decide)) (by decide), .inr ⟨rfl, rfl⟩⟩

example : assign exPyNum .int (.str " -1_0 ") = .ok (.int (-10)) ∧ assign exPyNum .int (.str "1__0") = .error .coerceError ∧
    assign exPyNum .number (.str "2.75") = .ok (.float 1) := by decide +kernel

end Normalize.Types
