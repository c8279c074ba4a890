import Verif.Lemmas.Types

/-!
# C79–C84: the ready-made property types
-/

namespace Normalize.Types

open Spec

variable {py : Py}

theorem isa_iff {k : Kind} {v : TVal} : isa k v = true ↔ OfKind k v := by
  constructor
  · intro h
    cases k <;> cases v <;> simp [isa, isDate] at h <;> constructor
  · intro h
    cases h <;> rfl

/-! ## JSON -/

theorem day_small {d : Date} (h : RealDate d) : d.day < 100 := by
  have h8 := goodDate_iff.2 h
  simp only [goodDate, Bool.and_eq_true, decide_eq_true_eq] at h8
  have : daysIn d.year d.month ≤ 31 := by unfold daysIn; split <;> [split; split] <;> omega
  omega

theorem isoDate_text {d : Date} (h : RealDate d) : DateText asciiDigit (Num asciiDigit 4) (isoDate d) d := by
  have h1 := h.year
  have h2 := h.month
  exact ⟨_, _, _, num_pad4.2 ⟨rfl, by omega⟩, num_pad2.2 ⟨rfl, by omega⟩, num_pad2.2 ⟨rfl, day_small h⟩, .inr rfl⟩

theorem isoDate_says {d : Date} (h : RealDate d) : Says asciiDigit (isoDate d) ⟨d, 0, 0, 0, 0, none⟩ := by
  obtain ⟨ys, ms, ds, h1, h2, h3, h4⟩ := isoDate_text h
  exact ⟨rfl, rfl, .inl ⟨⟨ys, ms, ds, .inl h1, h2, h3, h4⟩, rfl, rfl, rfl⟩⟩

theorem midnight_real {d : Date} (h : RealDate d) : RealTime ⟨d, 0, 0, 0, 0, none⟩ :=
  ⟨h, by simp, by simp, by simp, by simp, by simp⟩

theorem isoTime_says {t : DateTime} (h : RealTime t) (h1 : t.micro = 0) (h2 : t.tz = none) : Says asciiDigit (isoTime t) t := by
  refine ⟨h1, h2, .inr ⟨isoDate t.date, 'T', pad2 t.hour ++ ':' :: pad2 t.minute ++ ':' :: pad2 t.second, ?_, isoDate_text h.date, .inl rfl, ?_⟩⟩
  · simp [isoTime, h1, h2, isoZone]
  · exact ⟨_, _, ':' :: pad2 t.second, [], by simp, num_pad2.2 ⟨rfl, by have := h.hour; omega⟩, num_pad2.2 ⟨rfl, by have := h.minute; omega⟩,
      .inr ⟨_, rfl, num_pad2.2 ⟨rfl, by have := h.second; omega⟩⟩, by simp⟩

theorem stripped_pad2 {n : Nat} (h : n < 100) : stripped (pad2 n) = pad2 n := stripped_num (num_pad2.2 ⟨rfl, h⟩)

theorem stripped_pad4 {n : Nat} (h : n < 10000) : stripped (pad4 n) = pad4 n := stripped_num (num_pad4.2 ⟨rfl, h⟩)

/-- The number of characters of a time without `-`, `T` and space. -/
theorem isoTime_length {t : DateTime} (h : RealTime t) : (stripped (isoTime t)).length = 16 + (if t.micro = 0 then 0 else 7) +
    (match t.tz with | none => 0 | some o => if o < 0 then 5 else 6) := by
  have h1 := h.date.year
  have h2 := h.date.month
  have h3 := day_small h.date
  have h4 := h.hour
  have h5 := h.minute
  have h6 := h.second
  have h7 := h.micro
  have hmic : (stripped (if t.micro = 0 then [] else '.' :: pad6 t.micro)).length = if t.micro = 0 then 0 else 7 := by
    split
    · rfl
    · rw [stripped_cons, pad6, stripped_append, stripped_pad2 (by omega), stripped_pad4 (by omega)]
      simp [pad2_length, pad4_length]
  have hzone : (stripped (isoZone t.tz)).length = (match t.tz with | none => 0 | some o => if o < 0 then 5 else 6) := by
    cases hz : t.tz with
    | none => rfl
    | some o =>
      have h8 := h.zone o hz
      simp only [isoZone]
      rw [stripped_append, stripped_cons, stripped_cons, stripped_pad2 (by omega), stripped_pad2 (by omega)]
      by_cases ho : o < 0
      · simp [ho, pad2_length]
      · simp [ho, pad2_length]
  simp only [isoTime, isoDate, stripped_append, stripped_cons, List.length_append, hmic, hzone]
  rw [stripped_pad4 (by omega), stripped_pad2 (by omega), stripped_pad2 (by omega), stripped_pad2 (by omega), stripped_pad2 (by omega), stripped_pad2 (by omega)]
  simp [pad2_length, pad4_length]

/-- C79: any date survives JSON in a date property. -/
theorem C79 (hd : GoodDigits py.digit) (hu : GoodDateutil py) {d : Date} (h : RealDate d) :
    ∃ j, toJson .date (.date d) = .ok j ∧ init py .date j = .ok (some (.date d)) := by
  refine ⟨_, rfl, ?_⟩
  have hp : parseDatetime py (String.ofList (isoDate d)) = .ok ⟨d, 0, 0, 0, 0, none⟩ := by
    unfold parseDatetime
    cases hf : py.dateutil with
    | some f => exact (hu f hf).1 d h
    | none =>
      simp only [String.toList_ofList]
      exact fallback_reads hd (isoDate_says h) (midnight_real h)
  simp [init, typeSafe, isa, isDate, coerce, coerceDate, coerceDatetime, hp, Except.map]

/-- C80: any time survives JSON in a datetime property. -/
def C80_statement : Prop := ∀ (py : Py), GoodDigits py.digit → GoodDateutil py → ∀ t, RealTime t →
  ∃ j, toJson .datetime (.datetime t) = .ok j ∧ init py .datetime j = .ok (some (.datetime t))

/-- C80 with `dateutil`. -/
theorem C80_dateutil_partial (hu : GoodDateutil py) (hi : py.dateutil ≠ none) {t : DateTime} (h : RealTime t) :
    ∃ j, toJson .datetime (.datetime t) = .ok j ∧ init py .datetime j = .ok (some (.datetime t)) := by
  refine ⟨_, rfl, ?_⟩
  have hp : parseDatetime py (String.ofList (isoTime t)) = .ok t := by
    unfold parseDatetime
    cases hf : py.dateutil with
    | some f => exact (hu f hf).2 t h
    | none => exact absurd hf hi
  simp [init, typeSafe, isa, coerce, coerceDatetime, hp, Except.map]

/-- C80 without `dateutil`: exactly the times in whole seconds and without a time zone survive. -/
theorem C80_fallback_partial (hd : GoodDigits py.digit) (hi : py.dateutil = none) {t : DateTime} (h : RealTime t) :
    (∃ j, toJson .datetime (.datetime t) = .ok j ∧ init py .datetime j = .ok (some (.datetime t))) ↔ t.micro = 0 ∧ t.tz = none := by
  have hp : parseDatetime py (String.ofList (isoTime t)) = fallback py (isoTime t) := by
    simp [parseDatetime, hi]
  constructor
  · rintro ⟨j, hj, hr⟩
    cases hj
    simp only [init, typeSafe, isa, coerce, coerceDatetime, hp] at hr
    cases hf : fallback py (isoTime t) with
    | error e => simp [hf, Except.map] at hr
    | ok u =>
      simp [hf, Except.map, isa] at hr
      subst hr
      obtain ⟨⟨h1, h2, _⟩, _⟩ := fallback_says hd hf
      exact ⟨h1, h2⟩
  · rintro ⟨h1, h2⟩
    refine ⟨_, rfl, ?_⟩
    have := fallback_reads hd (isoTime_says h h1 h2) h
    simp [init, typeSafe, isa, coerce, coerceDatetime, hp, this, Except.map]

/-- C80: a time that does not survive is refused, not read as another one. -/
theorem C80_never_another (hd : GoodDigits py.digit) (hu : GoodDateutil py) {t u : DateTime} (h : RealTime t) {j : TVal}
    (hj : toJson .datetime (.datetime t) = .ok j) (hr : init py .datetime j = .ok (some (.datetime u))) : u = t := by
  cases hj
  cases hf : py.dateutil with
  | some f =>
    have hp : parseDatetime py (String.ofList (isoTime t)) = .ok t := by
      simp only [parseDatetime, hf]
      exact (hu f hf).2 t h
    simp [init, typeSafe, isa, coerce, coerceDatetime, hp, Except.map] at hr
    exact hr.symm
  | none =>
    by_cases hz : t.micro = 0 ∧ t.tz = none
    · obtain ⟨j, hj, hr'⟩ := (C80_fallback_partial hd hf h).2 hz
      cases hj
      rw [hr] at hr'
      cases hr'
      rfl
    · have hn : formats (stripped (isoTime t)).length = none := by
        rw [isoTime_length h]
        by_cases hm : t.micro = 0
        · cases ht : t.tz with
          | none => exact absurd ⟨hm, ht⟩ hz
          | some o => by_cases ho : o < 0 <;> simp [hm, ho, formats]
        · cases ht : t.tz with
          | none => simp [hm, formats]
          | some o => by_cases ho : o < 0 <;> simp [hm, ho, formats]
      simp [init, typeSafe, isa, coerce, coerceDatetime, parseDatetime, hf, fallback, hn, Except.map] at hr

/-! ## What the properties hold -/

/-- C81: whatever is assigned or passed to the constructor, a property holds values of its type only. -/
theorem C81 {k : Kind} {v w : TVal} (h : assign py k v = .ok w ∨ init py k v = .ok (some w)) : OfKind k w := by
  have hts : ∀ b, typeSafe py k b v = .ok (some w) → OfKind k w := by
    intro b h
    unfold typeSafe at h
    split at h
    · cases h; exact isa_iff.1 ‹_›
    · split at h
      · cases h
      · split at h
        · cases h; exact isa_iff.1 ‹_›
        · split at h <;> cases h
  rcases h with h | h
  · unfold assign at h
    split at h
    · rename_i w' hw
      cases h
      exact hts _ hw
    · cases h
    · cases h
  · exact hts _ h

/-- C81: values of the type are kept as they are. -/
theorem C81_kept {k : Kind} {v : TVal} (h : OfKind k v) : assign py k v = .ok v ∧ init py k v = .ok (some v) := by
  simp [assign, init, typeSafe, isa_iff.2 h]

/-- C81: a date property takes the date of a datetime; a datetime property takes the midnight of a date. -/
theorem C81_dates (t : DateTime) (d : Date) : assign py .date (.datetime t) = .ok (.date t.date) ∧
    assign py .datetime (.date d) = .ok (.datetime ⟨d, 0, 0, 0, 0, none⟩) := ⟨rfl, rfl⟩

/-- C81: what is no date, no datetime, no text and has no `date()` is refused by both. -/
theorem C81_refused {v : TVal} (h : ∀ d, v ≠ .date d ∧ v ≠ .dated d) (h1 : ∀ t, v ≠ .datetime t) (h2 : ∀ s, v ≠ .str s) :
    assign py .date v = .error .coerceError ∧ assign py .datetime v = .error .coerceError := by
  cases v <;> first | exact ⟨rfl, rfl⟩ | skip
  · exact absurd rfl (h2 _)
  · exact absurd rfl (h _).1
  · exact absurd rfl (h1 _)
  · exact absurd rfl (h _).2

/-! ## Texts of dates -/

/-- C82: without `dateutil`, a text that is read as a date or time says that one. -/
def C82_statement : Prop := ∀ (py : Py), GoodDigits py.digit → py.dateutil = none → ∀ s t, parseDatetime py s = .ok t → Says py.digit s.toList t

/-- C82 up to `-`, `T` and spaces, which may be anywhere: what is left says that date and time, which is real. -/
theorem C82_partial (hd : GoodDigits py.digit) (hi : py.dateutil = none) {s : String} {t : DateTime} (h : parseDatetime py s = .ok t) :
    SaysCompact py.digit (s.toList.filter (fun c => c ≠ '-' ∧ c ≠ 'T' ∧ c ≠ ' ')) t ∧ RealTime t := by
  simp only [parseDatetime, hi] at h
  have := fallback_says hd h
  have he : stripped s.toList = s.toList.filter (fun c => c ≠ '-' ∧ c ≠ 'T' ∧ c ≠ ' ') := by
    simp [stripped, Bool.and_assoc]
  rwa [he] at this

/-- C82: all texts that say a real date or time are read as that. -/
theorem C82_reads (hd : GoodDigits py.digit) (hi : py.dateutil = none) {s : String} {t : DateTime} (h : Says asciiDigit s.toList t) (ht : RealTime t) :
    parseDatetime py s = .ok t := by
  simp only [parseDatetime, hi]
  exact fallback_reads hd h ht

/-! ## Numbers -/

theorem digits_toDigits (hd : GoodDigits py.digit) {cs : List Char} (hc : ∀ c ∈ cs, c.isDigit = true) : ∀ (prev : Bool) (acc : Nat), (prev = true ∨ cs ≠ []) →
    digits py prev acc cs = some (Nat.ofDigitChars 10 cs acc) := by
  induction cs with
  | nil => intro prev acc h; simp at h; simp [digits, h, Nat.ofDigitChars]
  | cons c cs ih =>
    intro prev acc _
    have h1 := hc c List.mem_cons_self
    have h2 : asciiDigit c = some (c.toNat - 48) := by
      simp only [Char.isDigit, Bool.and_eq_true, decide_eq_true_eq] at h1
      have h3 : 48 ≤ c.toNat := h1.1
      have h4 : c.toNat ≤ 57 := h1.2
      simp [asciiDigit, h3, h4]
    have h3 : c ≠ '_' := by rintro rfl; exact absurd h1 (by decide)
    simp only [digits, h3, if_false, hd.ascii c _ h2]
    rw [ih (fun c hc' => hc c (List.mem_cons_of_mem _ hc')) true _ (.inl rfl)]
    simp [Nat.ofDigitChars_cons]

theorem isDigit_ascii {c : Char} (h : c.isDigit = true) : asciiDigit c = some (c.toNat - 48) := by
  simp only [Char.isDigit, Bool.and_eq_true, decide_eq_true_eq] at h
  have h3 : 48 ≤ c.toNat := h.1
  have h4 : c.toNat ≤ 57 := h.2
  simp [asciiDigit, h3, h4]

theorem trim_id {cs : List Char} (h : ∀ c ∈ cs, py.space c = false) : trim py cs = cs := by
  have key : ∀ l : List Char, (∀ c ∈ l, py.space c = false) → l.dropWhile py.space = l := by
    intro l hl
    cases l with
    | nil => rfl
    | cons c l => simp [hl c List.mem_cons_self]
  unfold trim
  rw [key cs h, key cs.reverse (by simpa using h), List.reverse_reverse]

/-- `int(str(i))` is `i`. -/
theorem toInt_toString (hd : GoodDigits py.digit) (hs : GoodSpace py) (i : Int) : toInt py (.str (toString i)) = .ok i := by
  have hds : ∀ n c, c ∈ Nat.toDigits 10 n → c.isDigit = true := fun n c h => Nat.isDigit_of_mem_toDigits (b := 10) (by decide) (by decide) h
  have hsp : ∀ n c, c ∈ Nat.toDigits 10 n → py.space c = false := fun n c h => hs.2 c _ (isDigit_ascii (hds n c h))
  have hval : ∀ n, digits py false 0 (Nat.toDigits 10 n) = some n := by
    intro n
    rw [digits_toDigits hd (hds n) false 0 (.inr Nat.toDigits_ne_nil), Nat.ofDigitChars_toDigits (by decide) (by decide)]
  cases i with
  | ofNat n =>
    have h1 : (toString (Int.ofNat n)).toList = Nat.toDigits 10 n := Nat.toList_repr
    have h2 : signed py (Nat.toDigits 10 n) = some (n : Int) := by
      unfold signed
      split
      · rename_i cs hcs
        have := hds n '-' (by rw [hcs]; exact List.mem_cons_self)
        exact absurd this (by decide)
      · rename_i cs hcs
        have := hds n '+' (by rw [hcs]; exact List.mem_cons_self)
        exact absurd this (by decide)
      · rw [hval]; rfl
    simp only [toInt, h1, trim_id (hsp n), h2]
    rfl
  | negSucc n =>
    have h1 : (toString (Int.negSucc n)).toList = '-' :: Nat.toDigits 10 (n + 1) := by
      show ("-" ++ Nat.repr (n + 1)).toList = _
      rw [String.toList_append, Nat.toList_repr]
      rfl
    have h2 : trim py ('-' :: Nat.toDigits 10 (n + 1)) = '-' :: Nat.toDigits 10 (n + 1) := by
      apply trim_id
      intro c hc
      rcases List.mem_cons.1 hc with rfl | hc
      · exact hs.1
      · exact hsp _ c hc
    simp only [toInt, h1, h2, signed, hval]
    rfl

/-- C83: whatever number a property holds, of whatever size, it survives JSON; so do strings. -/
theorem C83 (hd : GoodDigits py.digit) (hs : GoodSpace py) {k : Kind} {v : TVal} (hk : k ≠ .date ∧ k ≠ .datetime) (h : OfKind k v) :
    ∃ j, toJson k v = .ok j ∧ init py k j = .ok (some v) := by
  have big : ∀ i : Int, toInt py (.str (toString i)) = .ok i := toInt_toString hd hs
  cases h with
  | date d => exact absurd rfl hk.1
  | datetime t => exact absurd rfl hk.2
  | int i =>
    refine ⟨_, rfl, ?_⟩
    have hb := big i
    generalize toString i = s at hb ⊢
    split <;> simp [init, typeSafe, isa, coerce, hb, Except.map]
  | long i =>
    refine ⟨_, rfl, ?_⟩
    have hb := big i
    generalize toString i = s at hb ⊢
    split <;> simp [init, typeSafe, isa, coerce, hb, Except.map]
  | integer i =>
    refine ⟨_, rfl, ?_⟩
    have hb := big i
    generalize toString i = s at hb ⊢
    split <;> simp [init, typeSafe, isa, coerce, hb, Except.map]
  | numberInt i =>
    refine ⟨_, rfl, ?_⟩
    have hb := big i
    generalize toString i = s at hb ⊢
    split <;> simp [init, typeSafe, isa, coerce, coerceNumber, hb]
  | intBool b => exact ⟨_, rfl, rfl⟩
  | longBool b => exact ⟨_, rfl, rfl⟩
  | integerBool b => exact ⟨_, rfl, rfl⟩
  | numberBool b => exact ⟨_, rfl, rfl⟩
  | numberFloat x => exact ⟨_, rfl, rfl⟩
  | numberDecimal x => exact ⟨_, rfl, rfl⟩
  | string s => exact ⟨_, rfl, rfl⟩
  | unicode s => exact ⟨_, rfl, rfl⟩
  | float x => exact ⟨_, rfl, rfl⟩

/-! ## Strings -/

/-- C84: a string property refuses what is no string. -/
def C84_statement : Prop := ∀ (py : Py) (k : Kind), k = .string ∨ k = .unicode → ∀ v, (∀ s, v ≠ .str s) → ∃ e, assign py k v = .error e

/-- C84 for `UnicodeProperty`. -/
theorem C84_partial {v : TVal} (h : ∀ s, v ≠ .str s) : assign py .unicode v = .error .valueCoercionError := by
  cases v <;> first | rfl | exact absurd rfl (h _)

/-- C84: `StringProperty` refuses nothing. -/
theorem C84_never (v : TVal) : ∃ s, assign py .string v = .ok (.str s) := by
  cases v <;> exact ⟨_, rfl⟩

/-- C84: `None` in the constructor leaves a `UnicodeProperty` unset. -/
theorem C84_none : init py .unicode .none = .ok none := rfl

/-! ## Examples and violations -/

/-- Python with ASCII digits and no `dateutil`. -/
def exPy : Py where
  digit := asciiDigit
  space := fun c => c == ' '
  float := fun _ => .error .valueError
  trunc := fun _ => .error .valueError
  str := fun _ => "None"
  dateutil := none

theorem exPy_digits : GoodDigits exPy.digit := ⟨fun _ _ h => h, fun _ _ h => (asciiDigit_iff.1 h).2⟩

theorem exPy_dateutil : GoodDateutil exPy := by
  intro f hf
  cases hf

theorem exPy_space : GoodSpace exPy := by
  refine ⟨rfl, ?_⟩
  intro c k h
  obtain ⟨rfl, hk⟩ := asciiDigit_iff.1 h
  interval_cases k <;> rfl

/-- 29 February 2000, 13:05:09. -/
def exTime : DateTime := ⟨⟨2000, 2, 29⟩, 13, 5, 9, 0, none⟩

theorem exTime_real : RealTime exTime := goodTime_iff.1 (by decide)

example : ∃ j, toJson .date (.date ⟨2000, 2, 29⟩) = .ok j ∧ init exPy .date j = .ok (some (.date ⟨2000, 2, 29⟩)) :=
  C79 exPy_digits exPy_dateutil exTime_real.date

example : toJson .date (.date ⟨33, 2, 9⟩) = .ok (.str "0033-02-09") := by decide +kernel

example : toJson .datetime (.datetime ⟨⟨2000, 2, 29⟩, 13, 5, 9, 70, some (-150)⟩) = .ok (.str "2000-02-29T13:05:09.000070-02:30") := by decide +kernel

example : ∃ j, toJson .datetime (.datetime exTime) = .ok j ∧ init exPy .datetime j = .ok (some (.datetime exTime)) :=
  (C80_fallback_partial exPy_digits rfl exTime_real).2 ⟨rfl, rfl⟩

/-- C80 is false of the code: without `dateutil`, microseconds cannot be read. -/
theorem C80_violated : ¬ C80_statement := by
  intro h
  have hr : RealTime { exTime with micro := 7 } := goodTime_iff.1 (by decide)
  have := (C80_fallback_partial exPy_digits rfl hr).1 (h exPy exPy_digits exPy_dateutil _ hr)
  exact absurd this.1 (by decide)

-- the python that has `dateutil`
example : ∃ j, toJson .datetime (.datetime { exTime with micro := 7 }) = .ok j ∧
    init { exPy with dateutil := some (fun s => if s = "2000-02-29T13:05:09.000007" then .ok { exTime with micro := 7 } else .error .valueError) } .datetime j =
      .ok (some (.datetime { exTime with micro := 7 })) := ⟨_, rfl, by decide +kernel⟩

example : OfKind .date (.date ⟨2000, 2, 29⟩) := C81 (py := exPy) (.inl (C81_dates exTime ⟨2000, 2, 29⟩).1)

example : assign exPy .date (.int 5) = .error .coerceError := (C81_refused (by simp) (by simp) (by simp)).1

-- three ways to say a time
example : parseDatetime exPy "2000-02-29T13:05:09Z" = .ok exTime := by decide +kernel
example : parseDatetime exPy "20000229 13:05:09" = .ok exTime := by decide +kernel
example : parseDatetime exPy "000229" = .ok ⟨⟨2000, 2, 29⟩, 0, 0, 0, 0, none⟩ := by decide +kernel
example : parseDatetime exPy "2001-02-29" = .error .valueError := by decide +kernel

/-- C82 is false of the code: the month `2001-02` is read as the 2nd of January 2020. -/
theorem C82_violated : ¬ C82_statement := by
  intro h
  have h1 : parseDatetime exPy "2001-02" = .ok ⟨⟨2020, 1, 2⟩, 0, 0, 0, 0, none⟩ := by decide +kernel
  obtain ⟨_, _, h2⟩ := h exPy exPy_digits rfl _ _ h1
  have hlen : "2001-02".toList.length = 7 := rfl
  have n2 : ∀ cs n, Num exPy.digit 2 cs n → cs.length = 2 := by
    intro cs n h
    obtain ⟨_, _, _, _, rfl, _⟩ := num_two.1 h
    rfl
  have n4 : ∀ cs n, Num exPy.digit 4 cs n → cs.length = 4 := by
    intro cs n h
    obtain ⟨u, v, _, _, rfl, hu, hv, _⟩ := num_four.1 h
    simp [n2 _ _ hu, n2 _ _ hv]
  rcases h2 with ⟨⟨ys, ms, ds, hy, hm, hd, hs⟩, _⟩ | ⟨a, sep, b, hs, ⟨ys, ms, ds, hy, hm, hd, ha⟩, _⟩
  · have h3 := n2 _ _ hm
    have h4 := n2 _ _ hd
    have h5 : ys.length = 4 ∨ ys.length = 2 := by
      rcases hy with hy | ⟨n, hy, _⟩
      · exact .inl (n4 _ _ hy)
      · exact .inr (n2 _ _ hy)
    rcases hs with hs | hs <;> rw [hs] at hlen <;> simp at hlen <;> omega
  · have h3 := n2 _ _ hm
    have h4 := n2 _ _ hd
    have h5 := n4 _ _ hy
    rw [hs] at hlen
    rcases ha with rfl | rfl <;> simp at hlen <;> omega

example : ∃ j, toJson .integer (.int (-10 ^ 40)) = .ok j ∧ init exPy .integer j = .ok (some (.int (-10 ^ 40))) :=
  C83 exPy_digits exPy_space ⟨by decide, by decide⟩ (.integer _)

/-- C84 is false of the code: `None` becomes the text `None`. -/
theorem C84_violated : ¬ C84_statement := by
  intro h
  obtain ⟨e, he⟩ := h exPy .string (.inl rfl) .none (by simp)
  cases he

end Normalize.Types
