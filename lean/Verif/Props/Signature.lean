import Verif.Spec.Signature

/-!
# C111: functions given to properties are called the way they can be called
-/

namespace Normalize.Sig

open Spec

/-! ## defaults -/

/-- The whole property for `default=`: what is accepted can be called when the default is needed. -/
def C111_default_statement : Prop :=
  ∀ (f : Callee) (m : Bool), declareDefault f = some m → Takes f (defaultArgs m).length []

/-- C111 is violated: `default=factory.make` for a method without arguments is accepted, and called with the
record. -/
theorem C111_default_violated : ¬ C111_default_statement := by
  intro h
  have := (h (.bound { args := ["self"] }) true (by decide)).positions
  simp [defaultArgs] at this

/-- C111 is violated: a function with a required keyword-only parameter is accepted. -/
theorem C111_default_kwonly_violated :
    ∃ p : Params, declareDefault (.function p) = some false ∧ ∀ n, ¬ Takes (.function p) n [] :=
  ⟨{ args := [], kwonly := [("limit", false)] }, by decide, fun n h => by
    have := h.givenKw ("limit", false) (by simp)
    simp at this⟩

theorem takes_function {p : Params} (hk : KwDefaults p) (n : Nat) :
    Takes (.function p) n [] ↔ (n ≤ p.args.length ∨ p.varargs = true) ∧ p.args.length - p.ndef ≤ n := by
  constructor
  · intro h
    refine ⟨h.positions, ?_⟩
    by_cases hn : p.args.length - p.ndef ≤ n
    · exact hn
    · have hi : n < p.args.length := by omega
      rcases h.given n (p.args[n]) (by rw [List.getElem?_eq_getElem hi]) with h | ⟨_, h⟩ | h
      · omega
      · simp at h
      · omega
  · rintro ⟨h1, h2⟩
    refine ⟨h1, by simp, by simp, ?_, fun x hx => .inl (hk x hx)⟩
    intro i nm hi
    by_cases hin : i < n
    · exact .inl hin
    · exact .inr (.inr (by omega))

theorem funcInfo_sum (f : Callee) :
    (if (funcInfo f).1 = true then 1 else 0) + (funcInfo f).2 = f.argspec.args.length - f.argspec.ndef := by
  unfold funcInfo
  by_cases h : f.argspec.args.isEmpty = true
  · rw [if_pos h]
    have : f.argspec.args.length = 0 := by simpa using h
    simp [this]
  · rw [if_neg h]
    by_cases h' : f.argspec.args.length - f.argspec.ndef ≠ 0 ∧ f.argspec.args.head? = some "self"
    · rw [if_pos h']; simp; omega
    · rw [if_neg h']; simp

/-- C111, part: of functions whose keyword-only parameters have defaults, exactly those are refused that can be
called neither with nothing nor with the record; the others are called with the record if they cannot be
called with nothing.  Missing: methods of objects, classes, callable objects. -/
theorem C111_default_partial {p : Params} (hk : KwDefaults p) :
    (declareDefault (.function p) = none ↔ ¬ Takes (.function p) 0 [] ∧ ¬ Takes (.function p) 1 []) ∧
    ∀ m, declareDefault (.function p) = some m →
      Takes (.function p) (defaultArgs m).length [] ∧ (m = true ↔ ¬ Takes (.function p) 0 []) := by
  have hsum := funcInfo_sum (.function p)
  simp only [takes_function hk]
  have ha : (Callee.function p).argspec = p := rfl
  rw [ha] at hsum
  unfold declareDefault
  generalize funcInfo (.function p) = i at hsum ⊢
  obtain ⟨b, k⟩ := i
  simp only at hsum ⊢
  by_cases hk0 : k ≠ 0
  · rw [if_pos hk0]
    by_cases hb : b = false ∧ k = 1
    · rw [if_pos hb]
      obtain ⟨rfl, rfl⟩ := hb
      simp only [Bool.false_eq_true, if_false] at hsum
      refine ⟨by simp; omega, ?_⟩
      intro m hm
      injection hm with hm; subst hm
      simp only [defaultArgs, if_true, List.length_singleton]
      refine ⟨⟨.inl (by omega), by omega⟩, by simp; omega⟩
    · rw [if_neg hb]
      refine ⟨?_, fun m hm => (nomatch hm)⟩
      have : 2 ≤ p.args.length - p.ndef := by
        cases b with
        | false => simp at hb hsum; omega
        | true => simp at hsum; omega
      simp; omega
  · rw [if_neg hk0]
    refine ⟨by cases b <;> simp at hsum ⊢ <;> omega, ?_⟩
    intro m hm
    injection hm with hm; subst hm
    cases b with
    | false => simp [defaultArgs] at hsum ⊢; omega
    | true => simp [defaultArgs] at hsum ⊢; omega

/-- `default=Point` for a class with `__init__(self, x=0)`: the record is passed as `x`. -/
theorem C111_class_gets_record :
    ∃ p : Params, Takes (.bound p) 0 [] ∧ declareDefault (.bound p) = some true ∧ Takes (.bound p) 1 [] :=
  ⟨{ args := ["self", "x"], ndef := 1 }, by
    refine ⟨.inl (by decide), by simp, by simp, ?_, by simp⟩
    intro i nm h
    by_cases hi : i < 1
    · exact .inl (by omega)
    · exact .inr (.inr (by simp; omega)), by decide, by
    refine ⟨.inl (by decide), by simp, by simp, ?_, by simp⟩
    intro i nm h
    by_cases hi : i < 1
    · exact .inl (by omega)
    · exact .inr (.inr (by simp; omega))⟩

/-- a method with an optional parameter; a function of two required ones -/
example : KwDefaults { args := ["self", "n"], ndef := 1 } ∧
    declareDefault (.function { args := ["self", "n"], ndef := 1 }) = some true ∧
    declareDefault (.function { args := ["self", "n"] }) = none ∧
    declareDefault (.function { args := ["rec"] }) = some true ∧
    declareDefault (.function { args := [], varargs := true }) = some false :=
  ⟨by intro x hx; simp at hx, by decide, by decide, by decide, by decide⟩

/-! ## compare_as -/

/-- The whole property for `compare_as=`: what is accepted can be called when values are compared. -/
def C111_compare_statement : Prop :=
  ∀ (f : Callee) (i : Bool × Nat), declareCompareAs f = some i → Takes f (compareAsArgs i).length []

/-- C111 is violated: `compare_as=Decimal`-like classes, with `__init__(self, value)`, are accepted and called
with the record and the value. -/
theorem C111_compare_violated : ¬ C111_compare_statement := by
  intro h
  have := (h (.bound { args := ["self", "value"] }) (true, 1) (by decide)).positions
  simp [compareAsArgs] at this

/-- A function of exactly one required argument is applied to the value in the slot. -/
def C111_clean_up_statement : Prop :=
  ∀ (p : Params), KwDefaults p → Takes (.function p) 1 [] → ¬ Takes (.function p) 0 [] →
    ∃ i, declareCompareAs (.function p) = some i ∧ compareAsArgs i = [.value]

/-- C111 is violated: `compare_as=str.lower`, whose parameter is called `self`, is applied to the record. -/
theorem C111_clean_up_violated : ¬ C111_clean_up_statement := by
  intro h
  have hk : KwDefaults { args := ["self"], posonly := 1 } := by intro x hx; simp at hx
  obtain ⟨i, h1, h2⟩ := h { args := ["self"], posonly := 1 } hk ((takes_function hk 1).2 (by simp))
    (fun h => by simpa using (takes_function hk 0).1 h)
  have h3 : declareCompareAs (.function { args := ["self"], posonly := 1 }) = some (true, 0) := by decide
  rw [h3] at h1
  injection h1 with h1; subst h1
  simp [compareAsArgs] at h2

/-- C111, part: of functions whose keyword-only parameters have defaults, those are refused that need more than
the record (if the first parameter is `self`) and the value; the others are called with what they need: the
record exactly if the first parameter is called `self` and is required, and the value exactly if one more is
required. -/
theorem C111_compare_partial {p : Params} (hk : KwDefaults p) :
    (declareCompareAs (.function p) = none ↔
      ¬ Takes (.function p) 0 [] ∧ ¬ Takes (.function p) 1 [] ∧
      ¬ (Takes (.function p) 2 [] ∧ p.args.head? = some "self")) ∧
    ∀ i, declareCompareAs (.function p) = some i →
      Takes (.function p) (compareAsArgs i).length [] ∧
      (∀ n, Takes (.function p) n [] → (compareAsArgs i).length ≤ n) ∧
      (.record ∈ compareAsArgs i ↔ p.args.head? = some "self" ∧ ¬ Takes (.function p) 0 []) := by
  have hsum := funcInfo_sum (.function p)
  have hself : (funcInfo (.function p)).1 = true ↔
      p.args.head? = some "self" ∧ p.args.length - p.ndef ≠ 0 := by
    unfold funcInfo
    have ha : (Callee.function p).argspec = p := rfl
    rw [ha]
    by_cases h : p.args.isEmpty = true
    · rw [if_pos h]
      have : p.args = [] := by simpa using h
      simp [this]
    · rw [if_neg h]
      by_cases h' : p.args.length - p.ndef ≠ 0 ∧ p.args.head? = some "self"
      · rw [if_pos h']; simp only [true_iff]; exact ⟨h'.2, h'.1⟩
      · rw [if_neg h']; simp only [Bool.false_eq_true, false_iff]; exact fun g => h' ⟨g.2, g.1⟩
  simp only [takes_function hk]
  have ha : (Callee.function p).argspec = p := rfl
  rw [ha] at hsum
  unfold declareCompareAs
  generalize funcInfo (.function p) = i at hsum hself ⊢
  obtain ⟨b, k⟩ := i
  simp only at hsum hself ⊢
  by_cases hk1 : k > 1
  · rw [if_pos hk1]
    refine ⟨?_, fun i hi => (nomatch hi)⟩
    simp only [true_iff]
    refine ⟨by omega, by omega, ?_⟩
    rintro ⟨⟨h1, h2⟩, h3⟩
    have : b = true := hself.2 ⟨h3, by omega⟩
    subst this
    simp at hsum; omega
  · rw [if_neg hk1]
    constructor
    · simp only [reduceCtorEq, false_iff]
      rintro ⟨h1, h2, h3⟩
      cases b with
      | false => simp at hsum; omega
      | true =>
        simp at hsum hself
        exact h3 ⟨⟨.inl (by omega), by omega⟩, hself.1⟩
    · intro i hi
      injection hi with hi; subst hi
      have hlen : (compareAsArgs (b, k)).length = p.args.length - p.ndef := by
        rw [← hsum]
        have : k = 0 ∨ k = 1 := by omega
        rcases this with rfl | rfl <;> cases b <;> rfl
      refine ⟨⟨.inl (by omega), by omega⟩, fun n hn => by omega, ?_⟩
      have hrec : Arg.record ∈ compareAsArgs (b, k) ↔ b = true := by
        unfold compareAsArgs
        cases b <;> by_cases hk0 : k ≠ 0 <;> simp [hk0]
      rw [hrec, hself]
      constructor
      · rintro ⟨h1, h2⟩; exact ⟨h1, by omega⟩
      · rintro ⟨h1, h2⟩; exact ⟨h1, by omega⟩

example : declareCompareAs (.function { args := ["self", "v"] }) = some (true, 1) ∧
    compareAsArgs (true, 1) = [.record, .value] ∧
    declareCompareAs (.function { args := ["v"] }) = some (false, 1) ∧ compareAsArgs (false, 1) = [.value] ∧
    declareCompareAs (.function { args := ["v", "w"] }) = none := by decide

/-! ## json_data -/

/-- The whole property for `json_data` methods: one that can be called with `extraneous=` or with nothing is
called in a way it can be called. -/
def C111_json_statement : Prop :=
  ∀ f : Callee, Takes f 0 [] ∨ Takes f 0 ["extraneous"] → Takes f 0 (jsonKeywords f)

/-- `extraneous` is passed to the methods that support it. -/
def C111_extraneous_statement : Prop :=
  ∀ f : Callee, Takes f 0 ["extraneous"] → jsonKeywords f = ["extraneous"]

/-- C111 is violated: `def json_data(self, *, pretty=False)` is called with `extraneous=`. -/
theorem C111_json_violated : ¬ C111_json_statement := by
  intro h
  have h1 : Takes (.bound { args := ["self"], kwonly := [("pretty", true)] }) 0 [] := by
    refine ⟨.inl (by decide), by simp, by simp, ?_, by simp⟩
    intro i nm hi
    have : i < 1 := by
      by_cases hi' : i < 1
      · exact hi'
      · simp [List.getElem?_eq_none (l := ["self"]) (i := i) (by simp; omega)] at hi
    exact .inl (by omega)
  have h2 := (h _ (.inl h1)).keywords "extraneous" (by decide)
  rcases h2 with ⟨i, _, h2⟩ | ⟨x, hx, h2⟩ | h2
  · have := List.mem_of_getElem? h2
    simp at this
  · simp at hx; subst hx; simp at h2
  · simp at h2

/-- C111 is violated: `def json_data(self, **options)` does not get `extraneous=`. -/
theorem C111_extraneous_violated : ¬ C111_extraneous_statement := by
  intro h
  have h1 : Takes (.bound { args := ["self"], varkw := true }) 0 ["extraneous"] := by
    refine ⟨.inl (by decide), by simp, ?_, ?_, by simp⟩
    · intro k hk i _ hi
      have := List.mem_of_getElem? hi
      simp at this hk; subst this; simp at hk
    · intro i nm hi
      have : i < 1 := by
        by_cases hi' : i < 1
        · exact hi'
        · simp [List.getElem?_eq_none (l := ["self"]) (i := i) (by simp; omega)] at hi
      exact .inl (by omega)
  have := h _ h1
  simp [jsonKeywords, Callee.argspec] at this

/-- C111, part: with no keyword-only parameter but `extraneous`, no position-only ones and the object not called
`extraneous`, the method is called in a way it can be called; if it has no `**options`, it gets `extraneous`
exactly if it can take it. -/
theorem C111_json_partial {p : Params} (hkw : ∀ x ∈ p.kwonly, x.1 = "extraneous") (hpos : p.posonly = 0)
    (hfirst : p.args.head? ≠ some "extraneous") :
    (Takes (.bound p) 0 [] ∨ Takes (.bound p) 0 ["extraneous"] → Takes (.bound p) 0 (jsonKeywords (.bound p))) ∧
    (p.varkw = false → (Takes (.bound p) 0 ["extraneous"] → jsonKeywords (.bound p) = ["extraneous"])) := by
  have hget : ∀ i, p.args[i]? = some "extraneous" → 1 ≤ i := by
    intro i hi
    cases i with
    | zero => rw [← List.head?_eq_getElem?] at hi; exact absurd hi hfirst
    | succ i => omega
  have hj : jsonKeywords (.bound p) = ["extraneous"] ∨
      (jsonKeywords (.bound p) = [] ∧ "extraneous" ∉ p.args ∧ p.kwonly = []) := by
    unfold jsonKeywords
    by_cases h : ((Callee.bound p).argspec.args.contains "extraneous" ||
        !(Callee.bound p).argspec.kwonly.isEmpty) = true
    · rw [if_pos h]; exact .inl rfl
    · rw [if_neg h]
      refine .inr ⟨rfl, ?_⟩
      simpa [Callee.argspec] using h
  have hj' : jsonKeywords (.bound p) = ["extraneous"] → "extraneous" ∈ p.args ∨ p.kwonly ≠ [] := by
    unfold jsonKeywords
    by_cases h : ((Callee.bound p).argspec.args.contains "extraneous" ||
        !(Callee.bound p).argspec.kwonly.isEmpty) = true
    · intro _; simpa [Callee.argspec] using h
    · rw [if_neg h]; simp
  constructor
  · intro h
    rcases hj with hj | ⟨hj, h1, h2⟩
    · rw [hj]
      rcases h with h | h
      · refine ⟨h.positions, ?_, ?_, ?_, ?_⟩
        · intro k hk
          simp at hk; subst hk
          rcases hj' hj with h' | h'
          · obtain ⟨i, hi⟩ := List.mem_iff_getElem?.1 h'
            exact .inl ⟨i, by omega, hi⟩
          · obtain ⟨x, hx⟩ := List.exists_mem_of_ne_nil _ h'
            exact .inr (.inl ⟨x, hx, hkw x hx⟩)
        · intro k hk i _ hi
          simp at hk; subst hk
          exact hget i hi
        · intro i nm hi
          rcases h.given i nm hi with h | ⟨_, h⟩ | h
          · exact .inl h
          · simp at h
          · exact .inr (.inr h)
        · intro x hx
          exact .inr (by simp [hkw x hx])
      · exact h
    · rw [hj]
      rcases h with h | h
      · exact h
      · refine ⟨h.positions, by simp, by simp, ?_, ?_⟩
        · intro i nm hi
          rcases h.given i nm hi with h | ⟨_, h⟩ | h
          · exact .inl h
          · simp at h; subst h
            exact absurd (List.mem_of_getElem? hi) h1
          · exact .inr (.inr h)
        · rw [h2]; simp
  · intro hv h
    rcases hj with hj | ⟨hj, h1, h2⟩
    · exact hj
    · exfalso
      rcases h.keywords "extraneous" (by simp) with ⟨i, _, hi⟩ | ⟨x, hx, _⟩ | h
      · exact h1 (List.mem_of_getElem? hi)
      · rw [h2] at hx; simp at hx
      · rw [hv] at h; simp at h

/-- `def json_data(self, extraneous=False)` meets the hypotheses -/
example : (∀ x ∈ (Params.mk ["self", "extraneous"] 0 1 false [] false).kwonly, x.1 = "extraneous") ∧
    (Params.mk ["self", "extraneous"] 0 1 false [] false).args.head? ≠ some "extraneous" :=
  ⟨by intro x hx; simp at hx, by decide⟩

example : jsonKeywords (.bound { args := ["self", "extraneous"], ndef := 1 }) = ["extraneous"] ∧
    jsonKeywords (.bound { args := ["self"] }) = [] := by decide

end Normalize.Sig
