import Verif.Lemmas.SelectorOrder

/-!
# C01 ordering, C11 constructor validation, C12 algebra of field selectors
-/

namespace Normalize

open Spec

/-! ## C01 -/

/-- C01: `a < b` is true exactly when `a` sorts before `b`: as a proper prefix or by the first differing
component. -/
theorem C01_lt_true_iff (a b : FS) : FS.lt a b = .ok true ↔ Before a b := by
  induction a generalizing b with
  | nil =>
    cases b with
    | nil => simp [FS.lt, not_before_nil]
    | cons y ys => simp [FS.lt]; exact .inl ⟨y, ys, rfl⟩
  | cons x xs ih =>
    cases b with
    | nil => simp [FS.lt, not_before_nil]
    | cons y ys =>
      by_cases h : x = y
      · subst h; simp [FS.lt, ih, before_cons]
      · rw [before_cons_ne h]
        by_cases hs : Comp.sameType x y = true
        · simp [FS.lt, h, hs, ltSame_iff]
        · simp [FS.lt, h, hs]
          intro hl; exact hs hl.sameType

/-- C01: comparing raises exactly when the first differing components have different types, and what it
raises is `TypeError`. -/
theorem C01_lt_error_iff (a b : FS) (e : Exc) :
    FS.lt a b = .error e ↔ e = .typeError ∧ Incomparable a b := by
  induction a generalizing b with
  | nil =>
    cases b <;> simp [FS.lt, not_incomparable_nil_left]
  | cons x xs ih =>
    cases b with
    | nil => simp [FS.lt, not_incomparable_nil_right]
    | cons y ys =>
      by_cases h : x = y
      · subst h; simp [FS.lt, ih, incomparable_cons]
      · rw [incomparable_cons_ne h, ← sameType_false_iff]
        by_cases hs : Comp.sameType x y = true
        · simp [FS.lt, h, hs]
        · simp [FS.lt, h, hs, eq_comm]

/-- C01: irreflexive (and comparing a selector with itself never raises). -/
theorem C01_lt_irrefl (a : FS) : FS.lt a a = .ok false := by
  induction a with
  | nil => rfl
  | cons x xs ih => simp [FS.lt, ih]

/-- C01: transitive. -/
theorem C01_lt_trans (a b c : FS) (h₁ : FS.lt a b = .ok true) (h₂ : FS.lt b c = .ok true) :
    FS.lt a c = .ok true := by
  rw [C01_lt_true_iff] at *
  induction a generalizing b c with
  | nil =>
    cases c with
    | nil => exact absurd h₂ not_before_nil
    | cons z zs => exact .inl ⟨z, zs, rfl⟩
  | cons x xs ih =>
    cases b with
    | nil => exact absurd h₁ not_before_nil
    | cons y ys =>
      cases c with
      | nil => exact absurd h₂ not_before_nil
      | cons z zs =>
        by_cases hxy : x = y
        · subst hxy
          by_cases hxz : x = z
          · subst hxz; rw [before_cons] at *; exact ih _ _ h₁ h₂
          · rw [before_cons_ne hxz] at *; exact h₂
        · rw [before_cons_ne hxy] at h₁
          by_cases hyz : y = z
          · subst hyz; rw [before_cons_ne hxy]; exact h₁
          · rw [before_cons_ne hyz] at h₂
            have := h₁.trans h₂
            rw [before_cons_ne this.ne]; exact this

/-- C01: trichotomy. Either both comparisons raise `TypeError`, or neither does and exactly one of
`a < b`, `a == b`, `b < a` holds. -/
theorem C01_trichotomy (a b : FS) :
    (FS.lt a b = .error .typeError ∧ FS.lt b a = .error .typeError ∧ a ≠ b) ∨
    (FS.lt a b = .ok true ∧ a ≠ b ∧ FS.lt b a = .ok false) ∨
    (FS.lt a b = .ok false ∧ a = b ∧ FS.lt b a = .ok false) ∨
    (FS.lt a b = .ok false ∧ a ≠ b ∧ FS.lt b a = .ok true) := by
  induction a generalizing b with
  | nil => cases b <;> simp [FS.lt]
  | cons x xs ih =>
    cases b with
    | nil => simp [FS.lt]
    | cons y ys =>
      by_cases h : x = y
      · subst h; simpa [FS.lt] using ih ys
      · have h' : y ≠ x := fun e => h e.symm
        rcases comp_trichotomy x y with hl | he | hg | hd
        · have hs := hl.sameType
          have hs' : Comp.sameType y x = true := by cases hl <;> rfl
          have h1 := ltSame_iff.2 hl
          have h2 : Comp.ltSame y x = false := by
            cases hl with
            | str hl => simpa [Comp.ltSame] using Std.le_of_lt hl
            | int hl => simpa [Comp.ltSame] using Int.le_of_lt hl
          simp [FS.lt, h, h', hs, hs', h1, h2]
        · exact absurd he h
        · have hs := hg.sameType
          have hs' : Comp.sameType x y = true := by cases hg <;> rfl
          have h1 := ltSame_iff.2 hg
          have h2 : Comp.ltSame x y = false := by
            cases hg with
            | str hl => simpa [Comp.ltSame] using Std.le_of_lt hl
            | int hl => simpa [Comp.ltSame] using Int.le_of_lt hl
          simp [FS.lt, h, h', hs, hs', h1, h2]
        · have hs := sameType_false_iff.2 hd
          have hs' := sameType_false_iff.2 hd.symm
          simp [FS.lt, h, h', hs, hs']

/-- C01: asymmetric. -/
theorem C01_lt_asymm (a b : FS) (h : FS.lt a b = .ok true) : FS.lt b a = .ok false := by
  rcases C01_trichotomy a b with ⟨h1, h2, h3⟩ | ⟨h1, h2, h3⟩ | ⟨h1, h2, h3⟩ | ⟨h1, h2, h3⟩ <;>
    simp [h] at h1 <;> exact h3

/-- C01: a proper prefix sorts first; integer indices under a common prefix sort numerically, whatever
follows them. -/
theorem C01_prefix_and_index (p s t : FS) (c : Comp) (i j : Int) :
    FS.lt p (p ++ c :: s) = .ok true ∧
    (FS.lt (p ++ .int i :: s) (p ++ .int j :: t) = .ok true ↔ i < j ∨ (i = j ∧ FS.lt s t = .ok true)) := by
  constructor
  · rw [C01_lt_true_iff]; exact .inl ⟨c, s, rfl⟩
  · induction p with
    | nil =>
      by_cases h : i = j
      · subst h; simp [FS.lt]
      · simp [FS.lt, h, Comp.sameType, Comp.ltSame]
    | cons x xs ih => simpa [FS.lt] using ih

/-- C01: the comparison operators derived by `functools.total_ordering` agree with `<` and `==`; they
raise exactly when `<` does. -/
theorem C01_derived (a b : FS) :
    (FS.gt a b = FS.lt b a) ∧
    (FS.le a b = .ok true ↔ FS.lt a b = .ok true ∨ a = b) ∧
    (FS.ge a b = FS.le b a) := by
  have hs : ∀ x y : FS, (x = y) = (y = x) := fun x y => propext eq_comm
  rcases C01_trichotomy a b with ⟨h1, h2, h3⟩ | ⟨h1, h2, h3⟩ | ⟨h1, h2, h3⟩ | ⟨h1, h2, h3⟩ <;>
    simp [FS.gt, FS.le, FS.ge, FS.ne, FS.eq, h1, h2, h3, hs b a, C01_lt_irrefl, bind, Except.bind, pure, Except.pure]

/-! Concrete cases: the hypotheses of the order theorems are met by real selectors. -/

example : FS.lt [.str "foo", .int 2, .str "x"] [.str "foo", .int 10] = .ok true ∧
    FS.lt [.str "foo", .int 10] [.str "foo", .int 10, .none] = .ok true ∧
    FS.lt [.str "foo", .int 10] [.str "foo", .str "a"] = .error .typeError := by decide

/-! ## C11 -/

/-- C11, full property: construction succeeds iff every component is a string, an int or `None`.
The code violates it: falsy objects of any type are let through. -/
def C11_statement : Prop :=
  ∀ expr, (∃ r, FS.init expr = .ok r) ↔ ∀ e ∈ expr, e.valid = true

/-- C11 is false of the code: `FieldSelector(["a", 0.0])` is accepted. -/
theorem C11_violated : ¬ C11_statement := by
  intro h
  have := (h [.ok (.str "a"), .bad false]).1 ⟨_, rfl⟩
  simp [RawComp.valid] at this

/-- C11 (partial): valid components are always accepted, unchanged; any truthy invalid component is
rejected with `ValueError`.  Missing: falsy invalid components are accepted (`C11_violated`). -/
theorem C11_init_partial (expr : List RawComp) :
    ((∀ e ∈ expr, e.valid = true) → FS.init expr = .ok expr) ∧
    ((∃ e ∈ expr, e = .bad true) → FS.init expr = .error .valueError) ∧
    (∀ r, FS.init expr = .ok r → r = expr ∧ ∀ e ∈ r, e.valid = true ∨ e = .bad false) := by
  refine ⟨?_, ?_, ?_⟩
  · intro h
    have : expr.filter (fun e => !e.valid) = [] := by
      simp only [List.filter_eq_nil_iff]; intro a ha; simp [h a ha]
    simp [FS.init, this]
  · rintro ⟨e, he, rfl⟩
    unfold FS.init
    rw [if_pos]
    simp only [List.any_eq_true, List.mem_filter]
    exact ⟨_, ⟨he, by rfl⟩, by rfl⟩
  · intro r h
    unfold FS.init at h
    split at h
    · simp at h
    · rename_i hn
      simp at h; subst h
      refine ⟨rfl, ?_⟩
      intro e he
      cases e with
      | ok c => exact .inl rfl
      | bad b =>
        cases b with
        | false => exact .inr rfl
        | true =>
          exfalso; apply hn
          simp only [List.any_eq_true, List.mem_filter]
          exact ⟨_, ⟨he, by rfl⟩, by rfl⟩

/-- C11: selectors grown with `add_property`, `add_index`, `add_full_collection` and `extend` from valid
ones stay valid, and wrong argument types are rejected. -/
theorem C11_add_valid (a b : List RawComp) (e : RawComp)
    (ha : ∀ x ∈ a, x.valid = true) (hb : ∀ x ∈ b, x.valid = true) :
    (∀ r, FS.addProperty a e = .ok r → (∃ s, e = .ok (.str s)) ∧ r = a ++ [e] ∧ ∀ x ∈ r, x.valid = true) ∧
    (∀ r, FS.addIndex a e = .ok r → (∃ i, e = .ok (.int i)) ∧ r = a ++ [e] ∧ ∀ x ∈ r, x.valid = true) ∧
    (∀ x ∈ FS.addFullCollection a, x.valid = true) ∧
    (∀ x ∈ FS.extend a b, x.valid = true) := by
  refine ⟨?_, ?_, ?_, ?_⟩
  · intro r h
    unfold FS.addProperty at h
    split at h <;> simp at h
    subst h
    refine ⟨⟨_, rfl⟩, rfl, ?_⟩
    intro x hx; simp at hx
    rcases hx with hx | rfl
    · exact ha x hx
    · rfl
  · intro r h
    unfold FS.addIndex at h
    split at h <;> simp at h
    subst h
    refine ⟨⟨_, rfl⟩, rfl, ?_⟩
    intro x hx; simp at hx
    rcases hx with hx | rfl
    · exact ha x hx
    · rfl
  · intro x hx; simp [FS.addFullCollection] at hx
    rcases hx with hx | rfl
    · exact ha x hx
    · rfl
  · intro x hx; simp [FS.extend] at hx
    rcases hx with hx | hx
    · exact ha x hx
    · exact hb x hx

example : FS.init [.ok (.str "a"), .ok (.int 0), .ok .none] =
      .ok [.ok (.str "a"), .ok (.int 0), .ok .none] ∧
    FS.init [.ok (.str "a"), .bad true] = .error .valueError := by decide

/-! ## C12 -/

/-- C12: `+` is associative with the empty selector as unit, `len` is additive, and slicing undoes `+`. -/
theorem C12_monoid (a b c : FS) :
    FS.add (FS.add a b) c = FS.add a (FS.add b c) ∧
    FS.add [] a = a ∧ FS.add a [] = a ∧
    (FS.add a b).length = a.length + b.length ∧
    FS.slice (FS.add a b) none (some a.length) = a ∧
    FS.slice (FS.add a b) (some a.length) none = b ∧
    (∀ x, FS.addComp a x = FS.add a [x]) := by
  have h1 : FS.clampIdx (a ++ b).length (a.length : Int) = a.length := by
    unfold FS.clampIdx
    rw [if_neg (by omega)]; simp
  refine ⟨by simp [FS.add], rfl, by simp [FS.add], by simp [FS.add], ?_, ?_, fun _ => rfl⟩
  · simp [FS.slice, FS.add, h1, -List.length_append]
  · have : (a ++ b).take (a ++ b).length = a ++ b := List.take_length
    simp only [FS.slice, FS.add, h1, this]; simp

/-- C12: cutting a selector in two at any slice bound (negative or out of range included) and adding the
halves gives it back; `fs[:-1]` drops exactly the last component. -/
theorem C12_slice_split (a : FS) (i : Int) (c : Comp) :
    FS.add (FS.slice a none (some i)) (FS.slice a (some i) none) = a ∧
    FS.slice (FS.addComp a c) none (some (-1)) = a ∧
    FS.item (FS.addComp a c) (-1) = .ok c := by
  refine ⟨?_, ?_, ?_⟩
  · simp only [FS.add, FS.slice, List.drop_zero, List.take_length]; exact List.take_append_drop _ _
  · have : FS.clampIdx (a ++ [c]).length (-1) = a.length := by
      simp [FS.clampIdx]; omega
    simp [FS.slice, FS.addComp, this, -List.length_append]
  · unfold FS.item FS.addComp
    have h1 : ((-1 : Int) < 0) := by decide
    have h2 : (-1 : Int) + ((a ++ [c]).length : Nat) = a.length := by simp; omega
    simp only [if_pos h1, h2]
    rw [if_neg (by omega)]
    simp

/-- C12: for a `p` no longer than `fs`, `fs.startswith(p)` holds iff `fs == p + rest` for some rest; a
longer `p` raises `IndexError` exactly when `fs` is a prefix of it; and then nothing else is raised. -/
theorem C12_startswith (fs p : FS) :
    (FS.startsWith fs p = .ok true ↔ ∃ rest, fs = p ++ rest) ∧
    (FS.startsWith fs p = .error .indexError ↔ ∃ c rest, p = fs ++ c :: rest) ∧
    (∀ e, FS.startsWith fs p = .error e → e = .indexError) := by
  induction p generalizing fs with
  | nil => simp [FS.startsWith]
  | cons q ps ih =>
    cases fs with
    | nil => simp [FS.startsWith, eq_comm]
    | cons x xs =>
      by_cases h : q = x
      · subst h; simpa [FS.startsWith] using ih xs
      · have h' : x ≠ q := fun e => h e.symm
        simp [FS.startsWith, h, h']

/-- C12: `startswith` with a single component looks at the first component only. -/
theorem C12_startswith_comp (fs : FS) (c : Comp) :
    (FS.startsWithComp fs c = .ok true ↔ ∃ rest, fs = c :: rest) ∧
    (FS.startsWithComp fs c = .error .indexError ↔ fs = []) := by
  cases fs <;> simp [FS.startsWithComp]

example : FS.startsWith [.str "a", .int 1] [.str "a"] = .ok true ∧
    FS.startsWith [.str "a"] [.str "a", .int 1] = .error .indexError ∧
    FS.startsWith [.str "a"] [.str "b", .int 1] = .ok false := by decide

end Normalize
