import Verif.Lemmas.Regex
import Verif.Spec.Path

/-! Lemmas about the text form of selectors. -/

namespace Normalize

open Re Spec

/-! ### escaping -/

theorem escapeKey_nil : escapeKey [] = [] := rfl

theorem escapeKey_cons (c : Char) (s : List Char) :
    escapeKey (c :: s) = (if c = '\\' then ['\\', '\\'] else if c = '\'' then ['\\', '\''] else [c]) ++
      escapeKey s := by
  unfold escapeKey
  rw [List.flatMap_cons, List.flatMap_append]
  congr 1
  by_cases h : c = '\\'
  · subst h; rfl
  · by_cases h' : c = '\'' <;> simp [h, h']

theorem escapeKey_esc (s : List Char) : Esc (escapeKey s) := by
  induction s with
  | nil => exact .nil
  | cons c s ih =>
    rw [escapeKey_cons]
    split
    · exact .chr _ _ (by decide) (.chr _ _ (by decide) ih)
    · split
      · exact .quo _ ih
      · exact .chr _ _ (by assumption) ih

theorem escapeKey_ne_nil {s : List Char} (h : s ≠ []) : escapeKey s ≠ [] := by
  cases s with
  | nil => exact absurd rfl h
  | cons c s => rw [escapeKey_cons]; split <;> (try split) <;> simp

theorem noQB_cons {c : Char} {s : List Char} :
    NoQB (c :: s) ↔ ¬ (c = '\'' ∧ s.head? = some ']') ∧ NoQB s := by
  unfold NoQB
  rw [List.infix_cons_iff]
  cases s with
  | nil => simp [List.cons_prefix_cons]
  | cons d s =>
    simp only [List.cons_prefix_cons, List.head?_cons, Option.some.injEq, List.nil_prefix, and_true]
    constructor
    · intro h
      refine ⟨fun ⟨a, b⟩ => h (.inl ⟨a.symm, b.symm⟩), fun h' => h (.inr h')⟩
    · rintro ⟨h1, h2⟩ (⟨a, b⟩ | h)
      · exact h1 ⟨a.symm, b.symm⟩
      · exact h2 h

theorem escapeKey_noQB (s : List Char) (h : NoQB s) : NoQB (escapeKey s) := by
  have key : ∀ s : List Char, (escapeKey s).head? = some ']' → s.head? = some ']' := by
    intro s hs
    cases s with
    | nil => simp [escapeKey_nil] at hs
    | cons c s =>
      rw [escapeKey_cons] at hs
      split at hs
      · simp at hs
      · split at hs <;> simp at hs
        simp [hs]
  induction s with
  | nil => simpa [escapeKey_nil] using h
  | cons c s ih =>
    obtain ⟨h1, h2⟩ := noQB_cons.1 h
    have ih := ih h2
    rw [escapeKey_cons]
    split
    · simp only [List.cons_append, List.nil_append]
      exact noQB_cons.2 ⟨by rintro ⟨h, _⟩; exact absurd h (by decide), noQB_cons.2 ⟨by rintro ⟨h, _⟩; exact absurd h (by decide), ih⟩⟩
    · split
      · rename_i hc
        simp only [List.cons_append, List.nil_append]
        exact noQB_cons.2 ⟨by rintro ⟨h, _⟩; exact absurd h (by decide), noQB_cons.2 ⟨fun ⟨_, h⟩ => h1 ⟨hc, key _ h⟩, ih⟩⟩
      · rename_i hc
        exact noQB_cons.2 ⟨fun h => hc h.1, ih⟩

/-- The pattern of `unescapeKey`. -/
private abbrev unRe : Re := seq (lit '\\') (cap "1" (chr (fun c => c != '\n')))

theorem unescape_escape_append (s z : List Char) (hz : z = [] ∨ z = ['\\']) :
    unescapeKey (escapeKey s ++ z) = s ++ z := by
  have main : ∀ (s : List Char) (n : Nat), (escapeKey s ++ z).length < n →
      subN unRe (fun g => (g.group "1").getD []) n (escapeKey s ++ z) = s ++ z := by
    intro s
    induction s with
    | nil =>
      intro n hn
      cases n with
      | zero => simp at hn
      | succ n =>
        rcases hz with rfl | rfl
        · simp [escapeKey_nil, subN, first, run, lit]
        · cases n with
          | zero => simp [escapeKey_nil] at hn
          | succ n => simp [escapeKey_nil, subN, first, run, lit]
    | cons c s ih =>
      intro n hn
      cases n with
      | zero => simp at hn
      | succ n =>
        rw [escapeKey_cons] at hn ⊢
        split at hn
        · rename_i hc
          rw [if_pos hc]
          have := ih n (by simp at hn ⊢; omega)
          simp only [Caps.group] at this
          simp [subN, first, run, lit, Caps.group, hc, this]
          omega
        · rename_i hc
          rw [if_neg hc]
          split at hn
          · rename_i hc'
            rw [if_pos hc']
            have := ih n (by simp at hn ⊢; omega)
            simp only [Caps.group] at this
            simp [subN, first, run, lit, Caps.group, hc', this]
            omega
          · rename_i hc'
            rw [if_neg hc']
            have := ih n (by simp at hn ⊢; omega)
            simp [subN, first, run, lit, hc, this]
  exact main s _ (by omega)

theorem unescape_escape (s : List Char) : unescapeKey (escapeKey s) = s := by
  simpa using unescape_escape_append s [] (.inl rfl)

/-- The first occurrence of `']`. -/
theorem first_QB {s : List Char} (h : ¬ NoQB s) : ∃ u v, s = u ++ '\'' :: ']' :: v ∧ NoQB u := by
  induction s with
  | nil => exact absurd (by unfold NoQB; simp) h
  | cons c s ih =>
    by_cases hp : c = '\'' ∧ s.head? = some ']'
    · obtain ⟨rfl, h2⟩ := hp
      cases s with
      | nil => simp at h2
      | cons d s => simp at h2; subst h2; exact ⟨[], s, rfl, by unfold NoQB; simp⟩
    · have : ¬ NoQB s := fun hs => h (noQB_cons.2 ⟨hp, hs⟩)
      obtain ⟨u, v, rfl, hu⟩ := ih this
      refine ⟨c :: u, v, rfl, noQB_cons.2 ⟨?_, hu⟩⟩
      rintro ⟨h1, h2⟩
      apply hp
      refine ⟨h1, ?_⟩
      cases u with
      | nil => simp at h2
      | cons d u => simpa using h2

theorem noQB_append_bs {s : List Char} (h : NoQB s) : NoQB (s ++ ['\\']) := by
  induction s with
  | nil => exact noQB_cons.2 ⟨by rintro ⟨h, _⟩; exact absurd h (by decide), h⟩
  | cons c s ih =>
    obtain ⟨h1, h2⟩ := noQB_cons.1 h
    refine noQB_cons.2 ⟨?_, ih h2⟩
    rintro ⟨h3, h4⟩
    apply h1
    refine ⟨h3, ?_⟩
    cases s with
    | nil => simp at h4
    | cons d s => simpa using h4

theorem Esc.append {a b : List Char} (ha : Esc a) (hb : Esc b) : Esc (a ++ b) := by
  induction ha with
  | nil => exact hb
  | chr c s hc _ ih => exact .chr _ _ hc ih
  | quo s _ ih => exact .quo _ ih

theorem escapeKey_append (a b : List Char) : escapeKey (a ++ b) = escapeKey a ++ escapeKey b := by
  simp [escapeKey]

/-! ### identifiers -/

theorem exists_run (p : Char → Bool) (s : List Char) :
    ∃ u t, s = u ++ t ∧ (∀ c ∈ u, p c = true) ∧ ∀ c t', t = c :: t' → p c = false := by
  induction s with
  | nil => exact ⟨[], [], rfl, by simp, by simp⟩
  | cons c s ih =>
    cases hp : p c with
    | false => exact ⟨[], c :: s, rfl, by simp, by rintro _ _ ⟨rfl, rfl⟩; exact hp⟩
    | true =>
      obtain ⟨u, t, rfl, hu, ht⟩ := ih
      exact ⟨c :: u, t, rfl, by simpa [hp] using hu, ht⟩

theorem sufs_mem {u t r : List Char} (h : r ∈ sufs u t) :
    r = t ∨ ∃ a b, r = a :: (b ++ t) ∧ a ∈ u := by
  induction u with
  | nil => simp [sufs] at h; exact .inl h
  | cons c u ih =>
    simp [sufs] at h
    rcases h with h | h
    · rcases ih h with h | ⟨a, b, h, ha⟩
      · exact .inl h
      · exact .inr ⟨a, b, h, by simp [ha]⟩
    · exact .inr ⟨c, u, h, by simp⟩

theorem identRe_iff (cc : CharClass) (hcc : cc.Lawful) (s : List Char) :
    (first (identRe cc) s).isSome ↔ Ident cc s ∨ ∃ w, Ident cc w ∧ s = w ++ ['\n'] := by
  have hnl : cc.word '\n' = false := hcc.not_word _ (by simp)
  cases s with
  | nil => simp [first, identRe, run, Ident]
  | cons c s =>
    obtain ⟨u, t, rfl, hu, ht⟩ := exists_run cc.word s
    have hrun := run_star_chr cc.word u t hu ht
    by_cases hc : c.isAlpha = true ∨ c = '_'
    · -- the rest decides
      have e1 : first (identRe cc) (c :: (u ++ t)) =
          ((sufs u t).flatMap (fun r => run eol r)).head? := by
        have e : (c.isAlpha || c == '_') = true := by
          rcases hc with hc | hc
          · simp [hc]
          · simp [hc]
        simp only [first, identRe, run.eq_4]
        simp only [run.eq_2, e, if_true, List.flatMap_cons, List.flatMap_nil, List.append_nil,
          hrun, List.flatMap_map, List.map_map]
        simp [Function.comp_def]
      have key : (first (identRe cc) (c :: (u ++ t))).isSome ↔ (t = [] ∨ t = ['\n']) := by
        rw [e1, List.isSome_head?, ]
        simp only [Bool.not_eq_true', List.isEmpty_eq_false_iff, ne_eq, List.flatMap_eq_nil_iff]
        constructor
        · intro h
          simp only [Classical.not_forall] at h
          obtain ⟨r, hr, h⟩ := h
          simp only [run] at h
          split at h
          · rename_i hr'
            rcases sufs_mem hr with rfl | ⟨a, b, rfl, ha⟩
            · exact hr'
            · have ha' := hu a ha
              rcases hr' with hr' | hr'
              · simp at hr'
              · simp at hr'
                rw [hr'.1, hnl] at ha'; cases ha'
          · exact absurd rfl h
        · intro h h'
          obtain ⟨l, hl⟩ := sufs_head u t
          have := h' t (by simp [hl])
          simp [run, h] at this
      rw [key]
      constructor
      · rintro (rfl | rfl)
        · exact .inl ⟨c, u, by simp, hc, hu⟩
        · exact .inr ⟨c :: u, ⟨c, u, rfl, hc, hu⟩, by simp⟩
      · rintro (⟨c', w, h, _, hw⟩ | ⟨w, ⟨c', w', rfl, _, hw⟩, h⟩)
        · injection h with _ h
          subst h
          cases t with
          | nil => exact .inl rfl
          | cons d t =>
            have h1 := ht d t rfl
            have h2 := hw d (by simp)
            rw [h1] at h2; cases h2
        · simp at h
          obtain ⟨_, h⟩ := h
          right
          rcases List.append_eq_append_iff.1 h with ⟨a, ha, hb⟩ | ⟨a, ha, hb⟩
          · -- w' = u ++ a, t = a ++ "\n"
            cases a with
            | nil => simpa using hb
            | cons d a =>
              have h1 := ht d _ hb
              have h2 := hw d (by simp [ha])
              rw [h1] at h2; cases h2
          · -- u = w' ++ a, "\n" = a ++ t
            cases a with
            | nil => simpa using hb.symm
            | cons d a =>
              simp at hb
              have h2 := hu d (by simp [ha])
              rw [← hb.1, hnl] at h2; cases h2
    · -- the first character is wrong
      have e : (c.isAlpha || c == '_') = false := by
        cases h1 : c.isAlpha <;> cases h2 : (c == '_') <;> simp_all
      have e1 : first (identRe cc) (c :: (u ++ t)) = none := by
        simp [first, identRe, run, e]
      rw [e1]
      simp only [Option.isSome_none, Bool.false_eq_true, false_iff]
      rintro (⟨c', w, h, h', _⟩ | ⟨w, ⟨c', w', rfl, h', _⟩, h⟩)
      · injection h with h _
        exact hc (h ▸ h')
      · simp at h
        exact hc (h.1 ▸ h')

/-! ### tokens -/

theorem first_alt (a b : Re) (s : List Char) : first (alt a b) s = (first a s).or (first b s) := by
  simp [first, run, List.head?_append]

theorem first_attr (cc : CharClass) (c : Char) (w t : List Char)
    (hw : ∀ d ∈ c :: w, cc.word d = true) (ht : ∀ d t', t = d :: t' → cc.word d = false) :
    first (attrRe cc) ('.' :: (c :: w ++ t)) = some ([("attr", c :: w)], t) := by
  have h := run_plus_chr cc.word c w t (hw c (by simp)) (fun d hd => hw d (by simp [hd])) ht
  obtain ⟨l, hl⟩ := sufs_head w t
  rw [hl] at h
  simp only [first, attrRe, run.eq_4, run_lit_cons]
  simp only [List.cons_append, run.eq_7, List.flatMap_cons, List.flatMap_nil, List.append_nil]
  rw [h]
  have : (w.length + t.length + 1 - t.length) = w.length + 1 := by omega
  simp [this]

theorem first_attr_none (cc : CharClass) (c : Char) (s : List Char) (h : c ≠ '.') :
    first (attrRe cc) (c :: s) = none := by
  simp [first, attrRe, run, run_lit_ne _ _ _ h]

theorem first_attr_nil (cc : CharClass) : first (attrRe cc) [] = none := by
  simp [first, attrRe, run, lit]

theorem first_brk_none (cc : CharClass) (c : Char) (s : List Char) (h : c ≠ '[') :
    first (brkRe cc) (c :: s) = none := by
  simp [first, brkRe, run, run_lit_ne _ _ _ h]

theorem first_brk_nil (cc : CharClass) : first (brkRe cc) [] = none := by
  simp [first, brkRe, run, lit]

theorem first_brk_idx (cc : CharClass) (hcc : cc.Lawful) (c : Char) (w t : List Char)
    (hw : ∀ d ∈ c :: w, cc.digit d = true) :
    first (brkRe cc) ('[' :: (c :: w ++ ']' :: t)) = some ([("idx", c :: w)], t) := by
  have h := run_plus_chr cc.digit c w (']' :: t) (hw c (by simp)) (fun d hd => hw d (by simp [hd]))
    (by rintro d t' ⟨rfl, rfl⟩; exact hcc.not_digit _ (by simp))
  obtain ⟨l, hl⟩ := sufs_head w (']' :: t)
  rw [hl] at h
  have e : run (cap "idx" (plus (chr cc.digit))) (c :: (w ++ ']' :: t)) =
      ([("idx", c :: w)], ']' :: t) :: l.map (fun r =>
        ([("idx", (c :: (w ++ ']' :: t)).take ((c :: (w ++ ']' :: t)).length - r.length))], r)) := by
    rw [run.eq_7, h]
    have : (w.length + (t.length + 1) + 1 - (t.length + 1)) = w.length + 1 := by omega
    simp [this]
  simp only [first, brkRe]
  rw [run.eq_4, run_lit_cons]
  simp only [List.cons_append, List.flatMap_cons, List.flatMap_nil, List.append_nil]
  rw [run.eq_4, run.eq_5, e]
  simp [run_lit_cons]

theorem first_brk_wild (cc : CharClass) (hcc : cc.Lawful) (t : List Char) :
    first (brkRe cc) ('[' :: '*' :: ']' :: t) = some ([("wild", ['*'])], t) := by
  have h := run_plus_chr_fail cc.digit ('*' :: ']' :: t)
    (by rintro d t' ⟨rfl, rfl⟩; exact hcc.not_digit _ (by simp))
  simp only [first, brkRe]
  rw [run.eq_4, run_lit_cons]
  simp only [List.flatMap_cons, List.flatMap_nil, List.append_nil]
  rw [run.eq_4, run.eq_5, run.eq_7, h]
  have e : (t.length + 1 + 1 - (t.length + 1)) = 1 := by omega
  simp [run, lit, e]

theorem head?_flatMap_map {α β γ : Type} (l : List α) (f : α → List β) (g : α → β → γ) :
    (l.flatMap (fun x => (f x).map (g x))).head? = l.findSome? (fun x => ((f x).head?).map (g x)) := by
  induction l with
  | nil => rfl
  | cons x l ih => 
    rw [List.flatMap_cons, List.head?_append, ih, List.findSome?_cons]
    cases h : f x <;> simp

theorem first_brk_key (cc : CharClass) (hcc : cc.Lawful) (pre t : List Char)
    (he : Esc pre) (hq : NoQB pre) :
    first (brkRe cc) ('[' :: '\'' :: (pre ++ '\'' :: ']' :: t)) = some ([("key", pre)], t) := by
  have h := run_plus_chr_fail cc.digit ('\'' :: (pre ++ '\'' :: ']' :: t))
    (by rintro d t' ⟨rfl, rfl⟩; exact hcc.not_digit _ (by simp))
  simp only [first, brkRe]
  rw [run.eq_4, run_lit_cons]
  simp only [List.flatMap_cons, List.flatMap_nil, List.append_nil]
  rw [run.eq_4, run.eq_5, run.eq_7, h, run.eq_5, run.eq_7, run_lit_ne _ _ _ (by decide)]
  simp only [List.map_nil, List.nil_append]
  rw [run.eq_4, run_lit_cons]
  simp only [List.flatMap_cons, List.flatMap_nil, List.append_nil]
  rw [run.eq_4, run.eq_7]
  simp only [List.flatMap_map, List.map_flatMap, List.flatMap_assoc, List.map_map, List.map_id']
  -- now a search through the remainders of the key body
  have key := key_scan_run (β := Caps × List Char)
    (fun r => match r with
      | '\'' :: ']' :: r' => some ([("key",
          (pre ++ '\'' :: ']' :: t).take ((pre ++ '\'' :: ']' :: t).length - r.length))], r')
      | _ => none) pre t
    ([("key", pre)], t)
    (by simp) (by
      intro c t' hc
      split
      · rename_i heq; simp at heq; exact absurd heq.1 hc
      · rfl) he hq
  rw [List.head?_flatMap, ← key]
  refine findSome?_congr' ?_
  intro x hx
  have hx1 := keyBody_caps _ x hx
  obtain ⟨g, r⟩ := x
  simp only at hx1
  subst hx1
  cases r with
  | nil => simp [run, lit]
  | cons c r =>
    by_cases hc : c = '\''
    · subst hc
      cases r with
      | nil => simp [run, lit]
      | cons d r =>
        by_cases hd : d = ']'
        · subst hd; simp [run, lit]
        · simp [run, lit, hd]
    · simp [run, lit, hc]

/-! ### one component -/

/-- The text that follows cannot continue an identifier. -/
def TailOK (cc : CharClass) (t : List Char) : Prop := ∀ d t', t = d :: t' → cc.word d = false

theorem toDigits_isDigit {n : Nat} {c : Char} (h : c ∈ Nat.toDigits 10 n) : c.isDigit = true :=
  Nat.isDigit_of_mem_toDigits (b := 10) (by decide) (by decide) h

theorem parseInt_toDigits (cc : CharClass) (hcc : cc.Lawful) (n : Nat) :
    parseInt cc (Nat.toDigits 10 n) = n := by
  have h : ∀ (l : List Char) (k : Nat), (∀ c ∈ l, c.isDigit = true) →
      l.foldl (fun n c => 10 * n + cc.digitVal c) k = Nat.ofDigitChars 10 l k := by
    intro l
    induction l with
    | nil => intro k _; rfl
    | cons c l ih =>
      intro k hl
      rw [List.foldl_cons, hcc.digit_val c (hl c (by simp)), ih _ (fun d hd => hl d (by simp [hd]))]
      rfl
  unfold parseInt
  rw [h _ _ (fun c hc => toDigits_isDigit hc)]
  exact Nat.ofDigitChars_ten_toDigits

theorem fmtComp_cons (cc : CharClass) (c : Comp) :
    ∃ s, fmtComp cc c = '.' :: s ∨ fmtComp cc c = '[' :: s := by
  cases c with
  | int i => exact ⟨_, .inr rfl⟩
  | none => exact ⟨_, .inr rfl⟩
  | str s =>
    simp only [fmtComp]
    split
    · exact ⟨_, .inr rfl⟩
    · exact ⟨_, .inl rfl⟩

theorem tailOK_fmtComp (cc : CharClass) (hcc : cc.Lawful) (c : Comp) (t : List Char) :
    TailOK cc (fmtComp cc c ++ t) := by
  intro d t' h
  obtain ⟨s, hs | hs⟩ := fmtComp_cons cc c <;>
  · rw [hs] at h
    simp at h
    rw [← h.1]
    exact hcc.not_word _ (by simp)

/-- The text form of a representable component is one token of either scanner, and denotes it. -/
theorem first_fmtComp (cc : CharClass) (hcc : cc.Lawful) (c : Comp) (hc : Representable cc c)
    (t : List Char) (ht : TailOK cc t) :
    ∃ g, first (pathTok cc) (fmtComp cc c ++ t) = some (g, t) ∧
      first (mfsPathTok cc) (fmtComp cc c ++ t) = some (g, t) ∧
      tokComp cc g = [c] ∧ g.group "branch" = none := by
  have both : ∀ s g, (first (attrRe cc) s).or (first (brkRe cc) s) = some (g, t) →
      first (pathTok cc) s = some (g, t) ∧ first (mfsPathTok cc) s = some (g, t) := by
    intro s g h
    refine ⟨by rw [pathTok, first_alt]; exact h, ?_⟩
    rw [mfsPathTok, first_alt, first_alt, ← Option.or_assoc, h]
    rfl
  cases c with
  | none =>
    have h := both (fmtComp cc .none ++ t) [("wild", ['*'])] (by
      simp [fmtComp, first_attr_none, first_brk_wild cc hcc])
    exact ⟨_, h.1, h.2, rfl, rfl⟩
  | int i =>
    obtain ⟨n, rfl⟩ := Int.eq_ofNat_of_zero_le hc
    obtain ⟨d, w, hd⟩ : ∃ d w, Nat.toDigits 10 n = d :: w := by
      cases h : Nat.toDigits 10 n with
      | nil => exact absurd h Nat.toDigits_ne_nil
      | cons d w => exact ⟨d, w, rfl⟩
    have hdig : ∀ e ∈ d :: w, cc.digit e = true := fun e he =>
      hcc.digit_ascii e (toDigits_isDigit (hd ▸ he))
    have h := both (fmtComp cc (.int n) ++ t) [("idx", d :: w)] (by
      have h1 := first_brk_idx cc hcc d w t hdig
      have h2 : fmtComp cc (.int n) ++ t = '[' :: (d :: w ++ ']' :: t) := by
        show ('[' :: Nat.toDigits 10 n ++ [']']) ++ t = _
        rw [hd]; simp
      rw [h2, first_attr_none _ _ _ (by decide), h1]; rfl)
    refine ⟨_, h.1, h.2, ?_, rfl⟩
    have : parseInt cc (d :: w) = n := by rw [← hd]; exact parseInt_toDigits cc hcc n
    show [Comp.int (parseInt cc (d :: w))] = _
    rw [this]
  | str s =>
    obtain ⟨hne, hq, hnl⟩ := hc
    have hne' : s.toList ≠ [] := by
      intro h; apply hne
      have : s.toList = "".toList := by rw [h]; rfl
      exact String.toList_inj.1 this
    cases hf : first (identRe cc) s.toList with
    | none =>
      have h := both (fmtComp cc (.str s) ++ t) [("key", escapeKey s.toList)] (by
        have h1 := first_brk_key cc hcc (escapeKey s.toList) t (escapeKey_esc _) (escapeKey_noQB _ hq)
        have h2 : fmtComp cc (.str s) ++ t =
            '[' :: '\'' :: (escapeKey s.toList ++ '\'' :: ']' :: t) := by
          simp [fmtComp, hf]
        rw [h2, first_attr_none _ _ _ (by decide), h1]; rfl)
      refine ⟨_, h.1, h.2, ?_, rfl⟩
      obtain ⟨d, w, hd⟩ : ∃ d w, s.toList = d :: w := by
        cases h : s.toList with
        | nil => exact absurd h hne'
        | cons d w => exact ⟨d, w, rfl⟩
      have hu : unescapeKey (escapeKey s.toList) = d :: w := by rw [unescape_escape, hd]
      have hg : Caps.group [("key", escapeKey s.toList)] "key" = some (escapeKey s.toList) := rfl
      simp only [tokComp, hg, hu]
      rw [← hd, String.ofList_toList]
    | some m =>
      have hid : Ident cc s.toList := by
        have := (identRe_iff cc hcc s.toList).1 (by simp [hf])
        rcases this with h | h
        · exact h
        · exact absurd h hnl
      obtain ⟨d, w, hd, hd1, hw⟩ := hid
      have hword : ∀ e ∈ d :: w, cc.word e = true := by
        intro e he
        simp at he
        rcases he with rfl | he
        · rcases hd1 with h | rfl
          · exact hcc.word_alpha _ h
          · exact hcc.word_underscore
        · exact hw e he
      have h := both (fmtComp cc (.str s) ++ t) [("attr", d :: w)] (by
        have h1 := first_attr cc d w t hword ht
        have h2 : fmtComp cc (.str s) ++ t = '.' :: (d :: w ++ t) := by
          simp only [fmtComp, hf]
          rw [hd]; rfl
        rw [h2, h1]; rfl)
      refine ⟨_, h.1, h.2, ?_, rfl⟩
      have hk : Caps.group [("attr", d :: w)] "key" = none := rfl
      have ha : Caps.group [("attr", d :: w)] "attr" = some (d :: w) := rfl
      simp only [tokComp, hk, ha]
      rw [← hd, String.ofList_toList]

/-! ### scanning -/

theorem finditerN_fuel (r : Re) : ∀ (n m : Nat) (s : List Char), s.length < n → s.length < m →
    finditerN r n s = finditerN r m s := by
  intro n
  induction n with
  | zero => intro m s h; omega
  | succ n ih =>
    intro m s hn hm
    cases m with
    | zero => omega
    | succ m =>
      simp only [finditerN]
      split
      · split
        · rename_i hlt
          rw [ih m _ (by omega) (by omega)]
        · rfl
      · cases s with
        | nil => rfl
        | cons c s => exact ih m s (by simp at hn; omega) (by simp at hm; omega)

theorem finditer_step (r : Re) (a t : List Char) (g : Caps) (h : first r (a ++ t) = some (g, t))
    (ha : a ≠ []) : finditer r (a ++ t) = g :: finditer r t := by
  have : t.length < (a ++ t).length := by
    cases a with
    | nil => exact absurd rfl ha
    | cons c a => simp; omega
  unfold finditer
  have e : ∀ n, finditerN r (n + 1) (a ++ t) = g :: finditerN r n t := by
    intro n
    simp only [finditerN, h, this, if_true]
  rw [e]
  rw [finditerN_fuel r _ (t.length + 1) t this (by omega)]

theorem finditer_nil (r : Re) (h : first r [] = none) : finditer r [] = [] := by
  simp [finditer, finditerN, h]

theorem fmtComp_ne_nil (cc : CharClass) (c : Comp) : fmtComp cc c ≠ [] := by
  obtain ⟨s, hs | hs⟩ := fmtComp_cons cc c <;> rw [hs] <;> simp

theorem scan_path (cc : CharClass) (hcc : cc.Lawful) (fs : FS) (h : ∀ c ∈ fs, Representable cc c) :
    scanPath cc (FS.path cc fs) = fs := by
  induction fs with
  | nil =>
    have : first (pathTok cc) [] = none := by
      rw [pathTok, first_alt, first_attr_nil, first_brk_nil]; rfl
    simp [FS.path, scanPath, finditer_nil _ this]
  | cons c fs ih =>
    have ih := ih (fun d hd => h d (by simp [hd]))
    have htail : TailOK cc (FS.path cc fs) := by
      cases fs with
      | nil => intro d t' h; simp [FS.path] at h
      | cons d fs => exact tailOK_fmtComp cc hcc d _
    obtain ⟨g, h1, _, h2, _⟩ := first_fmtComp cc hcc c (h c (by simp)) (FS.path cc fs) htail
    have e : FS.path cc (c :: fs) = fmtComp cc c ++ FS.path cc fs := by simp [FS.path]
    unfold scanPath at ih ⊢
    rw [e, finditer_step _ _ _ _ h1 (fmtComp_ne_nil cc c), List.flatMap_cons, h2, ih]
    rfl

/-- Scanning never produces an empty key or a negative index. -/
theorem scanPath_range (cc : CharClass) (s : List Char) :
    ∀ c ∈ scanPath cc s, c ≠ .str "" ∧ ∀ i, c = .int i → 0 ≤ i := by
  intro c hc
  unfold scanPath at hc
  rw [List.mem_flatMap] at hc
  obtain ⟨g, _, hc⟩ := hc
  unfold tokComp at hc
  simp only at hc
  have hstr : ∀ (d : Char) (ds : List Char), String.ofList (d :: ds) ≠ "" := by
    intro d ds h
    have : (String.ofList (d :: ds)).toList = "".toList := by rw [h]
    rw [String.toList_ofList] at this
    exact absurd this (by simp)
  split at hc
  · simp at hc; subst hc
    exact ⟨by simpa using hstr _ _, by simp⟩
  · split at hc
    · simp at hc; subst hc
      exact ⟨by simp, by intro i h; injection h with h; omega⟩
    · split at hc
      · simp at hc; subst hc; exact ⟨by simp, by simp⟩
      · simp at hc

theorem scanPath_step (cc : CharClass) (a t : List Char) (g : Caps)
    (h : first (pathTok cc) (a ++ t) = some (g, t)) (ha : a ≠ []) :
    scanPath cc (a ++ t) = tokComp cc g ++ scanPath cc t := by
  unfold scanPath
  rw [finditer_step _ _ _ _ h ha, List.flatMap_cons]

theorem scan_path_iff (cc : CharClass) (hcc : cc.Lawful) (fs : FS) :
    scanPath cc (FS.path cc fs) = fs ↔ ∀ c ∈ fs, Representable cc c := by
  refine ⟨?_, scan_path cc hcc fs⟩
  intro hscan
  have hrange := scanPath_range cc (FS.path cc fs)
  rw [hscan] at hrange
  induction fs with
  | nil => simp
  | cons c fs ih =>
    have e : FS.path cc (c :: fs) = fmtComp cc c ++ FS.path cc fs := by simp [FS.path]
    have htail : TailOK cc (FS.path cc fs) := by
      cases fs with
      | nil => intro d t' h; simp [FS.path] at h
      | cons d fs => exact tailOK_fmtComp cc hcc d _
    have hc : Representable cc c := by
      have hr := hrange c (by simp)
      cases c with
      | none => trivial
      | int i => exact hr.2 i rfl
      | str s =>
        refine ⟨fun h => hr.1 (by rw [h]), ?_, ?_⟩
        · -- `']` inside the key
          intro hq
          obtain ⟨u, v, hs, hu⟩ := first_QB (fun h => h hq)
          have hf : first (identRe cc) s.toList = none := by
            cases hf : first (identRe cc) s.toList with
            | none => rfl
            | some m =>
              have hmem : '\'' ∈ s.toList := by rw [hs]; simp
              have hnw : cc.word '\'' = false := hcc.not_word _ (by simp)
              have hbad : ∀ w, Ident cc w → '\'' ∉ w := by
                rintro w ⟨d, w', rfl, hd, hw⟩ hm
                simp at hm
                rcases hm with rfl | hm
                · rcases hd with hd | hd <;> exact absurd hd (by decide)
                · rw [hw _ hm] at hnw; cases hnw
              rcases (identRe_iff cc hcc s.toList).1 (by simp [hf]) with h | ⟨w, hw, h⟩
              · exact absurd hmem (hbad _ h)
              · rw [h] at hmem; simp at hmem; exact absurd hmem (hbad _ hw)
          have hfm : FS.path cc (.str s :: fs) = ('[' :: '\'' :: ((escapeKey u ++ ['\\']) ++ ['\'', ']'])) ++
              (escapeKey v ++ '\'' :: ']' :: FS.path cc fs) := by
            rw [e]
            simp only [fmtComp, hf]
            rw [hs]
            simp [escapeKey_append, escapeKey_cons]
          have hfirst : first (pathTok cc) (FS.path cc (.str s :: fs)) =
              some ([("key", escapeKey u ++ ['\\'])], escapeKey v ++ '\'' :: ']' :: FS.path cc fs) := by
            have h1 := first_brk_key cc hcc (escapeKey u ++ ['\\'])
              (escapeKey v ++ '\'' :: ']' :: FS.path cc fs)
              ((escapeKey_esc u).append (.chr _ _ (by decide) .nil))
              (noQB_append_bs (escapeKey_noQB u hu))
            rw [hfm, pathTok, first_alt, List.cons_append, first_attr_none _ _ _ (by decide)]
            simp only [List.cons_append, List.append_assoc, List.nil_append] at h1 ⊢
            rw [h1]; rfl
          rw [hfm] at hfirst
          have := scanPath_step cc _ _ _ hfirst (by simp)
          rw [← hfm, hscan] at this
          have hg : Caps.group [("key", escapeKey u ++ ['\\'])] "key" = some (escapeKey u ++ ['\\']) := rfl
          have htc : tokComp cc [("key", escapeKey u ++ ['\\'])] = [.str (String.ofList (u ++ ['\\']))] := by
            simp only [tokComp, hg, unescape_escape_append u ['\\'] (.inr rfl)]
            cases u <;> rfl
          rw [htc] at this
          simp at this
          have hlen := congrArg String.toList this.1
          rw [hs] at hlen
          have := congrArg List.length hlen
          simp at this
        · -- an identifier and a newline
          rintro ⟨w, hw, hs⟩
          have hf : (first (identRe cc) s.toList).isSome := (identRe_iff cc hcc _).2 (.inr ⟨w, hw, hs⟩)
          obtain ⟨m, hf⟩ := Option.isSome_iff_exists.1 hf
          obtain ⟨d, w', rfl, hd, hw'⟩ := hw
          have hword : ∀ e ∈ d :: w', cc.word e = true := by
            intro e he
            simp at he
            rcases he with rfl | he
            · rcases hd with h | rfl
              · exact hcc.word_alpha _ h
              · exact hcc.word_underscore
            · exact hw' e he
          have hfm : FS.path cc (.str s :: fs) = ('.' :: d :: w') ++ '\n' :: FS.path cc fs := by
            rw [e]
            simp only [fmtComp, hf]
            rw [hs]
            simp
          have hfirst : first (pathTok cc) (('.' :: d :: w') ++ '\n' :: FS.path cc fs) =
              some ([("attr", d :: w')], '\n' :: FS.path cc fs) := by
            have h1 := first_attr cc d w' ('\n' :: FS.path cc fs) hword
              (by rintro e t' ⟨rfl, rfl⟩; exact hcc.not_word _ (by simp))
            rw [pathTok, first_alt]
            simp only [List.cons_append] at h1 ⊢
            rw [h1]; rfl
          have := scanPath_step cc _ _ _ hfirst (by simp)
          rw [← hfm, hscan] at this
          have hk : Caps.group [("attr", d :: w')] "key" = none := rfl
          have ha : Caps.group [("attr", d :: w')] "attr" = some (d :: w') := rfl
          simp only [tokComp, hk, ha] at this
          simp at this
          have hlen := congrArg String.toList this.1
          rw [hs] at hlen
          have := congrArg List.length hlen
          simp at this
    intro d hd
    simp at hd
    rcases hd with rfl | hd
    · exact hc
    · obtain ⟨g, h1, _, h2, _⟩ := first_fmtComp cc hcc c hc (FS.path cc fs) htail
      rw [e, scanPath_step cc _ _ _ h1 (fmtComp_ne_nil cc c), h2] at hscan
      simp at hscan
      exact ih hscan (fun d hd => hrange d (by simp [hd])) d hd

/-! ### MultiFieldSelector paths -/

namespace Mfs

theorem first_branch (cc : CharClass) (b : Char) (hb : b = '(' ∨ b = '|' ∨ b = ')') (t : List Char) :
    first (mfsPathTok cc) (b :: t) = some ([("branch", [b])], t) := by
  rw [mfsPathTok, first_alt, first_alt]
  have e : (t.length + 1 - t.length) = 1 := by omega
  rcases hb with rfl | rfl | rfl <;>
  · rw [first_attr_none _ _ _ (by decide), first_brk_none _ _ _ (by decide)]
    simp [first, run, e]

theorem toks_branch (cc : CharClass) (b : Char) (hb : b = '(' ∨ b = '|' ∨ b = ')') (t : List Char) :
    finditer (mfsPathTok cc) (b :: t) = [("branch", [b])] :: finditer (mfsPathTok cc) t :=
  finditer_step _ [b] t _ (first_branch cc b hb t) (by simp)

/-- What has been collected so far, counting the selector at the cursor. -/
def collected (st : ScanState) : List FS := if st.popping then st.mfs else st.mfs ++ [st.fs]

/-- Scanning from `st` to `st'` collects `qs`. -/
def Scanned (st st' : ScanState) (qs : List FS) : Prop :=
  st'.stack = st.stack ∧ collected st' = st.mfs ++ qs.map (st.fs ++ ·) ∧
    (st'.popping = false → st'.fs ≠ [])

theorem tailOK_branch (cc : CharClass) (hcc : cc.Lawful) (b : Char) (hb : b = '(' ∨ b = '|' ∨ b = ')')
    (t : List Char) : TailOK cc (b :: t) := by
  rintro d t' ⟨rfl, rfl⟩
  apply hcc.not_word
  rcases hb with rfl | rfl | rfl <;> simp

/-- All components occurring in a tree are representable, and no node is empty. -/
inductive RepT (cc : CharClass) : Comp → MTree → Prop
  | all {c} : Representable cc c → RepT cc c .all
  | node {c h} : Representable cc c → h ≠ [] → (∀ d t, (d, t) ∈ h → RepT cc d t) → RepT cc c (.node h)

theorem tailOK_fmtTree (cc : CharClass) (hcc : cc.Lawful) (c : Comp) (t : MTree) (τ : List Char) :
    TailOK cc (fmtTree cc c t ++ τ) := by
  cases t with
  | all => exact tailOK_fmtComp cc hcc c τ
  | node h => simp only [fmtTree, List.append_assoc]; exact tailOK_fmtComp cc hcc c _

theorem scanTok_comp (cc : CharClass) (st : ScanState) (g : Caps) (c : Comp) (h1 : tokComp cc g = [c])
    (h2 : g.group "branch" = none) :
    scanTok cc st g = .ok { st with popping := false, fs := st.fs ++ [c] } := by
  simp [scanTok, h2, h1]

mutual
theorem scan_tree (cc : CharClass) (hcc : cc.Lawful) (c : Comp) (t : MTree) (hr : RepT cc c t)
    (τ : List Char) (hτ : TailOK cc τ) (st : ScanState) :
    ∃ st', scanToks cc st (finditer (mfsPathTok cc) (fmtTree cc c t ++ τ)) =
        scanToks cc st' (finditer (mfsPathTok cc) τ) ∧ Scanned st st' (iterT c t) := by
  match t, hr with
  | .all, .all hc =>
    obtain ⟨g, _, h1, h2, h3⟩ := first_fmtComp cc hcc c hc τ hτ
    refine ⟨{ st with popping := false, fs := st.fs ++ [c] }, ?_, rfl, ?_, by simp⟩
    · rw [fmtTree, finditer_step _ _ _ _ h1 (fmtComp_ne_nil cc c), scanToks, scanTok_comp cc st g c h2 h3]
    · simp [collected, iterT]
  | .node h, .node hc hne hs =>
    simp only [fmtTree, List.append_assoc]
    by_cases hl : h.length = 1
    · -- a single head: no parentheses
      rw [if_pos hl]
      match h, hl, hs with
      | [(d, t)], _, hs =>
        have hd := hs d t (by simp)
        have hfm : fmtHeads cc [(d, t)] = fmtTree cc d t := by simp [fmtHeads]
        rw [hfm]
        obtain ⟨g, _, h1, h2, h3⟩ := first_fmtComp cc hcc c hc (fmtTree cc d t ++ τ)
          (tailOK_fmtTree cc hcc d t τ)
        rw [finditer_step _ _ _ _ h1 (fmtComp_ne_nil cc c), scanToks, scanTok_comp cc st g c h2 h3]
        obtain ⟨st', e, hst, hcol, hfs⟩ := scan_tree cc hcc d t hd τ hτ
          { st with popping := false, fs := st.fs ++ [c] }
        refine ⟨st', e, hst, ?_, hfs⟩
        rw [hcol]
        simp [iterT, iter, FS.add]
    · -- several heads in parentheses
      rw [if_neg hl]
      simp only [List.cons_append, List.append_assoc, List.nil_append]
      obtain ⟨g, _, h1, h2, h3⟩ := first_fmtComp cc hcc c hc ('(' :: (fmtHeads cc h ++ ')' :: τ))
          (tailOK_branch cc hcc _ (.inl rfl) _)
      rw [finditer_step _ _ _ _ h1 (fmtComp_ne_nil cc c), scanToks, scanTok_comp cc st g c h2 h3,
        toks_branch cc _ (.inl rfl)]
      have e1 : scanTok cc { st with popping := false, fs := st.fs ++ [c] } [("branch", ['('])] =
        .ok { st with popping := false, fs := st.fs ++ [c], stack := (st.fs ++ [c]) :: st.stack } := rfl
      simp only [scanToks, e1]
      obtain ⟨st', e, hst, hcol, hfs⟩ := scan_heads cc hcc h hne hs
        { st with popping := false, fs := st.fs ++ [c], stack := (st.fs ++ [c]) :: st.stack }
        (st.fs ++ [c]) st.stack rfl rfl τ
      refine ⟨st', e, hst, ?_, hfs⟩
      rw [hcol]
      simp [iterT, FS.add]
/-- Scanning the heads and the closing parenthesis. -/
theorem scan_heads (cc : CharClass) (hcc : cc.Lawful) (h : List (Comp × MTree)) (hne : h ≠ [])
    (hs : ∀ d t, (d, t) ∈ h → RepT cc d t) (st : ScanState) (q : FS) (rest : List FS)
    (hfs : st.fs = q) (hst : st.stack = q :: rest) (τ : List Char) :
    ∃ st', scanToks cc st (finditer (mfsPathTok cc) (fmtHeads cc h ++ ')' :: τ)) =
        scanToks cc st' (finditer (mfsPathTok cc) τ) ∧ st'.stack = rest ∧
        collected st' = st.mfs ++ (iter h).map (q ++ ·) ∧ (st'.popping = false → st'.fs ≠ []) := by
  match h, hne, hs with
  | (d, t) :: es, _, hs =>
    have hd := hs d t (by simp)
    match es, hs with
    | [], hs =>
      have hfm : fmtHeads cc [(d, t)] = fmtTree cc d t := by simp [fmtHeads]
      rw [hfm]
      obtain ⟨st', e, hst', hcol, _⟩ := scan_tree cc hcc d t hd (')' :: τ)
        (tailOK_branch cc hcc _ (.inr (.inr rfl)) _) st
      rw [e, toks_branch cc _ (.inr (.inr rfl))]
      have hs1 : st'.stack = q :: rest := by rw [hst', hst]
      refine ⟨{ mfs := collected st', fs := q, stack := rest, popping := true }, ?_, rfl, ?_, by simp⟩
      · simp only [scanToks, scanTok]
        rw [hs1]
        rfl
      · show collected st' = _
        rw [hcol, hfs]; simp [iter]
    | e2 :: es, hs =>
      have hfm : fmtHeads cc ((d, t) :: e2 :: es) = fmtTree cc d t ++ '|' :: fmtHeads cc (e2 :: es) := by
        simp [fmtHeads]
      rw [hfm, List.append_assoc, List.cons_append]
      obtain ⟨st', e, hst', hcol, _⟩ := scan_tree cc hcc d t hd ('|' :: (fmtHeads cc (e2 :: es) ++ ')' :: τ))
        (tailOK_branch cc hcc _ (.inr (.inl rfl)) _) st
      rw [e, toks_branch cc _ (.inr (.inl rfl))]
      have hs1 : st'.stack = q :: rest := by rw [hst', hst]
      have e1 : scanTok cc st' [("branch", ['|'])] = .ok { st' with mfs := collected st', fs := q } := by
        simp only [scanTok]
        rw [hs1]
        rfl
      simp only [scanToks, e1]
      obtain ⟨st'', e', hst'', hcol', hfs'⟩ := scan_heads cc hcc (e2 :: es) (by simp)
        (fun d' t' h' => hs d' t' (by simp at h' ⊢; exact .inr h'))
        { st' with mfs := collected st', fs := q } q rest rfl hs1 τ
      refine ⟨st'', e', hst'', ?_, hfs'⟩
      rw [hcol']
      show collected st' ++ _ = _
      rw [hcol, hfs]; simp [iter]
end

theorem finditer_mfs_nil (cc : CharClass) : finditer (mfsPathTok cc) [] = [] := by
  apply finditer_nil
  rw [mfsPathTok, first_alt, first_alt, first_attr_nil, first_brk_nil]
  simp [first, run]

theorem scan_mfs_path (cc : CharClass) (hcc : cc.Lawful) (h : Heads) (hne : h ≠ [])
    (hs : ∀ d t, (d, t) ∈ h → RepT cc d t) : scanMfsPath cc (path cc h) = .ok (iter h) := by
  have fin : ∀ st : ScanState, (st.popping = false → st.fs ≠ []) →
      (if !st.popping && !st.fs.isEmpty then st.mfs ++ [st.fs] else st.mfs) = collected st := by
    intro st hp
    cases hpp : st.popping with
    | true => simp [collected, hpp]
    | false =>
      have := hp hpp
      simp [collected, hpp, this]
  unfold scanMfsPath path
  by_cases hl : h.length = 1
  · rw [if_pos hl]
    match h, hl, hs with
    | [(d, t)], _, hs =>
      have hfm : fmtHeads cc [(d, t)] = fmtTree cc d t := by simp [fmtHeads]
      rw [hfm]
      obtain ⟨st', e, _, hcol, hfs⟩ := scan_tree cc hcc d t (hs d t (by simp)) []
        (by intro d t' h; simp at h) {}
      rw [List.append_nil, finditer_mfs_nil] at e
      rw [e]
      simp only [scanToks]
      rw [fin st' hfs, hcol]
      simp [iter]
  · rw [if_neg hl, List.cons_append, toks_branch cc _ (.inl rfl)]
    have e1 : scanTok cc {} [("branch", ['('])] = .ok { stack := [[]] } := rfl
    simp only [scanToks, e1]
    obtain ⟨st', e, _, hcol, hfs⟩ := scan_heads cc hcc h hne hs { stack := [[]] } [] [] rfl rfl []
    rw [finditer_mfs_nil] at e
    rw [e]
    simp only [scanToks]
    rw [fin st' hfs, hcol]
    simp

end Mfs

end Normalize
