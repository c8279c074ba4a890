import Verif.Lemmas.ReprText
import Verif.Lemmas.Access

/-! Parsing the text of a value. -/

namespace Normalize.Repr

open Normalize.Spec

/-- The text after an expression. -/
def Delim : List Char → Prop
  | [] => True
  | c :: _ => c = ',' ∨ c = ']' ∨ c = '}' ∨ c = ')' ∨ c = ':'

/-- No expression begins with this. -/
def badStart (c : Char) : Bool := isWs c || c = ']' || c = '}' || c = ')' || c = '='

/-- The text begins like an expression. -/
def Starts (t : List Char) : Prop := ∃ c r, t = c :: r ∧ badStart c = false

/-- The text does not end in an opening parenthesis. -/
def Ends (t : List Char) : Prop := ∃ i c, t = i ++ [c] ∧ c ≠ '('

/-- `elem` reads the text `t` as `a`, when there are not more than `m` characters. -/
def ReadsAs {α : Type} (elem : List Char → Option (α × List Char)) (m : Nat) (t : List Char) (a : α) : Prop :=
  ∀ rest, Delim rest → t.length + rest.length ≤ m → elem (t ++ rest) = some (a, rest)

/-- The text is read as the expression. -/
def Reads (t : List Char) (e : Ex) : Prop := ∀ n, ReadsAs (pExpr n) n t e

theorem skip_start {c : Char} {r : List Char} (h : isWs c = false) : skip (c :: r) = c :: r := by
  simp [skip, h]

theorem skip_space (r : List Char) : skip (' ' :: r) = skip r := by
  simp [skip, isWs]

theorem badStart_ws {c : Char} (h : badStart c = false) : isWs c = false := by
  simp only [badStart, Bool.or_eq_false_iff] at h
  exact h.1.1.1.1

theorem skip_starts {t rest : List Char} (h : Starts t) : skip (t ++ rest) = t ++ rest := by
  obtain ⟨c, r, rfl, hc⟩ := h
  exact skip_start (badStart_ws hc)

/-- A closing bracket. -/
def IsClose (c : Char) : Prop := c = ']' ∨ c = '}' ∨ c = ')'

theorem starts_ne_close {t rest : List Char} {close : Char} (h : Starts t) (hc : IsClose close) :
    (t ++ rest).head? ≠ some close := by
  obtain ⟨c, r, rfl, hb⟩ := h
  simp only [badStart, Bool.or_eq_false_iff, decide_eq_false_iff_not] at hb
  rcases hc with h | h | h <;> subst h <;> simp <;> tauto

theorem isWs_close {close : Char} (hc : IsClose close) : isWs close = false := by
  rcases hc with h | h | h <;> subst h <;> decide

theorem pSeq_join {α : Type} {elem : List Char → Option (α × List Char)} {close : Char} (hc : IsClose close) {m : Nat}
    {rest : List Char} : ∀ (ts : List (List Char)) (as : List α),
    List.Forall₂ (fun t a => Starts t ∧ ReadsAs elem m t a) ts as →
    ∀ (n : Nat) (cs : List Char), skip cs = join ts ++ close :: rest → ts.length < n →
      (join ts).length + rest.length + 1 ≤ m → pSeq elem close n cs = some (as, rest) := by
  intro ts
  induction ts with
  | nil =>
    intro as h n cs hcs hn _
    cases h with
    | nil =>
      cases n with
      | zero => omega
      | succ n => rw [pSeq, hcs]; simp [join]
  | cons t ts ih =>
    intro as h n cs hcs hn hm
    cases h with
    | @cons _ a _ as hta h =>
      obtain ⟨hst, hr⟩ := hta
      cases n with
      | zero => omega
      | succ n =>
        cases ts with
        | nil =>
          cases h with
          | nil =>
            simp only [join] at hcs hm
            have := hr (close :: rest) (by rcases hc with h | h | h <;> subst h <;> simp [Delim])
              (by simp only [List.length_cons]; omega)
            rw [pSeq, hcs, if_neg (starts_ne_close hst hc), this]
            simp [skip_start (isWs_close hc)]
        | cons t2 ts =>
          simp only [join] at hcs hm
          have hcs' : skip cs = t ++ (',' :: ' ' :: (join (t2 :: ts) ++ close :: rest)) := by
            rw [hcs]; simp
          have hst2 : Starts t2 := by
            cases h with
            | cons h _ => exact h.1
          simp only [List.length_append, List.length_cons] at hm
          have h1 := hr (',' :: ' ' :: (join (t2 :: ts) ++ close :: rest)) (by simp [Delim])
            (by simp only [List.length_append, List.length_cons]; omega)
          have hj : skip (join (t2 :: ts) ++ close :: rest) = join (t2 :: ts) ++ close :: rest := by
            obtain ⟨c, r, rfl, hb⟩ := hst2
            cases ts with
            | nil => exact skip_start (badStart_ws hb)
            | cons t3 ts => exact skip_start (badStart_ws hb)
          have h2 := ih as h n (' ' :: (join (t2 :: ts) ++ close :: rest)) (by rw [skip_space, hj])
            (by simpa using hn) (by omega)
          rw [pSeq, hcs', if_neg (starts_ne_close hst hc), h1]
          have hk : skip (',' :: ' ' :: (join (t2 :: ts) ++ close :: rest)) =
              ',' :: ' ' :: (join (t2 :: ts) ++ close :: rest) := skip_start (by decide)
          have hcc : (some ',' = some close) = False := by
            rcases hc with h | h | h <;> subst h <;> simp
          simp only [hk, List.head?_cons, hcc, if_false, if_true, List.tail_cons, h2]

theorem length_join {ts : List (List Char)} (h : ∀ t ∈ ts, Starts t) : ts.length ≤ (join ts).length := by
  induction ts with
  | nil => simp
  | cons t ts ih =>
    have ht : 1 ≤ t.length := by
      obtain ⟨c, r, rfl, _⟩ := h t (by simp)
      simp
    cases ts with
    | nil => simpa [join] using ht
    | cons t2 ts =>
      have := ih (fun t' ht' => h t' (by simp [ht']))
      simp only [join, List.length_append, List.length_cons] at this ⊢
      omega

theorem forall₂_starts {α : Type} {R : List Char → α → Prop} {ts : List (List Char)} {as : List α}
    (h : List.Forall₂ (fun t a => Starts t ∧ R t a) ts as) : ∀ t ∈ ts, Starts t := by
  induction h with
  | nil => simp
  | cons h _ ih => simp [h.1]; exact ih

/-! ## Lists and dicts -/

theorem reads_list {ts : List (List Char)} {es : List Ex}
    (h : List.Forall₂ (fun t e => Starts t ∧ Reads t e) ts es) : Reads ('[' :: join ts ++ [']']) (.list es) := by
  intro n rest hd hn
  cases n with
  | zero => simp at hn
  | succ n =>
    simp only [List.cons_append, List.append_assoc, List.length_cons, List.length_append, List.length_nil,
      List.nil_append] at hn ⊢
    rw [pExpr, if_pos rfl]
    have hl := length_join (forall₂_starts h)
    rw [pSeq_join (m := n) (rest := rest) (Or.inl rfl) ts es (h.imp (fun _ _ x => ⟨x.1, x.2 n⟩))]
    · cases ts with
      | nil => simp [join, skip, isWs]
      | cons t ts =>
        obtain ⟨c, r, rfl, hb⟩ := forall₂_starts h t (by simp)
        cases ts with
        | nil => exact skip_start (badStart_ws hb)
        | cons t3 ts => exact skip_start (badStart_ws hb)
    · simp only [List.length_cons, List.length_append]; omega
    · omega

theorem skip_join {α : Type} {R : List Char → α → Prop} {ts : List (List Char)} {as : List α} {close : Char}
    {rest : List Char} (hc : IsClose close) (h : List.Forall₂ (fun t a => Starts t ∧ R t a) ts as) :
    skip (join ts ++ close :: rest) = join ts ++ close :: rest := by
  cases ts with
  | nil => exact skip_start (isWs_close hc)
  | cons t ts =>
    obtain ⟨c, r, rfl, hb⟩ := forall₂_starts h t (by simp)
    cases ts with
    | nil => exact skip_start (badStart_ws hb)
    | cons t3 ts => exact skip_start (badStart_ws hb)

/-- The text of an entry of a dict is read as the pair. -/
def PairText (t : List Char) (p : Ex × Ex) : Prop :=
  ∃ tk tv, t = tk ++ ':' :: ' ' :: tv ∧ Starts tk ∧ Starts tv ∧ Reads tk p.1 ∧ Reads tv p.2

theorem readsAs_pair {t : List Char} {p : Ex × Ex} (h : PairText t p) (n : Nat) : ReadsAs (pPair (pExpr n)) n t p := by
  obtain ⟨tk, tv, rfl, hk, hv, rk, rv⟩ := h
  intro rest hd hn
  simp only [List.length_append, List.length_cons] at hn
  have h1 := rk n (':' :: ' ' :: (tv ++ rest)) (by simp [Delim]) (by simp; omega)
  have h2 := rv n rest hd (by omega)
  rw [List.append_assoc]
  show pPair (pExpr n) (tk ++ ':' :: ' ' :: (tv ++ rest)) = _
  have hs : skip (':' :: ' ' :: (tv ++ rest)) = ':' :: ' ' :: (tv ++ rest) := skip_start (by decide)
  simp only [pPair, h1, hs, List.head?_cons, if_true, List.tail_cons, skip_space, skip_starts hv, h2]

theorem starts_pair {t : List Char} {p : Ex × Ex} (h : PairText t p) : Starts t := by
  obtain ⟨tk, tv, rfl, ⟨c, r, rfl, hb⟩, _⟩ := h
  exact ⟨c, _, rfl, hb⟩

theorem reads_dict {ts : List (List Char)} {es : List (Ex × Ex)} (h : List.Forall₂ PairText ts es) :
    Reads ('{' :: join ts ++ ['}']) (.dict es) := by
  intro n rest hd hn
  cases n with
  | zero => simp at hn
  | succ n =>
    simp only [List.cons_append, List.append_assoc, List.length_cons, List.length_append, List.length_nil,
      List.nil_append] at hn ⊢
    have h' := h.imp (fun _ _ x => (⟨starts_pair x, readsAs_pair x n⟩ : _ ∧ _))
    rw [pExpr, if_neg (by decide), if_pos rfl]
    have hl := length_join (forall₂_starts h')
    rw [pSeq_join (m := n) (rest := rest) (Or.inr (Or.inl rfl)) ts es h']
    · exact skip_join (Or.inr (Or.inl rfl)) h'
    · simp only [List.length_cons, List.length_append]; omega
    · omega

/-! ## Names -/

theorem idStart_idCont {c : Char} (h : idStart c = true) : idCont c = true := by
  simp only [idStart, Bool.or_eq_true, decide_eq_true_eq] at h
  rcases h with h | h
  · simp [idCont, Char.isAlphanum, h]
  · simp [idCont, h]

theorem spell_chars {s : String} (h : Spellable s) : ∀ c ∈ s.toList, idCont c = true := by
  obtain ⟨⟨c, r, hs, h1, h2⟩, _⟩ := h
  rw [hs]
  intro d hd
  rcases List.mem_cons.mp hd with h | h
  · exact h ▸ idStart_idCont h1
  · exact h2 d h

theorem idCont_ws {c : Char} (h : idCont c = true) : badStart c = false := by
  cases hb : badStart c with
  | false => rfl
  | true =>
    simp only [badStart, isWs, Bool.or_eq_true, decide_eq_true_eq] at hb
    rcases hb with ((((((hb | hb) | hb) | hb) | hb) | hb) | hb) | hb <;> subst hb <;> revert h <;> decide

theorem spell_starts {s : String} (h : Spellable s) (t : List Char) : Starts (s.toList ++ t) := by
  obtain ⟨⟨c, r, hs, h1, h2⟩, _⟩ := h
  rw [hs]
  exact ⟨c, _, rfl, idCont_ws (idStart_idCont h1)⟩

theorem spell_span {s : String} (h : Spellable s) {c : Char} {t : List Char} (hc : idCont c = false) :
    (s.toList ++ c :: t).takeWhile idCont = s.toList ∧ (s.toList ++ c :: t).dropWhile idCont = c :: t :=
  span_append (spell_chars h) (fun d r e => by simp only [List.cons.injEq] at e; rw [← e.1]; exact hc)

theorem id_start_not {c : Char} (h1 : idStart c = true) :
    c ≠ '[' ∧ c ≠ '{' ∧ ¬ (c = '\'' ∨ c = '"') ∧ c ≠ '-' ∧ c.isDigit = false := by
  refine ⟨?_, ?_, ?_, ?_, ?_⟩
  · rintro rfl; revert h1; decide
  · rintro rfl; revert h1; decide
  · rintro (rfl | rfl) <;> revert h1 <;> decide
  · rintro rfl; revert h1; decide
  · cases hd : c.isDigit with
    | false => rfl
    | true =>
      simp only [idStart, Bool.or_eq_true, decide_eq_true_eq] at h1
      rcases h1 with h1 | h1
      · simp only [Char.isDigit, Char.isAlpha, Char.isUpper, Char.isLower, Bool.or_eq_true, Bool.and_eq_true,
          decide_eq_true_eq] at hd h1
        exfalso
        have := hd.2
        rcases h1 with h1 | h1
        · exact absurd (Nat.le_trans h1.1 hd.2) (by decide)
        · exact absurd (Nat.le_trans h1.1 hd.2) (by decide)
      · subst h1; revert hd; decide

/-- The text of an expression does not begin with `name=`. -/
theorem not_kwarg {t : List Char} {e : Ex} (hs : Starts t) (h : Reads t e) {rest : List Char} (hd : Delim rest) :
    isKwarg (t ++ rest) = false := by
  have hr := h (t.length + rest.length) rest hd (Nat.le_refl _)
  obtain ⟨c, r, rfl, _⟩ := hs
  cases hi : idStart c with
  | false => simp [isKwarg, hi]
  | true =>
    have g := id_start_not hi
    have hl : (c :: r).length + rest.length = (r.length + rest.length) + 1 := by
      simp only [List.length_cons]; omega
    rw [hl, List.cons_append, pExpr, if_neg g.1, if_neg g.2.1, if_neg g.2.2.1, if_neg g.2.2.2.1, g.2.2.2.2,
      if_neg (by decide), if_pos hi] at hr
    have hd' : (skip rest).head? ≠ some '=' := by
      cases rest with
      | nil => simp [skip]
      | cons d q =>
        have hw : isWs d = false := by
          rcases hd with h | h | h | h | h <;> subst h <;> decide
        rw [skip_start hw]
        rcases hd with h | h | h | h | h <;> subst h <;> simp
    have key : (skip ((c :: (r ++ rest)).dropWhile idCont)).head? ≠ some '=' := by
      unfold pName at hr
      split at hr
      · rw [(Prod.mk.inj (Option.some.inj hr)).2]; exact hd'
      · split at hr
        · rw [(Prod.mk.inj (Option.some.inj hr)).2]; exact hd'
        · split at hr
          · rw [(Prod.mk.inj (Option.some.inj hr)).2]; exact hd'
          · split at hr
            · exact nomatch hr
            · split at hr
              · next hp => rw [hp]; simp
              · exact nomatch hr
    simp [isKwarg, key]

/-- The text of an argument is read as the argument. -/
def ArgText (t : List Char) (a : Option String × Ex) : Prop :=
  match a.1 with
  | some nm => ∃ tv, t = nm.toList ++ '=' :: tv ∧ Spellable nm ∧ Starts tv ∧ Reads tv a.2
  | none => Starts t ∧ Reads t a.2

theorem starts_arg {t : List Char} {a : Option String × Ex} (h : ArgText t a) : Starts t := by
  obtain ⟨nm, e⟩ := a
  cases nm with
  | none => exact h.1
  | some nm =>
    obtain ⟨tv, rfl, hn, _⟩ := h
    exact spell_starts hn _

theorem readsAs_arg {t : List Char} {a : Option String × Ex} (h : ArgText t a) (n : Nat) :
    ReadsAs (pArg (pExpr n)) n t a := by
  obtain ⟨nm, e⟩ := a
  intro rest hd hn
  cases nm with
  | none =>
    obtain ⟨hs, hr⟩ := h
    simp only [pArg, not_kwarg hs hr hd, hr n rest hd hn, Bool.false_eq_true, if_false]
  | some nm =>
    obtain ⟨tv, rfl, hnm, hst, hr⟩ := h
    have heq : tv.head? ≠ some '=' := by
      obtain ⟨c, r, rfl, hb⟩ := hst
      rintro h
      simp only [List.head?_cons, Option.some.injEq] at h
      subst h
      revert hb; decide
    simp only [List.length_append, List.length_cons] at hn
    rw [List.append_assoc]
    show pArg (pExpr n) (nm.toList ++ '=' :: (tv ++ rest)) = _
    have hsp := spell_span hnm (c := '=') (t := tv ++ rest) (by decide)
    have hs : skip ('=' :: (tv ++ rest)) = '=' :: (tv ++ rest) := skip_start (by decide)
    have hh : (tv ++ rest).head? = tv.head? := by
      obtain ⟨c, r, rfl, _⟩ := hst; rfl
    have hk : isKwarg (nm.toList ++ '=' :: (tv ++ rest)) = true := by
      unfold isKwarg
      rw [hsp.2, hs]
      obtain ⟨⟨c, r, hc, h1, _⟩, _⟩ := hnm
      rw [hc]
      simp only [List.cons_append, List.head?_cons, Option.any_some, h1, Bool.true_and, decide_true, List.tail_cons,
        hh, decide_eq_true_eq]
      exact heq
    have h2 := hr n rest hd (by omega)
    simp only [pArg, hk, if_true, hsp.1, hsp.2, String.ofList_toList, hnm.2, if_false, hs, List.tail_cons,
      skip_starts hst, h2]

theorem reads_call {cls : String} (hcls : Spellable cls) {ts : List (List Char)} {args : List (Option String × Ex)}
    (h : List.Forall₂ ArgText ts args) : Reads (cls.toList ++ ('(' :: join ts ++ [')'])) (.call cls args) := by
  intro n rest hd hn
  have hn' : 1 ≤ cls.toList.length := by
    obtain ⟨⟨c, r, hc, _⟩, _⟩ := hcls
    rw [hc]; simp
  cases n with
  | zero => simp at hn
  | succ n =>
    have h' := h.imp (fun _ _ x => (⟨starts_arg x, readsAs_arg x n⟩ : _ ∧ _))
    have hl := length_join (forall₂_starts h')
    have hsp := spell_span hcls (c := '(') (t := join ts ++ ')' :: rest) (by decide)
    have ht : (cls.toList ++ ('(' :: join ts ++ [')'])) ++ rest = cls.toList ++ '(' :: (join ts ++ ')' :: rest) := by
      simp
    simp only [List.length_append, List.length_cons, List.length_nil] at hn
    rw [ht]
    have hname : pName (pExpr n) (cls.toList ++ '(' :: (join ts ++ ')' :: rest)) = some (.call cls args, rest) := by
      have hk := hcls.2
      have e1 : cls ≠ "None" := fun e => hk (by rw [e]; decide)
      have e2 : cls ≠ "True" := fun e => hk (by rw [e]; decide)
      have e3 : cls ≠ "False" := fun e => hk (by rw [e]; decide)
      have hs : skip ('(' :: (join ts ++ ')' :: rest)) = '(' :: (join ts ++ ')' :: rest) := skip_start (by decide)
      have := pSeq_join (m := n) (rest := rest) (Or.inr (Or.inr rfl)) ts args h'
        (cls.toList ++ '(' :: (join ts ++ ')' :: rest)).length (join ts ++ ')' :: rest)
        (skip_join (Or.inr (Or.inr rfl)) h')
        (by simp only [List.length_append, List.length_cons]; omega) (by omega)
      simp only [pName, hsp.1, hsp.2, String.ofList_toList, e1, e2, e3, hk, if_false, hs, List.head?_cons, if_true,
        List.tail_cons, this]
    obtain ⟨⟨c, r, hc, h1, _⟩, _⟩ := hcls
    rw [hc] at hname ⊢
    have g := id_start_not h1
    rw [List.cons_append] at hname ⊢
    rw [pExpr, if_neg g.1, if_neg g.2.1, if_neg g.2.2.1, if_neg g.2.2.2.1, g.2.2.2.2, if_neg (by decide), if_pos h1]
    exact hname

/-! ## Atoms -/

theorem delim_afterNum {rest : List Char} (h : Delim rest) : afterNum rest = true := by
  cases rest with
  | nil => rfl
  | cons c r => rcases h with h | h | h | h | h <;> subst h <;> simp only [afterNum] <;> decide

theorem delim_idCont {rest : List Char} (h : Delim rest) : ∀ c r, rest = c :: r → idCont c = false := by
  intro c r e
  subst e
  rcases h with h | h | h | h | h <;> subst h <;> decide

theorem reads_int (i : Int) : Reads (reprInt i) (.int i) := by
  intro n rest hd hn
  cases n with
  | zero =>
    cases i with
    | ofNat m =>
      cases h : Nat.toDigits 10 m with
      | nil => exact absurd h Nat.toDigits_ne_nil
      | cons c r => simp [reprInt, h] at hn
    | negSucc m => simp [reprInt] at hn
  | succ n =>
    cases i with
    | ofNat m =>
      have := pNum_toDigits m rest (delim_afterNum hd)
      simp only [reprInt]
      cases h : Nat.toDigits 10 m with
      | nil => exact absurd h Nat.toDigits_ne_nil
      | cons c r =>
        have hc : c.isDigit = true := toDigits_isDigit (n := m) (by rw [h]; simp)
        have g : c ≠ '[' ∧ c ≠ '{' ∧ ¬ (c = '\'' ∨ c = '"') ∧ c ≠ '-' := by
          refine ⟨?_, ?_, ?_, ?_⟩
          · rintro rfl; revert hc; decide
          · rintro rfl; revert hc; decide
          · rintro (rfl | rfl) <;> revert hc <;> decide
          · rintro rfl; revert hc; decide
        rw [h] at this
        rw [List.cons_append] at this ⊢
        rw [pExpr, if_neg g.1, if_neg g.2.1, if_neg g.2.2.1, if_neg g.2.2.2, if_pos hc, this]
        rfl
    | negSucc m =>
      have := pNum_toDigits (m + 1) rest (delim_afterNum hd)
      simp only [reprInt, List.cons_append]
      rw [pExpr, if_neg (by decide), if_neg (by decide), if_neg (by decide), if_pos rfl, this]
      rfl

theorem reads_str (pr : Char → Bool) (s : String) : Reads (reprStr pr s.toList) (.str s) := by
  intro n rest hd hn
  cases n with
  | zero => simp [reprStr] at hn
  | succ n =>
    have hq := quoteOf_isQuote s.toList
    have hl := flatMap_length pr _ hq s.toList
    have := pStr_escape pr _ hq rest s.toList
      (quoteOf s.toList :: (s.toList.flatMap (escape pr (quoteOf s.toList)) ++ quoteOf s.toList :: rest)).length
      (by simp only [List.length_cons, List.length_append]; omega)
    have hb : quoteOf s.toList ≠ '[' ∧ quoteOf s.toList ≠ '{' := by
      rcases hq with h | h <;> rw [h] <;> decide
    have e : reprStr pr s.toList ++ rest =
        quoteOf s.toList :: (s.toList.flatMap (escape pr (quoteOf s.toList)) ++ quoteOf s.toList :: rest) := by
      simp [reprStr]
    rw [e, pExpr, if_neg hb.1, if_neg hb.2, if_pos (show _ ∨ _ from hq), this]
    simp [String.ofList_toList]

theorem reads_word {w : List Char} {e : Ex} {c : Char} {r : List Char} (hw : w = c :: r) (h1 : idStart c = true)
    (h2 : ∀ d ∈ w, idCont d = true) (g : c ≠ '[' ∧ c ≠ '{' ∧ ¬ (c = '\'' ∨ c = '"') ∧ c ≠ '-' ∧ c.isDigit = false)
    (he : ∀ (elem : List Char → Option (Ex × List Char)) (cs : List Char), cs.takeWhile idCont = w →
      pName elem cs = some (e, cs.dropWhile idCont)) : Reads w e := by
  intro n rest hd hn
  cases n with
  | zero => rw [hw] at hn; simp at hn
  | succ n =>
    have hs := span_append h2 (delim_idCont hd)
    have := he (pExpr n) (w ++ rest) hs.1
    rw [hs.2] at this
    subst hw
    rw [List.cons_append] at this ⊢
    rw [pExpr, if_neg g.1, if_neg g.2.1, if_neg g.2.2.1, if_neg g.2.2.2.1, g.2.2.2.2, if_neg (by decide), if_pos h1]
    exact this

theorem reads_none : Reads "None".toList .none :=
  reads_word (c := 'N') (r := ['o', 'n', 'e']) (by decide) (by decide) (by decide) (by decide)
    (fun elem cs h => by simp only [pName, h, String.ofList_toList, if_true])

theorem reads_true : Reads "True".toList (.bool true) :=
  reads_word (c := 'T') (r := ['r', 'u', 'e']) (by decide) (by decide) (by decide) (by decide)
    (fun elem cs h => by
      simp only [pName, h, String.ofList_toList, if_true, show ("True" = "None") = False by decide, if_false])

theorem reads_false : Reads "False".toList (.bool false) :=
  reads_word (c := 'F') (r := ['a', 'l', 's', 'e']) (by decide) (by decide) (by decide) (by decide)
    (fun elem cs h => by
      simp only [pName, h, String.ofList_toList, if_true, show ("False" = "None") = False by decide,
        show ("False" = "True") = False by decide, if_false])

end Normalize.Repr
