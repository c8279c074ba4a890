import Verif.Spec.Exceptions

/-!
# Lemmas about exceptions as objects
-/

namespace Normalize.Exn

open Normalize.Spec

variable {V : Type}

/-! ## Format strings -/

theorem scan_text (acc : List Char) (c : Char) (cs : List Char) (h1 : c ≠ '{') (h2 : c ≠ '}') :
    scan none acc (c :: cs) = scan none (c :: acc) cs := by
  rw [scan] <;> simp_all

theorem scan_open (acc : List Char) (c : Char) (cs : List Char) (h1 : c ≠ '{') :
    scan none acc ('{' :: c :: cs) = .lit acc.reverse :: scan (some []) [] (c :: cs) := by
  rw [scan]; simp_all

theorem scan_escaped (s acc rest : List Char) :
    scan none acc (escaped s ++ rest) = scan none (s.reverse ++ acc) rest := by
  induction s generalizing acc with
  | nil => rfl
  | cons c s ih =>
    simp only [escaped]
    split
    · next h =>
      rcases h with h | h <;> subst h <;> simp [scan, ih]
    · next h =>
      have h1 : c ≠ '{' := fun e => h (Or.inl e)
      have h2 : c ≠ '}' := fun e => h (Or.inr e)
      rw [List.cons_append, scan_text _ _ _ h1 h2, ih]
      simp

/-- A text that can stand between braces. -/
def Inner (w : List Char) : Prop := ∀ c : Char, c ∈ w → c ∉ ['{', '}', '[', ':']

theorem scan_field (w f acc rest : List Char) (h : Inner w) :
    scan (some f) acc (w ++ '}' :: rest) = .field (f.reverse ++ w) :: scan none [] rest := by
  induction w generalizing f acc with
  | nil => simp [scan]
  | cons c w ih =>
    have hc := h c (by simp)
    have hw : Inner w := fun d hd => h d (List.mem_cons_of_mem _ hd)
    rw [List.cons_append, scan]
    · rw [if_neg, ih _ _ hw]
      · simp
      · simp only [List.mem_cons, not_or] at hc
        rintro (e | e | e) <;> simp_all
    · intro e; subst e; simp at hc

theorem scan_braces (w acc rest : List Char) (h : Inner w) :
    scan none acc ('{' :: w ++ '}' :: rest) = .lit acc.reverse :: .field w :: scan none [] rest := by
  cases w with
  | nil => rw [List.cons_append, List.nil_append, scan_open _ _ _ (by decide)]; simp [scan]
  | cons c w =>
    have hc := h c (by simp)
    rw [List.cons_append, List.cons_append, scan_open _ _ _ (by simp_all)]
    rw [← List.cons_append, scan_field _ _ _ _ h]
    simp

theorem splitAt'_none (d : Char) (w : List Char) (h : d ∉ w) : splitAt' d w = [w] := by
  induction w with
  | nil => rfl
  | cons c w ih =>
    simp only [List.mem_cons, not_or] at h
    rw [splitAt', if_neg (Ne.symm h.1), ih h.2]

theorem splitAt'_cons (d : Char) (w rest : List Char) (h : d ∉ w) :
    splitAt' d (w ++ d :: rest) = w :: splitAt' d rest := by
  induction w with
  | nil => simp [splitAt']
  | cons c w ih =>
    simp only [List.mem_cons, not_or] at h
    rw [List.cons_append, splitAt', if_neg (Ne.symm h.1), ih h.2]

/-- The pieces between the dots. -/
theorem splitAt'_dots (k : List Char) (as : List String) (hk : '.' ∉ k) (has : ∀ a : String, a ∈ as → '.' ∉ a.toList) :
    splitAt' '.' (k ++ dotSource as) = k :: as.map String.toList := by
  induction as generalizing k with
  | nil => simp [dotSource, splitAt'_none _ _ hk]
  | cons a as ih =>
    rw [dotSource, splitAt'_cons _ _ _ hk, ih _ (has a (by simp)) (fun b hb => has b (List.mem_cons_of_mem _ hb))]
    rfl

theorem splitAt'_conv (w : List Char) (c : HowShown) (h : '!' ∉ w) :
    splitAt' '!' (w ++ c.source) = w :: (match c with | .plain => [] | .s => [['s']] | .r => [['r']]) := by
  cases c
  · simp [HowShown.source, splitAt'_none _ _ h]
  · rw [HowShown.source, splitAt'_cons _ _ _ h]; rfl
  · rw [HowShown.source, splitAt'_cons _ _ _ h]; rfl

theorem follow_chain (W : World V) (v : V) (as : List String) (has : ∀ a : String, a ∈ as → GoodName a) :
    follow W v (as.map String.toList) = attrChain W v as := by
  induction as generalizing v with
  | nil => rfl
  | cons a as ih =>
    simp only [List.map_cons, follow, attrChain]
    rw [if_neg (has a (by simp)).1, String.ofList_toList]
    cases W.attr v a with
    | error e => rfl
    | ok w => exact ih w (fun b hb => has b (List.mem_cons_of_mem _ hb))

theorem convert_apply (W : World V) (v : V) (c : HowShown) :
    convert W v (match c with | .plain => [] | .s => [['s']] | .r => [['r']]) = c.apply W v := by
  cases c <;> rfl

theorem mem_dotSource (as : List String) (d : Char) (hd : d ≠ '.') (h : ∀ a : String, a ∈ as → d ∉ a.toList) :
    d ∉ dotSource as := by
  induction as with
  | nil => simp [dotSource]
  | cons a as ih =>
    simp only [dotSource, List.mem_cons, List.mem_append, not_or]
    exact ⟨hd, h a (by simp), ih (fun b hb => h b (List.mem_cons_of_mem _ hb))⟩

theorem good_notin {s : String} (h : GoodName s) {c : Char} (hc : c ∈ ['{', '}', '[', ':', '.', '!']) :
    c ∉ s.toList := fun hm => h.2 c hm hc

theorem inner_field (k : List Char) (as : List String) (c : HowShown)
    (hk : ∀ d : Char, d ∈ ['{', '}', '[', ':', '.', '!'] → d ∉ k) (has : ∀ a : String, a ∈ as → GoodName a) :
    Inner (k ++ dotSource as ++ c.source) := by
  intro d hd hm
  have hd' : d ∈ ['{', '}', '[', ':', '.', '!'] := by
    simp only [List.mem_cons, List.not_mem_nil, or_false] at hm ⊢
    rcases hm with h | h | h | h <;> simp [h]
  have hdot : d ≠ '.' := by
    rintro rfl; simp at hm
  rw [List.mem_append, List.mem_append] at hd
  rcases hd with (hd | hd) | hd
  · exact hk d hd' hd
  · exact mem_dotSource as d hdot (fun a ha => good_notin (has a ha) hd') hd
  · cases c <;> simp [HowShown.source] at hd
    · rcases hd with rfl | rfl <;> simp at hm
    · rcases hd with rfl | rfl <;> simp at hm

theorem fieldText_source (W : World V) (args : List V) (kw : List (String × V)) (num : Numbering) (k : List Char)
    (as : List String) (c : HowShown)
    (hk : ∀ d : Char, d ∈ ['{', '}', '[', ':', '.', '!'] → d ∉ k) (has : ∀ a : String, a ∈ as → GoodName a) :
    fieldText W args kw num (k ++ dotSource as ++ c.source) =
      ((argument W args kw num k).1.bind (fun v => fieldShows W v as c), (argument W args kw num k).2) := by
  have hbang : '!' ∉ k ++ dotSource as := by
    rw [List.mem_append, not_or]
    exact ⟨hk '!' (by simp), mem_dotSource as _ (by decide) (fun a ha => good_notin (has a ha) (by simp))⟩
  simp only [fieldText]
  rw [splitAt'_conv _ _ hbang]
  simp only
  rw [splitAt'_dots k as (hk '.' (by simp)) (fun a ha => good_notin (has a ha) (by simp))]
  simp only [Prod.mk.injEq, and_true]
  congr 1
  funext v
  rw [follow_chain W v as has, fieldShows]
  cases attrChain W v as with
  | error e => rfl
  | ok w => exact convert_apply W w c

theorem alookup_find (kw : List (String × V)) (k : String) :
    alookup kw k = (kw.find? (fun p => p.1 == k)).map (·.2) := by
  induction kw with
  | nil => rfl
  | cons p kw ih =>
    obtain ⟨a, v⟩ := p
    simp only [alookup, List.find?_cons]
    by_cases h : a = k
    · simp [h]
    · rw [if_neg h, ih, beq_eq_false_iff_ne.mpr h]

theorem digits_none (k : List Char) (h : ∃ c : Char, c ∈ k ∧ c.isDigit = false) : digits k = none := by
  obtain ⟨c, hc, hd⟩ := h
  rw [digits, if_neg]
  rintro ⟨_, ha⟩
  rw [List.all_eq_true] at ha
  rw [ha c hc] at hd
  cases hd

/-- How the positional fields are numbered after `n` of them. -/
def Counts (n : Nat) (num : Numbering) : Prop := (n = 0 ∧ num = .unset) ∨ num = .auto n

theorem render_source (W : World V) (args : List V) (kw : List (String × V)) (ps : List MsgPart)
    (hp : ∀ p : MsgPart, p ∈ ps → p.Good) (n : Nat) (num : Numbering) (hn : Counts n num) (acc : List Char) :
    render W args kw num (scan none acc (msgSource ps)) =
      andThen (.ok (String.ofList acc.reverse)) (msgText W args kw n ps) := by
  induction ps generalizing n num acc with
  | nil => simp [msgSource, scan, render, msgText, andThen]
  | cons p ps ih =>
    have ih' := ih (fun q hq => hp q (List.mem_cons_of_mem _ hq))
    have hg := hp p (by simp)
    cases p with
    | text s =>
      rw [msgSource, scan_escaped, ih' n num hn]
      simp only [msgText, andThen]
      cases msgText W args kw n ps with
      | error e => rfl
      | ok t =>
        simp only [List.reverse_append, List.reverse_reverse, String.ofList_append, String.ofList_toList,
          String.append_assoc]
    | named k as c =>
      obtain ⟨hk, hdig, has⟩ := hg
      have hk' : ∀ d : Char, d ∈ ['{', '}', '[', ':', '.', '!'] → d ∉ k.toList := fun d hd => good_notin hk hd
      rw [msgSource, scan_braces _ _ _ (inner_field _ _ _ hk' has)]
      simp only [render]
      rw [fieldText_source W args kw num _ as c hk' has]
      have harg : argument W args kw num k.toList =
          (match kw.find? (fun p => p.1 == k) with
            | some p => .ok p.2
            | none => .error (.key [W.ofStr k]), num) := by
        simp only [argument]
        rw [if_neg hk.1, digits_none _ hdig]
        simp only
        rw [String.ofList_toList, alookup_find]
        cases kw.find? (fun p => p.1 == k) <;> rfl
      rw [harg, ih' n num hn]
      simp only [msgText]
      cases kw.find? (fun p => p.1 == k) with
      | none => rfl
      | some p =>
        simp only [Except.bind]
        cases fieldShows W p.2 as c with
        | error e => rfl
        | ok s =>
          simp only [andThen, List.reverse_nil]
          cases msgText W args kw n ps with
          | error e => rfl
          | ok t => simp
    | next as c =>
      rw [msgSource]
      have hin : Inner (dotSource as ++ c.source) := by
        have := inner_field [] as c (by simp) hg
        simpa using this
      rw [scan_braces _ _ _ hin]
      simp only [render]
      have hft := fieldText_source W args kw num [] as c (by simp) hg
      rw [List.nil_append] at hft
      rw [hft]
      have harg : argument W args kw num [] = (positional args n, .auto (n + 1)) := by
        rcases hn with ⟨rfl, rfl⟩ | rfl <;> rfl
      rw [harg, ih' (n + 1) _ (Or.inr rfl)]
      simp only [msgText, positional]
      cases args[n]? with
      | none => rfl
      | some v =>
        simp only [Except.bind]
        cases fieldShows W v as c with
        | error e => rfl
        | ok s =>
          simp only [andThen, List.reverse_nil]
          cases msgText W args kw (n + 1) ps with
          | error e => rfl
          | ok t => simp

theorem format_source (W : World V) (args : List V) (kw : List (String × V)) (ps : List MsgPart)
    (hp : ∀ p : MsgPart, p ∈ ps → p.Good) :
    format W (String.ofList (msgSource ps)) args kw = msgText W args kw 0 ps := by
  rw [format, String.toList_ofList, render_source W args kw ps hp 0 .unset (Or.inl ⟨rfl, rfl⟩) []]
  simp only [andThen, List.reverse_nil]
  cases msgText W args kw 0 ps with
  | error e => rfl
  | ok t => simp

/-! ## The two exceptions about exceptions -/

/-- A name that can stand in a field, checked. -/
def goodNameB (s : String) : Bool :=
  s.toList != [] && s.toList.all (fun c => !(['{', '}', '[', ':', '.', '!'].contains c))

/-- Parts that can be written, checked. -/
def goodB : MsgPart → Bool
  | .text _ => true
  | .named k as _ => goodNameB k && k.toList.any (fun c => !c.isDigit) && as.all goodNameB
  | .next as _ => as.all goodNameB

theorem goodNameB_sound {s : String} (h : goodNameB s = true) : GoodName s := by
  simp only [goodNameB, Bool.and_eq_true, bne_iff_ne, List.all_eq_true, Bool.not_eq_true', List.contains_eq_mem,
    decide_eq_false_iff_not] at h
  exact h

theorem goodB_sound {ps : List MsgPart} (h : ps.all goodB = true) (p : MsgPart) (hp : p ∈ ps) : p.Good := by
  have := List.all_eq_true.mp h p hp
  cases p with
  | text s => trivial
  | named k as c =>
    simp only [goodB, Bool.and_eq_true, List.any_eq_true, Bool.not_eq_true', List.all_eq_true] at this
    exact ⟨goodNameB_sound this.1.1, this.1.2, fun a ha => goodNameB_sound (this.2 a ha)⟩
  | next as c =>
    simp only [goodB, List.all_eq_true] at this
    exact fun a ha => goodNameB_sound (this a ha)

theorem keyword_format (W : World V) (hW : PlainStrings W) (p q r : String) :
    format W keywordError.message [] [("typename", W.ofStr p), ("missing", W.ofStr q), ("passed", W.ofStr r)] =
      .ok (p ++ " raised without passing " ++ q ++ "; saw only: " ++ r) := by
  have e : keywordError.message = String.ofList (msgSource
      [.named "typename" [] .plain, .text " raised without passing ", .named "missing" [] .plain,
       .text "; saw only: ", .named "passed" [] .plain]) := by decide +kernel
  rw [e, format_source _ _ _ _ (goodB_sound (by decide +kernel))]
  simp only [msgText, List.find?, fieldShows, attrChain, HowShown.apply, hW _, andThen,
    String.append_assoc, String.append_empty, show ("typename" == "missing") = false from by decide,
    show ("typename" == "passed") = false from by decide, show ("missing" == "passed") = false from by decide,
    show ("typename" == "typename") = true from by decide, show ("missing" == "missing") = true from by decide,
    show ("passed" == "passed") = true from by decide]

theorem positional_format (W : World V) (hW : PlainStrings W) (p q : String) :
    format W positionalError.message [] [("typename", W.ofStr p), ("received", W.ofStr q)] =
      .ok (p ++ " expects a positional format string; passed: " ++ q) := by
  have e : positionalError.message = String.ofList (msgSource
      [.named "typename" [] .plain, .text " expects a positional format string; passed: ",
       .named "received" [] .plain]) := by decide +kernel
  rw [e, format_source _ _ _ _ (goodB_sound (by decide +kernel))]
  simp only [msgText, List.find?, fieldShows, attrChain, HowShown.apply, hW _, andThen,
    String.append_assoc, String.append_empty, show ("typename" == "received") = false from by decide,
    show ("typename" == "typename") = true from by decide, show ("received" == "received") = true from by decide]

theorem init_keyword (W : World V) (hW : PlainStrings W) (n : Nat) (c : Cls) (args : List V) (kw : List (String × V))
    (k : String) (hf : format W c.message args kw = .error (.key [W.ofStr k])) :
    init W (n + 2) c args kw = .error (.obj ⟨keywordError, [], [("typename", W.ofStr c.name), ("missing", W.ofStr k),
      ("passed", W.ofStr (W.reprKeys (kw.map (·.1))))],
      c.name ++ " raised without passing " ++ k ++ "; saw only: " ++ W.reprKeys (kw.map (·.1))⟩) := by
  simp only [init]
  rw [hf]
  simp only
  rw [keyword_format W hW]
  rfl

theorem init_positional (W : World V) (hW : PlainStrings W) (n : Nat) (c : Cls) (args : List V)
    (kw : List (String × V)) (r : String) (hf : format W c.message args kw = .error .index)
    (hr : W.reprTuple args = .ok r) :
    init W (n + 2) c args kw = .error (.obj ⟨positionalError, [], [("typename", W.ofStr c.name),
      ("received", W.ofStr r)], c.name ++ " expects a positional format string; passed: " ++ r⟩) := by
  simp only [init]
  rw [hf]
  simp only
  rw [hr]
  simp only
  rw [positional_format W hW]
  rfl

theorem init_ok {W : World V} {n : Nat} {c : Cls} {args : List V} {kw : List (String × V)} {o : Obj V}
    (h : init W (n + 1) c args kw = .ok o) :
    o.cls = c ∧ o.args = args ∧ o.kwargs = kw ∧ format W c.message args kw = .ok o.formatted := by
  simp only [init] at h
  split at h
  · next t ht => cases h; exact ⟨rfl, rfl, rfl, ht⟩
  · split at h
    · cases h
    · revert h
      cases init W n positionalError [] _ <;> intro h <;> cases h
  · cases h
  · revert h
    cases init W n keywordError [] _ <;> intro h <;> cases h
  · cases h

end Normalize.Exn
