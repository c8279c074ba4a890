import Verif.Model.DiffText
import Verif.Spec.DiffText

/-!
# C44: text normalisation
-/

namespace Normalize.Diff
open Normalize.Spec (words)

/-! ## Lemmas -/

theorem split_words (sp : Char → Bool) (s : List Char) : ∀ (b : Bool) (cur : List Char), (b = true → cur = []) →
    (reSplit sp b cur s).filter (fun w => !w.isEmpty) =
      (s.splitOnPPrepend sp cur).filter (fun w => !w.isEmpty) := by
  induction s with
  | nil => intro b cur _; simp [reSplit]
  | cons c cs ih =>
    intro b cur hb
    unfold reSplit
    by_cases h : sp c
    · rw [List.splitOnPPrepend_cons_pos h]
      cases b with
      | true =>
        have := hb rfl
        subst this
        simp only [h, if_true]
        rw [ih true [] (fun _ => rfl)]
        simp [List.filter_cons]
      | false =>
        simp only [h, if_true, Bool.false_eq_true, if_false]
        rw [List.filter_cons, List.filter_cons, ih true [] (fun _ => rfl)]
        simp
    · have h' : sp c = false := by simpa using h
      rw [List.splitOnPPrepend_cons_neg h']
      simp only [h', Bool.false_eq_true, if_false]
      exact ih false (c :: cur) (by simp)

theorem normalizeWs_eq (U : Unicode) (s : List Char) : normalizeWs U s = joinSp (words U.space s) := by
  unfold normalizeWs words
  rw [split_words U.space s false [] (by simp)]
  simp

theorem joinSp_eq : ∀ ws, joinSp ws = List.intercalate [' '] ws
  | [] => rfl
  | [w] => by simp [joinSp, List.intercalate]
  | w :: v :: ws => by
    have := joinSp_eq (v :: ws)
    unfold joinSp
    rw [this]
    simp [List.intercalate, List.intersperse]

theorem splitOnP_nospace (sp : Char → Bool) (s : List Char) :
    ∀ w ∈ s.splitOnP sp, ∀ c ∈ w, sp c = false := by
  induction s with
  | nil => simp
  | cons c cs ih =>
    rw [List.splitOnP_cons_eq_if_modifyHead]
    split
    · intro w hw
      simp at hw
      rcases hw with rfl | hw
      · simp
      · exact ih w hw
    · rename_i h
      cases hs : cs.splitOnP sp with
      | nil => simp
      | cons w ws =>
        rw [hs] at ih
        intro v hv
        simp at hv
        rcases hv with rfl | hv
        · intro d hd
          simp at hd
          rcases hd with rfl | hd
          · simpa using h
          · exact ih w (by simp) d hd
        · exact ih v (by simp [hv])

theorem words_joinSp (sp : Char → Bool) (hsp : sp ' ' = true) : ∀ ws : List (List Char),
    (∀ w ∈ ws, w ≠ [] ∧ ∀ c ∈ w, sp c = false) → words sp (joinSp ws) = ws
  | [], _ => by simp [words, joinSp]
  | [w], h => by
    obtain ⟨h1, h2⟩ := h w (by simp)
    unfold words joinSp
    rw [List.splitOnP_eq_singleton h2]
    simp [List.filter_cons, h1]
  | w :: v :: ws, h => by
    obtain ⟨h1, h2⟩ := h w (by simp)
    have ih := words_joinSp sp hsp (v :: ws) (fun x hx => h x (by simp at hx ⊢; exact .inr hx))
    unfold words at ih ⊢
    unfold joinSp
    rw [List.splitOnP_append_cons_of_forall_mem h2 ' ' hsp, List.filter_cons, ih]
    simp [h1]

theorem words_ok (sp : Char → Bool) (s : List Char) : ∀ w ∈ words sp s, w ≠ [] ∧ ∀ c ∈ w, sp c = false := by
  intro w hw
  unfold words at hw
  simp at hw
  exact ⟨hw.2, splitOnP_nospace sp s w hw.1⟩

/-! ## C44 -/

/-- C44: whitespace normalisation keeps the words. -/
theorem C44_ws_keeps_words (U : Unicode) (hsp : U.space ' ' = true) (s : List Char) :
    words U.space (normalizeWs U s) = words U.space s := by
  rw [normalizeWs_eq]
  exact words_joinSp U.space hsp _ (words_ok U.space s)

/-- C44: under `ignore_ws` two texts compare equal iff they have the same words. -/
theorem C44_ws_same_words (U : Unicode) (hsp : U.space ' ' = true) (s t : List Char) :
    normalizeWs U s = normalizeWs U t ↔ words U.space s = words U.space t := by
  constructor
  · intro h
    rw [← C44_ws_keeps_words U hsp s, ← C44_ws_keeps_words U hsp t, h]
  · intro h
    rw [normalizeWs_eq, normalizeWs_eq, h]

/-- C44: the result has no white space but single blanks between words, none at either end: it is the
words joined by a blank. -/
theorem C44_ws_joined (U : Unicode) (s : List Char) :
    normalizeWs U s = List.intercalate [' '] (words U.space s) := by
  rw [normalizeWs_eq, joinSp_eq]

/-- C44: whitespace normalisation is idempotent. -/
theorem C44_ws_idempotent (U : Unicode) (hsp : U.space ' ' = true) (s : List Char) :
    normalizeWs U (normalizeWs U s) = normalizeWs U s :=
  (C44_ws_same_words U hsp _ _).2 (C44_ws_keeps_words U hsp s)

/-- What the unicode tables have to satisfy for normalisation to be idempotent: a blank is white space, NFC
and upper-casing do not disturb normalised white space, and each of NFC, upper-casing, and upper-casing
followed by NFC, is idempotent. -/
structure Unicode.Lawful (U : Unicode) : Prop where
  blank : U.space ' ' = true
  upper_ws : ∀ s, normalizeWs U s = s → normalizeWs U (U.upper s) = U.upper s
  nfc_ws : ∀ s, normalizeWs U s = s → normalizeWs U (U.nfc s) = U.nfc s
  upper_upper : ∀ s, U.upper (U.upper s) = U.upper s
  nfc_nfc : ∀ s, U.nfc (U.nfc s) = U.nfc s
  both : ∀ s, U.nfc (U.upper (U.nfc (U.upper s))) = U.nfc (U.upper s)

/-- C44: normalising a text twice is normalising it once, for every setting of the options. -/
theorem C44_text_idempotent (U : Unicode) (hU : U.Lawful) (o : TextOpts) (s : List Char) :
    normalizeText U o (normalizeText U o s) = normalizeText U o s := by
  have hw := C44_ws_idempotent U hU.blank s
  have hn := hU.nfc_ws
  have hu := hU.upper_ws
  unfold normalizeText
  cases o.ignoreWs <;> cases o.ignoreCase <;> cases o.unicodeNormal <;>
    simp only [Bool.false_eq_true, if_false, if_true]
  · exact hU.nfc_nfc s
  · exact hU.upper_upper s
  · exact hU.both s
  · exact hw
  · rw [hn _ hw, hU.nfc_nfc]
  · rw [hu _ hw, hU.upper_upper]
  · rw [hn _ (hu _ hw), hU.both]

theorem scrub_scrub (U : Unicode) (hU : U.Lawful) (o : TextOpts) (v : Val) :
    scrub U o (scrub U o v) = scrub U o v := by
  cases v with
  | atom a =>
    cases a with
    | str s => simp [scrub, C44_text_idempotent U hU o]
    | _ => rfl
  | _ => rfl

/-- C44: normalising a value (or the unset marker) twice is normalising it once. -/
theorem C44_val_idempotent (U : Unicode) (hU : U.Lawful) (o : TextOpts) (v : Option Val) :
    normalizeVal U o (normalizeVal U o v) = normalizeVal U o v := by
  cases v with
  | none => rfl
  | some v =>
    unfold normalizeVal
    by_cases h : (o.ignoreEmptySlots && valueIsEmpty (scrub U o v)) = true
    · simp [h]
    · simp [h, scrub_scrub U hU]

/-- C44: a value counts as unset only with `ignore_empty_slots`, and then exactly when it is `None` or a text
that normalises to the empty text.  Empty lists, `0` and `False` do not. -/
theorem C44_empty_slots (U : Unicode) (o : TextOpts) (v : Val) :
    normalizeVal U o (some v) = none ↔
      o.ignoreEmptySlots = true ∧
        (v = .none ∨ ∃ s : String, v = .str s ∧ normalizeText U o s.toList = []) := by
  unfold normalizeVal
  rw [show ((if (o.ignoreEmptySlots && valueIsEmpty (scrub U o v)) = true then none
      else some (scrub U o v)) = none) ↔ (o.ignoreEmptySlots && valueIsEmpty (scrub U o v)) = true by
    split <;> simp_all]
  rw [Bool.and_eq_true]
  refine and_congr_right (fun _ => ?_)
  unfold scrub valueIsEmpty Val.none Val.str
  cases v with
  | atom a =>
    cases a with
    | str s => simp
    | _ => simp
  | _ => simp

/-- C44: with `ignore_ws` alone, a text counts as empty exactly when it has no words. -/
theorem C44_empty_text (U : Unicode) (hsp : U.space ' ' = true) (o : TextOpts) (s : String)
    (h : o.ignoreWs = true ∧ o.ignoreCase = false ∧ o.unicodeNormal = false ∧ o.ignoreEmptySlots = true) :
    normalizeVal U o (some (.str s)) = none ↔ words U.space s.toList = [] := by
  rw [C44_empty_slots]
  simp only [h.2.2.2, true_and]
  have : normalizeText U o s.toList = normalizeWs U s.toList := by
    unfold normalizeText
    simp [h.1, h.2.1, h.2.2.1]
  constructor
  · rintro (h' | ⟨t, ht, h'⟩)
    · simp [Val.str, Val.none] at h'
    · simp [Val.str] at ht
      subst ht
      rw [this] at h'
      rw [← C44_ws_keeps_words U hsp, h']
      simp [words]
  · intro h'
    refine .inr ⟨s, rfl, ?_⟩
    rw [this, normalizeWs_eq, h']
    rfl

/-! ## A concrete case -/

theorem splitOnP_map (sp : Char → Bool) (f : Char → Char) (hf : ∀ c, sp (f c) = sp c) (s : List Char) :
    (s.map f).splitOnP sp = (s.splitOnP sp).map (List.map f) := by
  induction s with
  | nil => simp
  | cons c cs ih =>
    rw [List.map_cons, List.splitOnP_cons_eq_if_modifyHead, List.splitOnP_cons_eq_if_modifyHead, hf, ih]
    split
    · simp
    · cases cs.splitOnP sp <;> simp

theorem joinSp_map (f : Char → Char) (hf : f ' ' = ' ') : ∀ ws, joinSp (ws.map (List.map f)) = (joinSp ws).map f
  | [] => rfl
  | [_] => rfl
  | w :: v :: ws => by
    have := joinSp_map f hf (v :: ws)
    simp only [List.map_cons] at this ⊢
    unfold joinSp
    rw [this]
    simp [hf]

/-- A character-wise map that keeps white space as it is commutes with whitespace normalisation. -/
theorem normalizeWs_map (U : Unicode) (f : Char → Char) (hf : ∀ c, U.space (f c) = U.space c) (hb : f ' ' = ' ')
    (s : List Char) : normalizeWs U (s.map f) = (normalizeWs U s).map f := by
  rw [normalizeWs_eq, normalizeWs_eq]
  unfold words
  rw [splitOnP_map U.space f hf, ← joinSp_map f hb]
  congr 1
  generalize List.splitOnP U.space s = l
  induction l with
  | nil => rfl
  | cons w ws ih => cases w <;> simp_all [List.filter_cons]

/-- Upper case of the twenty-six letters. -/
def up (c : Char) : Char := if 'a' ≤ c ∧ c ≤ 'z' then Char.ofNat (c.toNat - 32) else c

/-- A small alphabet: blank and newline are white space, the letters a–z have upper case forms, and every
text is in NFC. -/
def ascii : Unicode where
  space c := c == ' ' || c == '\n'
  upper s := s.map up
  nfc s := s

theorem up_mem (c : Char) (h : 'a' ≤ c ∧ c ≤ 'z') : ∃ n, 65 ≤ n ∧ n ≤ 90 ∧ up c = Char.ofNat n := by
  have h1 : 97 ≤ c.toNat := h.1
  have h2 : c.toNat ≤ 122 := h.2
  exact ⟨c.toNat - 32, by omega, by omega, by simp [up, h]⟩

theorem up_ok : ∀ n : Fin 91, 65 ≤ n.val →
    up (Char.ofNat n.val) = Char.ofNat n.val ∧ ascii.space (Char.ofNat n.val) = false := by
  decide +kernel

theorem up_space (c : Char) : ascii.space (up c) = ascii.space c := by
  by_cases h : 'a' ≤ c ∧ c ≤ 'z'
  · obtain ⟨n, h1, h2, h3⟩ := up_mem c h
    rw [h3, (up_ok ⟨n, by omega⟩ h1).2]
    simp only [ascii]
    by_cases hc : c = ' '
    · subst hc; exact absurd h (by decide)
    · by_cases hd : c = '\n'
      · subst hd; exact absurd h (by decide)
      · simp [hc, hd]
  · simp [up, h]

theorem up_up (c : Char) : up (up c) = up c := by
  by_cases h : 'a' ≤ c ∧ c ≤ 'z'
  · obtain ⟨n, h1, h2, h3⟩ := up_mem c h
    rw [h3, (up_ok ⟨n, by omega⟩ h1).1]
  · have : up c = c := by simp [up, h]
    rw [this, this]

/-- The hypotheses of C44 are met by an alphabet with white space and case. -/
theorem ascii_lawful : ascii.Lawful where
  blank := by decide
  upper_ws s h := by
    show normalizeWs ascii (s.map up) = s.map up
    rw [normalizeWs_map ascii up up_space (by decide), h]
  nfc_ws s h := h
  upper_upper s := by simp [ascii, up_up]
  nfc_nfc s := rfl
  both s := by simp [ascii, up_up]

example : normalizeText ascii { ignoreCase := true } "  ab\n c ".toList = "AB C".toList := by decide +kernel
example : normalizeVal ascii { ignoreEmptySlots := true } (some (.str " \n")) = none := by decide +kernel
example : normalizeVal ascii { ignoreEmptySlots := true } (some (.list [])) = some (.list []) := by decide +kernel
example : normalizeVal ascii {} (some (.str " ")) = some (.str "") := by decide +kernel

end Normalize.Diff
