import Verif.Spec.DiffForm
import Verif.Props.DiffUnchanged

/-!
# C63: what values are compared as
-/

namespace Normalize.Diff
open Ident (IProp Schema readAttr)
open Spec (Real PlainSlots Compared Form SlotForm ItemVal ItemForm Forms Items Labels)
open Gen

variable {D : Setup} {o : Opts}

theorem form_normalize {v : Val} {r : Option Val} (h : Form D v r) : normalizeVal D.U D.text (some v) = r := by
  cases h with
  | @text s h =>
    have : (D.text.ignoreEmptySlots && (normalizeText D.U D.text s.toList).isEmpty) = false := by
      rcases h with h | h
      · simp [h]
      · cases h' : normalizeText D.U D.text s.toList with
        | nil => exact absurd h' h
        | cons _ _ => simp
    simp [normalizeVal, Val.str, scrub, valueIsEmpty, this]
  | blank h h' => simp [normalizeVal, Val.str, scrub, valueIsEmpty, h, h']
  | null h => simp [normalizeVal, Val.none, scrub, valueIsEmpty, h]
  | other h h' =>
    cases v with
    | atom a =>
      cases a with
      | str s => exact absurd rfl (h s)
      | none =>
        have : D.text.ignoreEmptySlots = false := h'.resolve_right (fun hn => hn rfl)
        simp [normalizeVal, scrub, valueIsEmpty, this]
      | _ => simp [normalizeVal, scrub, valueIsEmpty]
    | _ => simp [normalizeVal, scrub, valueIsEmpty]

theorem slotForm_norm {p : IProp} {obj v : Val} {r : Option Val} (h : SlotForm D p obj v r) :
    D.hooks.normSlot (some v) p (some obj) = .ok r := by
  show normalizeObjectSlot D (some v) p (some obj) = _
  cases h with
  | plain h1 h2 => simp [normalizeObjectSlot, h1, form_normalize h2]
  | via h1 h2 h3 => simp [normalizeObjectSlot, h1, h2, form_normalize h3]

theorem itemVal_compare {coll v w : Val} (h : ItemVal D coll v w) : compareItem D (some coll) v = .ok w := by
  cases h with
  | plain h1 h2 => simp [compareItem, h1, h2]
  | via h1 h2 => simp [compareItem, h1, h2]

theorem itemForm_id {coll v : Val} {r : Option Val} (h : ItemForm D coll v r) :
    D.hooks.itemId (some coll) v = .ok r := by
  show normalizeItem D (some coll) v = _
  cases h with
  | unset h1 h2 => simp [normalizeItem, itemVal_compare h1, form_normalize h2]
  | hash h1 h2 h3 => simp [normalizeItem, itemVal_compare h1, form_normalize h2, hashed, h3]
  | repr h1 h2 h3 => simp [normalizeItem, itemVal_compare h1, form_normalize h2, hashed, h3]

theorem forms_labels {coll : Val} {vs : List (Comp × Val)} {us : List (Option Val)}
    (h : Forms D o coll (vs.map (·.2)) us) : ∃ l : List (Option Val × (Comp × Val)), l.map (·.1) = us ∧
      Labels (fun kv : Comp × Val => D.hooks.itemId (some coll) kv.2) (fun i => i.isSome || !o.ignoreEmptySlots) vs l := by
  generalize hw : vs.map (·.2) = ws at h
  induction h generalizing vs with
  | nil => simp at hw; subst hw; exact ⟨[], rfl, .nil⟩
  | @set v u vs' us' h1 _ ih =>
    cases vs with
    | nil => simp at hw
    | cons kv vs =>
      simp at hw
      obtain ⟨l, hl, hl'⟩ := ih hw.2
      refine ⟨(some u, kv) :: l, by simp [hl], .keep ?_ (by simp) hl'⟩
      rw [hw.1]
      exact itemForm_id h1
  | unset h0 h1 _ ih =>
    cases vs with
    | nil => simp at hw
    | cons kv vs =>
      simp at hw
      obtain ⟨l, hl, hl'⟩ := ih hw.2
      refine ⟨(none, kv) :: l, by simp [hl], .keep ?_ (by simp [h0]) hl'⟩
      rw [hw.1]
      exact itemForm_id h1
  | skip h0 h1 _ ih =>
    cases vs with
    | nil => simp at hw
    | cons kv vs =>
      simp at hw
      obtain ⟨l, hl, hl'⟩ := ih hw.2
      refine ⟨l, hl, .skip (i := none) ?_ (by simp [h0]) hl'⟩
      rw [hw.1]
      exact itemForm_id h1

/-- C63 for properties: a compared property whose two values have forms (after `compare_as` and the normalisation
of texts) that are no records and no containers yields exactly one entry, at the property: `MODIFIED` if the forms
are not `==`, and `NO_CHANGE`, with `unchanged`, if they are. -/
theorem C63_slot (ho : OrdOK D.hooks) (hd : o.duckType = false) (hf : o.compareFilter = none)
    (n : Nat) (c : String) (s t : List (String × Val)) (hn : ((D.S.cls c).props.map (·.name)).Nodup)
    (hend : (diff D.hooks o (n + 1) (.rcd c s) (.rcd c t)).exc = none) (p : IProp) (hp : p ∈ (D.S.cls c).props)
    (hc : Compared o p) {x y : Val} {a b : Atom}
    (hx : readAttr D.S (.rcd c s) p.name = some x) (hy : readAttr D.S (.rcd c t) p.name = some y)
    (ha : SlotForm D p (.rcd c s) x (some (.atom a))) (hb : SlotForm D p (.rcd c t) y (some (.atom b))) :
    (diff D.hooks o (n + 1) (.rcd c s) (.rcd c t)).out.filter (about p) =
      if D.S.atomEq a b then (if o.unchanged then [⟨.noChange, [.str p.name], [.str p.name]⟩] else [])
      else [⟨.modified, [.str p.name], [.str p.name]⟩] := by
  have hab := about_property ho n c s t hn hend p hp
  have hfil : isFiltered o p ([] ++ [.str p.name]) = false := by
    have h := (isFiltered_compared hf (p := p) (fs := [] ++ [.str p.name])).2 hc
    cases hi : isFiltered o p ([] ++ [.str p.name]) with
    | false => rfl
    | true => rw [hi] at h; simp at h
  rw [hab]
  unfold compareProp
  have ha' : D.hooks.normSlot (readSlot D.hooks (some (.rcd c s)) p.name) p (some (.rcd c s)) = .ok (some (.atom a)) := by
    show D.hooks.normSlot (readAttr D.S (.rcd c s) p.name) p (some (.rcd c s)) = _
    rw [hx]
    exact slotForm_norm ha
  have hb' : D.hooks.normSlot (readSlot D.hooks (some (.rcd c t)) p.name) p (some (.rcd c t)) = .ok (some (.atom b)) := by
    show D.hooks.normSlot (readAttr D.S (.rcd c t) p.name) p (some (.rcd c t)) = _
    rw [hy]
    exact slotForm_norm hb
  rw [hfil, ha', hb']
  have he : D.hooks.itemsEqual (.atom a) (.atom b) = .ok (D.S.atomEq a b) := by
    show Ident.veq D.S (.atom a) (.atom b) = _
    simp [Ident.veq, Ident.atomVs]
  simp only [compareVals, comparable, tagOf, Gen.when, Gen.bindE, he]
  cases D.S.atomEq a b <;> cases o.unchanged <;> rfl

/-- C63 for items: two lists, dicts or collections of values that are no records differ iff the forms of their
items (after `compare_item_as` and the normalisation of texts) differ as multisets. -/
theorem C63_items (ho : OrdOK D.hooks) (hp : Spec.CompareFlat D) (hd : o.duckType = false) {x y : Val}
    (hk : SimplePair D.hooks x y) {xs ys : List (Comp × Val)} (hx : tuplesOf (some x) = .ok xs)
    (hy : tuplesOf (some y) = .ok ys) {us ws : List (Option Val)} (ha : Forms D o x (xs.map (·.2)) us)
    (hb : Forms D o y (ys.map (·.2)) ws) (n : Nat) :
    (∀ d ∈ (diff D.hooks o (n + 1) x y).out, d.kind = .noChange ∨ d.kind = .moved) ↔ us.Perm ws := by
  obtain ⟨la, h1, h2⟩ := forms_labels ha
  obtain ⟨lb, h3, h4⟩ := forms_labels hb
  rw [← h1, ← h3]
  exact C42_simple_iff ho (plain_default D hp) hd hk ⟨xs, hx, h2⟩ ⟨ys, hy, h4⟩ n

/-! ## Examples -/

namespace Ex

/-- As `setup`, but words are compared by the first letter of their text, and names by their length. -/
def hooked : Setup :=
  { setup {} with
    compareAs := fun p => if p.name = "text" then some (fun _ v => match v with
      | .atom (.str s) => .ok (.str (String.ofList (s.toList.take 1)))
      | v => .ok v) else none
    compareItemAs := fun c => match c with
      | .lcoll "Names" _ => some (fun v => match v with
        | .atom (.str s) => .ok (.int s.toList.length)
        | v => .ok v)
      | _ => none }

/-- The hypotheses of `C63_slot` are met, with `compare_as`: "red" and "rot" are compared as "r". -/
example : OrdOK hooked.hooks ∧ (diff hooked.hooks {} 9 (word "red" "en") (word "rot" "de")).exc = none ∧
    SlotForm hooked { name := "text" } (word "red" "en") (.str "red") (some (.str "r")) ∧
    SlotForm hooked { name := "text" } (word "rot" "de") (.str "rot") (some (.str "r")) ∧
    (diff hooked.hooks {} 9 (word "red" "en") (word "rot" "de")).out =
      [⟨.modified, [.str "lang"], [.str "lang"]⟩] := by
  refine ⟨fun _ _ => List.Perm.refl _, by decide +kernel, .via rfl rfl ?_, .via rfl rfl ?_, by decide +kernel⟩
  · exact .text (.inl rfl)
  · exact .text (.inl rfl)

/-- The hypotheses of `C63_items` are met, with `compare_item_as`: names are compared by their length. -/
example : SimplePair hooked.hooks (.lcoll "Names" [.str "Ann", .str "Jo"]) (.lcoll "Names" [.str "Al", .str "Bob"]) ∧
    Forms hooked {} (.lcoll "Names" [.str "Ann", .str "Jo"]) [.str "Ann", .str "Jo"] [some (.int 3), some (.int 2)] ∧
    (diff hooked.hooks {} 9 (.lcoll "Names" [.str "Ann", .str "Jo"]) (.lcoll "Names" [.str "Al", .str "Bob"])).out = [] := by
  refine ⟨⟨rfl, ?_⟩, .set (.hash (.via rfl rfl) (.other ?_ (.inl rfl)) rfl)
    (.set (.hash (.via rfl rfl) (.other ?_ (.inl rfl)) rfl) .nil), by decide +kernel⟩
  · intro c hc
    simp [clsOf] at hc
    subst hc
    exact ⟨.list, 1, rfl⟩
  · intro s h; simp [Val.str, Val.int] at h
  · intro s h; simp [Val.str, Val.int] at h

/-- Unhashable items are compared by their `repr` (here all alike). -/
example : Forms (setup {}) {} (.list [.list [.int 1], .str " a  b "]) [.list [.int 1], .str " a  b "]
    [some (.str "<...>"), some (.str "a b")] :=
  .set (.repr (.plain rfl rfl) (.other (by intro s h; simp [Val.str, Val.int] at h) (.inl rfl)) rfl)
    (.set (.hash (.plain rfl rfl) (.text (.inl rfl)) rfl) .nil)

end Ex

end Normalize.Diff
