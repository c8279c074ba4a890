import Verif.Lemmas.DiffAgree2
import Verif.Props.DiffEx

/-!
# C39: a diff is empty exactly when the normalised contents agree
-/

namespace Normalize.Diff
open Ident (IProp Schema readAttr)
open Spec (Closed Real PlainSlots Agree Compared Blank)

variable {E F : Type} [DecidableEq E] [DecidableEq F] {H : Hooks E F} {o : Opts}

/-- C39: a comparison that runs to its end reports no difference iff the two objects agree (`Spec.Agree`), at
any depth of nesting.  With fuzzy matching, identities must be determined by the compared content (`IdSound`):
else items of different identity can be paired and found equal. -/
theorem C39_iff (hs : Std H o) (hfz : o.fuzzyMatch = false ∨ IdSound H o) (n : Nat) (x y : Val)
    (hx : Real H.S x) (hy : Real H.S y) (hc : tagOf x ≠ none) (ht : tagOf x = tagOf y)
    (hend : (diff H o n x y).exc = none) :
    (∀ d ∈ (diff H o n x y).out, d.kind = .noChange ∨ d.kind = .moved) ↔ Agree H o (some x) (some y) := by
  have hcx : comparable x = true := by
    cases h : tagOf x with
    | none => exact absurd h hc
    | some g => simp [comparable, h]
  constructor
  · intro h
    exact agree_of_still hs hfz n x y [] [] hx hy hcx ht ⟨hend, h⟩
  · intro h
    exact (calm_of_agree hs h n [] [] (onO_some hx) (onO_some hy)).2
      (by intro u w hu hw; simp at hu hw; subst hu hw; exact ⟨hcx, ht⟩) rfl rfl

/-- C39, soundness for any run: objects that agree have no differences, even if the comparison raises. -/
theorem C39_sound (hs : Std H o) (n : Nat) (x y : Val) (hx : Real H.S x) (hy : Real H.S y)
    (hc : tagOf x ≠ none) (ht : tagOf x = tagOf y) (h : Agree H o (some x) (some y)) :
    ∀ d ∈ (diff H o n x y).out, d.kind = .noChange ∨ d.kind = .moved := by
  have hcx : comparable x = true := by
    cases h : tagOf x with
    | none => exact absurd h hc
    | some g => simp [comparable, h]
  exact (calm_of_agree hs h n [] [] (onO_some hx) (onO_some hy)).2
      (by intro u w hu hw; simp at hu hw; subst hu hw; exact ⟨hcx, ht⟩) rfl rfl

/-- C39 for records: there is no difference iff the normalised values of every compared property agree. -/
theorem C39_record (hs : Std H o) (hfz : o.fuzzyMatch = false ∨ IdSound H o) (n : Nat) (c : String)
    (s t : List (String × Val)) (hx : Real H.S (.rcd c s)) (hy : Real H.S (.rcd c t))
    (hend : (diff H o n (.rcd c s) (.rcd c t)).exc = none) :
    (∀ d ∈ (diff H o n (.rcd c s) (.rcd c t)).out, d.kind = .noChange ∨ d.kind = .moved) ↔
      ∀ p ∈ (H.S.cls c).props, Compared o p → ∃ va vb,
        H.normSlot (readAttr H.S (.rcd c s) p.name) p (some (.rcd c s)) = .ok va ∧
        H.normSlot (readAttr H.S (.rcd c t) p.name) p (some (.rcd c t)) = .ok vb ∧ Agree H o va vb := by
  rw [C39_iff hs hfz n _ _ hx hy (by simp [tagOf]) rfl hend]
  constructor
  · intro h
    generalize ha : (some (Val.rcd c s)) = a at h
    generalize hb : (some (Val.rcd c t)) = b at h
    cases h with
    | record va vb h1 h2 h3 =>
      simp at ha hb
      obtain ⟨rfl, rfl⟩ := ha
      obtain ⟨_, rfl⟩ := hb
      exact fun p hp hcp => ⟨va p, vb p, h1 p hp hcp, h2 p hp hcp, h3 p hp hcp⟩
    | equal ht =>
      simp at ha hb
      subst ha hb
      simp [tagOf] at ht
    | simple _ _ hi _ _ =>
      simp at ha
      subst ha
      exact absurd rfl (not_rcd_of_items hi c s)
    | records _ _ _ hm _ _ _ _ =>
      simp at ha
      subst ha
      exact absurd rfl (not_rcd_of_members hm c s)
    | _ => simp_all
  · intro h
    refine .record (slotVal H (.rcd c s)) (slotVal H (.rcd c t)) (fun p hp hcp => ?_) (fun p hp hcp => ?_)
      (fun p hp hcp => ?_)
    all_goals
      obtain ⟨va, vb, h1, h2, h3⟩ := h p hp hcp
    · rw [slotVal_eq h1, h1]
    · rw [slotVal_eq h2, h2]
    · rw [slotVal_eq h1, slotVal_eq h2]
      exact h3

/-- The default methods of DiffOptions meet the assumptions. -/
theorem std_default (D : Setup) (hc : Spec.CompareFlat D) (ho : OrdOK D.hooks) (hd : o.duckType = false)
    (hf : o.compareFilter = none) (hr : o.recurse = false) : Std D.hooks o where
  ord := ho
  closed := closed_default D hc
  tup := tupIds_default D
  plain := plain_default D hc
  duck := hd
  filter := hf
  recurse := hr

/-- C39 for the default methods of DiffOptions. -/
theorem C39_default (D : Setup) (hc : Spec.CompareFlat D) (ho : OrdOK D.hooks) (hd : o.duckType = false)
    (hf : o.compareFilter = none) (hr : o.recurse = false) (hfz : o.fuzzyMatch = false)
    (n : Nat) (x y : Val) (hx : Real D.S x) (hy : Real D.S y) (hcx : tagOf x ≠ none) (ht : tagOf x = tagOf y)
    (hend : (diff D.hooks o n x y).exc = none) :
    (∀ d ∈ (diff D.hooks o n x y).out, d.kind = .noChange ∨ d.kind = .moved) ↔
      Agree D.hooks o (some x) (some y) :=
  C39_iff (std_default D hc ho hd hf hr) (.inl hfz) n x y hx hy hcx ht hend

/-! ## Examples -/

namespace Ex

/-- The hypotheses hold of the example. -/
example (t : TextOpts) : Std (hooks t) { fuzzyMatch := false } ∧ Real schema docA ∧ Real schema docB ∧
    tagOf docA ≠ none ∧ tagOf docA = tagOf docB :=
  ⟨std_default _ (.none fun _ => rfl) (ordOK t) rfl rfl rfl, real_docA, real_docB, by simp [docA, tagOf], rfl⟩

/-- `docA` with other spaces, another note (which is extraneous), and its lists in another order. -/
def docC : Val := .rcd "Doc" [("title", .str " A title"), ("author", person 1 "Ann"),
  ("people", .lcoll "People" [person 3 "Cid", person 2 " Bob", person 1 "Ann"]),
  ("words", .lcoll "Words" [word "rot" "de", word "red" "en", word "blu" "it"]),
  ("tags", .list [.str "y", .str "x", .str "y"]),
  ("scores", .dict [(.str "l", .int 2), (.str "k", .int 1)]), ("note", .str "two")]

/-- The two documents differ, and are found to agree when spaces are ignored. -/
example : docA ≠ docC := by simp [docA, docC]

example : diff (hooks { ignoreWs := true }) { fuzzyMatch := false } 9 docA docC = {} ∧
    (diff (hooks { ignoreWs := false }) { fuzzyMatch := false } 9 docA docC).exc = none ∧
    (diff (hooks { ignoreWs := false }) { fuzzyMatch := false } 9 docA docC).out.map (·.base) =
      [[.str "people", .int 1, .str "name"], [.str "title"]] := by decide +kernel

/-- A record without content counts as unset with `ignore_empty_slots`. -/
example : diff (hooks { ignoreEmptySlots := true }) { ignoreEmptySlots := true } 9
      (.rcd "Doc" [("author", .rcd "Person" [("name", .str "")]), ("words", .lcoll "Words" [word "" ""])])
      (.rcd "Doc" []) = {} ∧
    (diff (hooks {}) {} 9 (.rcd "Doc" [("author", .rcd "Person" [("name", .str "")])]) (.rcd "Doc" [])).out =
      [⟨.removed, [.str "author"], [.str "author"]⟩] := by decide +kernel

end Ex

end Normalize.Diff
