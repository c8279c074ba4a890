import Verif.Props.DiffDict

/-!
# C46: what `unchanged=True` reports for a property
-/

namespace Normalize.Diff
open Ident (IProp Schema readAttr)
open Spec (Real PlainSlots Compared)
open Gen

variable {E F : Type} [DecidableEq E] [DecidableEq F] {H : Hooks E F} {o : Opts}

/-- The entry is about the property (or something inside its value). -/
def about (p : IProp) (d : DInfo) : Bool := decide (d.base.head? = some (.str p.name))

/-- C46: with `unchanged=True`, each compared property of two records of one class yields entries that are either
all `NO_CHANGE` or all differences, and at least one. -/
def C46_statement : Prop := ∀ (D : Setup) (o : Opts) (n : Nat) (c : String) (s t : List (String × Val)),
    (∀ p, D.compareAs p = none) → OrdOK D.hooks → o.unchanged = true → o.duckType = false →
    Real D.S (.rcd c s) → Real D.S (.rcd c t) → (diff D.hooks o (n + 1) (.rcd c s) (.rcd c t)).exc = none →
    ∀ p ∈ (D.S.cls c).props, Compared o p →
      let es := (diff D.hooks o (n + 1) (.rcd c s) (.rcd c t)).out.filter (about p)
      es ≠ [] ∧ ((∀ d ∈ es, d.kind = .noChange) ∨ (∀ d ∈ es, d.kind ≠ .noChange))

/-- C46 is false of the code: a property that is unset on both sides yields nothing. -/
theorem C46_violated : ¬ C46_statement := by
  intro h
  have h1 := h (Ex.setup {}) { unchanged := true } 8 "Word" [("text", .str "a")] [("text", .str "a")] (fun _ => rfl)
    (Ex.ordOK {}) rfl rfl
    (.rcd (by simp [Ident.Proper, Ex.setup, Ex.schema, Ex.cls]) (by simp [Ex.setup, Ex.schema, Ex.cls])
      (by intro x hx; simp at hx; subst hx; exact .atom _))
    (.rcd (by simp [Ident.Proper, Ex.setup, Ex.schema, Ex.cls]) (by simp [Ex.setup, Ex.schema, Ex.cls])
      (by intro x hx; simp at hx; subst hx; exact .atom _))
    (by decide +kernel) { name := "lang" } (by simp [Ex.setup, Ex.schema, Ex.cls]) (by simp [Compared])
  revert h1
  decide +kernel

/-- C46 is false of the code also for properties that are set on both sides: an item that is matched is reported
`NO_CHANGE` although a difference inside it is reported, too. -/
theorem C46_violated_items :
    ¬ ((∀ d ∈ (diff (Ex.hooks {}) { unchanged := true } 9 (.lcoll "People" [Ex.person 1 "Ann"])
          (.lcoll "People" [Ex.person 1 "Bob"])).out, d.base.head? = some (.int 0) → d.kind = .noChange) ∨
       (∀ d ∈ (diff (Ex.hooks {}) { unchanged := true } 9 (.lcoll "People" [Ex.person 1 "Ann"])
          (.lcoll "People" [Ex.person 1 "Bob"])).out, d.base.head? = some (.int 0) → d.kind ≠ .noChange)) := by
  decide +kernel

/-- Entries are at or below the place that is compared. -/
theorem yields_prefix {a b : Option Val} {fa fb : FS} {d : DInfo} (h : Yields H o a b fa fb d) :
    fa <+: d.base ∧ fb <+: d.other := by
  have hp : ∀ (f : FS) (k : Comp) (g : FS), f ++ [k] <+: g → f <+: g := fun f k g h =>
    (List.prefix_append f [k]).trans h
  induction h with
  | sub _ _ _ ih => exact ⟨hp _ _ _ ih.1, hp _ _ _ ih.2⟩
  | item _ _ _ _ _ _ ih => exact ⟨hp _ _ _ ih.1, hp _ _ _ ih.2⟩
  | itemR _ _ _ _ ih => exact ⟨hp _ _ _ ih.1, hp _ _ _ ih.2⟩
  | itemL _ _ _ _ ih => exact ⟨hp _ _ _ ih.1, hp _ _ _ ih.2⟩
  | sRemoved => exact ⟨List.prefix_append _ _, List.prefix_refl _⟩
  | sAdded => exact ⟨List.prefix_refl _, List.prefix_append _ _⟩
  | rRemoved => exact ⟨List.prefix_append _ _, List.prefix_refl _⟩
  | rAdded => exact ⟨List.prefix_refl _, List.prefix_append _ _⟩
  | _ => exact ⟨List.prefix_append _ _, List.prefix_append _ _⟩

theorem vals_prefix (ho : OrdOK H) {n : Nat} {va vb : Option Val} {fa fb : FS} {d : DInfo}
    (h : d ∈ (compareVals H o (diffIter H o n) va vb fa fb).out) : fa <+: d.base := by
  have hnet : ∀ g : Gen, d ∈ (net o fa fb g).out → d.base = fa := by
    intro g hg
    unfold net at hg
    split at hg
    · simp at hg
    · split at hg
      · rw [mem_yield (mem_when hg).2]
      · rw [mem_yield hg]
      · simp at hg
  unfold compareVals at h
  split at h
  · simp at h
  · split at h
    · exact (yields_prefix (yields_diffIter ho n _ _ _ _ _ h)).1
    · obtain ⟨eq, _, h⟩ := mem_bindE h
      split at h
      · rw [mem_yield (mem_when h).2]; exact List.prefix_rfl
      · rw [mem_yield h]; exact List.prefix_rfl
  · split at h
    · rw [hnet _ h]; exact List.prefix_rfl
    · rw [mem_yield h]; exact List.prefix_rfl
  · split at h
    · rw [hnet _ h]; exact List.prefix_rfl
    · rw [mem_yield h]; exact List.prefix_rfl

theorem prop_about (ho : OrdOK H) {n : Nat} {a b : Option Val} {p q : IProp} {d : DInfo}
    (h : d ∈ (compareProp H o (diffIter H o n) a b [] [] q).out) : about p d = decide (p.name = q.name) := by
  obtain ⟨va, _, h⟩ := mem_bindE (mem_when h).2
  obtain ⟨vb, _, h⟩ := mem_bindE h
  obtain ⟨r, hr⟩ := vals_prefix ho h
  unfold about
  rw [← hr]
  by_cases h : p.name = q.name
  · simp [h]
  · have h' : ¬ q.name = p.name := fun e => h e.symm
    simp [h, h']

/-- The entries about a property are what comparing its two values yields. -/
theorem about_property (ho : OrdOK H) (n : Nat) (c : String) (s t : List (String × Val))
    (hn : ((H.S.cls c).props.map (·.name)).Nodup)
    (hend : (diff H o (n + 1) (.rcd c s) (.rcd c t)).exc = none) (p : IProp) (hp : p ∈ (H.S.cls c).props) :
    (diff H o (n + 1) (.rcd c s) (.rcd c t)).out.filter (about p) =
      (compareProp H o (diffIter H o n) (some (.rcd c s)) (some (.rcd c t)) [] [] p).out := by
  have he : diff H o (n + 1) (.rcd c s) (.rcd c t) =
      forEach (compareProp H o (diffIter H o n) (some (.rcd c s)) (some (.rcd c t)) [] [])
        ((H.S.cls c).props.insertionSort (fun p q => p.name ≤ q.name)) := by
    show compareRecord H o (diffIter H o n) (some (.rcd c s)) (some (.rcd c t)) [] [] = _
    unfold compareRecord
    rw [if_neg (by simp [typeClash, tagOf])]
    rfl
  rw [he] at hend ⊢
  rw [out_forEach (exc_forEach.1 hend), List.filter_flatMap]
  have hp' : p ∈ (H.S.cls c).props.insertionSort (fun p q => p.name ≤ q.name) :=
    (List.perm_insertionSort _ _).mem_iff.2 hp
  have hn' : (((H.S.cls c).props.insertionSort (fun p q => p.name ≤ q.name)).map (·.name)).Nodup :=
    (((List.perm_insertionSort _ _).map _).nodup_iff).2 hn
  generalize (H.S.cls c).props.insertionSort (fun p q => p.name ≤ q.name) = l at hp' hn'
  induction l with
  | nil => simp at hp'
  | cons q l ih =>
    rw [List.flatMap_cons]
    simp only [List.map_cons, List.nodup_cons] at hn'
    have hself : ∀ (q : IProp), (compareProp H o (diffIter H o n) (some (.rcd c s)) (some (.rcd c t)) [] [] q).out.filter
        (about p) = if p.name = q.name then
          (compareProp H o (diffIter H o n) (some (.rcd c s)) (some (.rcd c t)) [] [] q).out else [] := by
      intro q
      split
      · rename_i h
        rw [List.filter_eq_self]
        intro d hd
        rw [prop_about ho hd]
        simp [h]
      · rename_i h
        rw [List.filter_eq_nil_iff]
        intro d hd
        rw [prop_about ho hd]
        simp [h]
    rw [List.mem_cons] at hp'
    rcases hp' with rfl | hp'
    · have : l.flatMap (fun x => (compareProp H o (diffIter H o n) (some (.rcd c s)) (some (.rcd c t)) [] [] x).out.filter
          (about p)) = [] := by
        rw [List.flatMap_eq_nil_iff]
        intro q hq
        rw [hself, if_neg]
        intro h
        exact hn'.1 (by rw [h]; exact List.mem_map_of_mem hq)
      rw [this, hself]
      simp
    · have : p.name ≠ q.name := fun h => hn'.1 (by rw [← h]; exact List.mem_map_of_mem hp')
      rw [hself, if_neg this, ih hp' hn'.2]
      simp

/-- C46 (partial): the entries about a compared property, with `unchanged=True`.
* Values that are not compared part by part yield exactly one entry, at the property: `NO_CHANGE` if they are
  equal, and `MODIFIED` if not.
* A value on one side only yields exactly one entry, at the property (a difference, unless it is a container or
  record and `ignore_empty_slots` is on).
* Two records or containers of one type yield what comparing them yields.
What is missing: properties unset on both sides yield nothing (`C46_violated`), and items of collections of
records can yield both (`C46_violated_items`). -/
theorem C46_partial (ho : OrdOK H) (hu : o.unchanged = true) (hd : o.duckType = false) (hf : o.compareFilter = none)
    (n : Nat) (c : String) (s t : List (String × Val)) (hn : ((H.S.cls c).props.map (·.name)).Nodup)
    (hend : (diff H o (n + 1) (.rcd c s) (.rcd c t)).exc = none) (p : IProp) (hp : p ∈ (H.S.cls c).props)
    (hc : Compared o p) (va vb : Option Val)
    (ha : H.normSlot (readAttr H.S (.rcd c s) p.name) p (some (.rcd c s)) = .ok va)
    (hb : H.normSlot (readAttr H.S (.rcd c t) p.name) p (some (.rcd c t)) = .ok vb) :
    (∀ x y, va = some x → vb = some y → tagOf x = none ∨ tagOf x ≠ tagOf y →
      ∃ eq, H.itemsEqual x y = .ok eq ∧ (diff H o (n + 1) (.rcd c s) (.rcd c t)).out.filter (about p) =
        [⟨if eq then .noChange else .modified, [.str p.name], [.str p.name]⟩]) ∧
    (∀ x, va = some x → vb = none → ∃ k, (diff H o (n + 1) (.rcd c s) (.rcd c t)).out.filter (about p) =
        [⟨k, [.str p.name], [.str p.name]⟩] ∧ (tagOf x = none ∨ o.ignoreEmptySlots = false → k = .removed)) ∧
    (∀ y, va = none → vb = some y → ∃ k, (diff H o (n + 1) (.rcd c s) (.rcd c t)).out.filter (about p) =
        [⟨k, [.str p.name], [.str p.name]⟩] ∧ (tagOf y = none ∨ o.ignoreEmptySlots = false → k = .added)) ∧
    (∀ x y, va = some x → vb = some y → tagOf x ≠ none → tagOf x = tagOf y →
      (diff H o (n + 1) (.rcd c s) (.rcd c t)).out.filter (about p) =
        (diffIter H o n (some x) (some y) [.str p.name] [.str p.name]).out) := by
  have he : (compareProp H o (diffIter H o n) (some (.rcd c s)) (some (.rcd c t)) [] [] p).exc = none := by
    have h1 : (compareRecord H o (diffIter H o n) (some (.rcd c s)) (some (.rcd c t)) [] []).exc = none := hend
    unfold compareRecord at h1
    rw [if_neg (by simp [typeClash, tagOf])] at h1
    exact exc_forEach.1 h1 p (mem_propsOf (c := c) rfl |>.2 hp)
  have hab := about_property ho n c s t hn hend p hp
  have hfil : isFiltered o p ([] ++ [.str p.name]) = false := by
    have h := (isFiltered_compared hf (p := p) (fs := [] ++ [.str p.name])).2 hc
    cases hi : isFiltered o p ([] ++ [.str p.name]) with
    | false => rfl
    | true => rw [hi] at h; simp at h
  have hcp : compareProp H o (diffIter H o n) (some (.rcd c s)) (some (.rcd c t)) [] [] p =
      compareVals H o (diffIter H o n) va vb [.str p.name] [.str p.name] := by
    unfold compareProp
    rw [hfil]
    have ha' : H.normSlot (readSlot H (some (.rcd c s)) p.name) p (some (.rcd c s)) = .ok va := ha
    have hb' : H.normSlot (readSlot H (some (.rcd c t)) p.name) p (some (.rcd c t)) = .ok vb := hb
    rw [ha', hb']
    rfl
  have hnet : ∀ g : Gen, (net o [.str p.name] [.str p.name] g).exc = none →
      ∃ k, (net o [.str p.name] [.str p.name] g).out = [⟨k, [.str p.name], [.str p.name]⟩] := by
    intro g hg
    unfold net at hg ⊢
    split at hg
    · simp at hg
    · split at hg
      · exact ⟨.noChange, by simp [hu]⟩
      · rename_i t _
        exact ⟨t, rfl⟩
      · simp at hg
  rw [hab, hcp]
  rw [hcp] at he
  refine ⟨?_, ?_, ?_, ?_⟩
  · rintro x y rfl rfl ht
    unfold compareVals at he ⊢
    have hcond : ((comparable x || comparable y) && (decide (tagOf x = tagOf y) || o.duckType)) = false := by
      rw [hd, Bool.or_false]
      by_cases h : tagOf x = tagOf y
      · have h1 : tagOf x = none := ht.resolve_right (fun hne => hne h)
        have h2 : tagOf y = none := h ▸ h1
        simp [comparable, h1, h2]
      · simp [h]
    simp only [hcond, Bool.false_eq_true, if_false] at he ⊢
    obtain ⟨eq, h1, _⟩ := exc_bindE.1 he
    refine ⟨eq, h1, ?_⟩
    rw [h1, bindE_ok]
    cases eq <;> simp [hu]
  · rintro x rfl rfl
    unfold compareVals at he ⊢
    by_cases hcond : (comparable x && (o.duckType || o.ignoreEmptySlots)) = true
    · simp only [hcond, if_true] at he ⊢
      obtain ⟨k, hk⟩ := hnet _ he
      refine ⟨k, hk, fun h => ?_⟩
      rw [hd] at hcond
      simp only [Bool.false_or, Bool.and_eq_true, comparable] at hcond
      rcases h with h | h
      · simp [h] at hcond
      · simp [h] at hcond
    · simp only [hcond, Bool.false_eq_true, if_false]
      exact ⟨.removed, rfl, fun _ => rfl⟩
  · rintro y rfl rfl
    unfold compareVals at he ⊢
    by_cases hcond : (comparable y && (o.duckType || o.ignoreEmptySlots)) = true
    · simp only [hcond, if_true] at he ⊢
      obtain ⟨k, hk⟩ := hnet _ he
      refine ⟨k, hk, fun h => ?_⟩
      rw [hd] at hcond
      simp only [Bool.false_or, Bool.and_eq_true, comparable] at hcond
      rcases h with h | h
      · simp [h] at hcond
      · simp [h] at hcond
    · simp only [hcond, Bool.false_eq_true, if_false]
      exact ⟨.added, rfl, fun _ => rfl⟩
  · rintro x y rfl rfl h1 h2
    unfold compareVals
    have hcond : ((comparable x || comparable y) && (decide (tagOf x = tagOf y) || o.duckType)) = true := by
      have : (tagOf x).isSome = true := Option.isSome_iff_ne_none.2 h1
      simp [comparable, this, ← h2]
    simp only [hcond, if_true]

/-! ## Example -/

namespace Ex

example : ((schema.cls "Doc").props.map (·.name)).Nodup ∧
    (diff (hooks {}) { unchanged := true } 9 docA docB).exc = none ∧
    (diff (hooks {}) { unchanged := true } 9 docA docB).out.filter (about { name := "title" }) =
      [⟨.noChange, [.str "title"], [.str "title"]⟩] := by decide +kernel

end Ex

end Normalize.Diff
