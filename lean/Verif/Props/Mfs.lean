import Verif.Lemmas.Mfs2

/-!
# C13–C16: MultiFieldSelector as a set of paths
-/

namespace Normalize

open Spec Mfs

mutual
/-- `h` is the state of a `MultiFieldSelector` that was built, possibly through nested
`MultiFieldSelector` arguments, from the field selectors `qs`.  `ord` is the iteration order of the sets
used inside the constructor. -/
inductive Built (ord : List MArg → List MArg) : Heads → List FS → Prop
  | mk {args h qs} : ArgsBuilt ord args qs → Mfs.init ord args = .ok h → Built ord h qs
/-- The constructor arguments `args` stand for the field selectors `qs`. -/
inductive ArgsBuilt (ord : List MArg → List MArg) : List MArg → List FS → Prop
  | nil : ArgsBuilt ord [] []
  | fs {q args qs} : ArgsBuilt ord args qs → ArgsBuilt ord (.fs q :: args) (q :: qs)
  | mfs {h qs args qs'} : Built ord h qs → ArgsBuilt ord args qs' →
      ArgsBuilt ord (.mfs h :: args) (qs ++ qs')
end

theorem built_sound {ord : List MArg → List MArg} (ho : OrdOK ord) {h : Heads} {qs : List FS}
    (hb : Built ord h qs) :
    WF h ∧ (∀ p, containsPath h p = true ↔ ∃ q ∈ qs, Covers q p) ∧ (h = [] ↔ qs = []) := by
  refine Built.rec
    (motive_1 := fun h qs _ => WF h ∧ (∀ p, containsPath h p = true ↔ ∃ q ∈ qs, Covers q p) ∧
      (h = [] ↔ qs = []))
    (motive_2 := fun args qs _ => (∀ a ∈ args, ArgWF a) ∧
      (∀ p, (∃ a ∈ args, ArgCov a p) ↔ ∃ q ∈ qs, Covers q p) ∧ ((∃ a ∈ args, ArgNE a) ↔ qs ≠ []))
    ?_ ?_ ?_ ?_ hb
  · rintro args h qs _ hi ⟨hw, hc, hne⟩
    obtain ⟨w, hcov, hne'⟩ := buildN_sound ho _ _ _ hw hi
    refine ⟨w, fun p => (hcov p).trans (hc p), ?_⟩
    constructor
    · rintro rfl
      cases qs with
      | nil => rfl
      | cons q qs => exact absurd rfl (hne' (hne.2 (by simp)))
    · rintro rfl
      cases h with
      | nil => rfl
      | cons e es =>
        obtain ⟨p, hp⟩ := exists_contained w (by simp)
        have := (hcov p).1 hp
        rw [hc] at this
        simp at this
  · simp
  · rintro q args qs _ ⟨hw, hc, hne⟩
    refine ⟨?_, ?_, ?_⟩
    · intro a ha; simp at ha
      rcases ha with rfl | ha
      · trivial
      · exact hw a ha
    · intro p; simp [← hc p, ArgCov]
    · simp [ArgNE]
  · rintro h qs args qs' _ _ ⟨w, hcov, he⟩ ⟨hw, hc, hne⟩
    refine ⟨?_, ?_, ?_⟩
    · intro a ha; simp at ha
      rcases ha with rfl | ha
      · exact w
      · exact hw a ha
    · intro p
      simp only [List.mem_cons, List.mem_append, or_and_right, exists_or, exists_eq_left]
      rw [hc p]
      show containsPath h p = true ∨ _ ↔ _
      rw [hcov p]
    · simp only [List.mem_cons, exists_eq_or_imp, ArgNE, ne_eq, List.append_eq_nil_iff]
      constructor
      · rintro (h1 | h1)
        · rw [he] at h1; simp [h1]
        · have := hne.1 h1; simp [this]
      · intro h1
        by_cases h2 : qs = []
        · exact .inr (hne.2 (fun h3 => h1 ⟨h2, h3⟩))
        · exact .inl (fun h3 => h2 (he.1 h3))

/-! ## C13 -/

/-- C13: a path is in the MultiFieldSelector iff one of the selectors it was built from covers it. -/
theorem C13_contains {ord : List MArg → List MArg} (ho : OrdOK ord) {h : Heads} {qs : List FS}
    (hb : Built ord h qs) (p : FS) : containsPath h p = true ↔ ∃ q ∈ qs, Covers q p :=
  (built_sound ho hb).2.1 p

/-- C13: membership of a single component (`"a" in mfs`) asks whether anything at or below it is
covered; `any in mfs` and the truth value ask whether there is any selector at all. -/
theorem C13_contains_comp {ord : List MArg → List MArg} (ho : OrdOK ord) {h : Heads} {qs : List FS}
    (hb : Built ord h qs) (c : Comp) :
    (containsComp h c = true ↔ ∃ p, ∃ q ∈ qs, Covers q (c :: p)) ∧
    (nonEmpty h = true ↔ qs ≠ []) := by
  obtain ⟨w, hcov, hne⟩ := built_sound ho hb
  refine ⟨?_, ?_⟩
  · simp only [← hcov, containsPath_iff_entry w]
    unfold containsComp
    have witness : ∀ t, (∃ c', (c', t) ∈ h ∧ (c' = .none ∨ c' = c)) →
        ∃ p, ∃ e ∈ h, EntryCov (mfsEntry e) (c :: p) := by
      rintro t ⟨c', hm, hc⟩
      cases t with
      | all => exact ⟨[], _, hm, by simp [mfsEntry, EntryCov, TailCov, hc]⟩
      | node s =>
        obtain ⟨q, hq⟩ := exists_contained (w.sub _ _ hm) (w.nonempty _ _ hm)
        exact ⟨q, _, hm, by simp [mfsEntry, EntryCov, TailCov, ArgCov, hc, hq]⟩
    constructor
    · intro hc
      simp only [Bool.or_eq_true] at hc
      rcases hc with hn | hl
      · obtain ⟨t, hm⟩ := hasNone_iff.1 hn
        exact witness t ⟨_, hm, .inl rfl⟩
      · obtain ⟨t, ht⟩ := Option.isSome_iff_exists.1 hl
        exact witness t ⟨_, lookup_mem ht, .inr rfl⟩
    · rintro ⟨p, ⟨c', t⟩, hm, he⟩
      have : c' = .none ∨ c' = c := by
        cases t <;> (simp only [mfsEntry, EntryCov] at he; exact he.1)
      simp only [Bool.or_eq_true]
      rcases this with rfl | rfl
      · exact .inl (hasNone_iff.2 ⟨_, hm⟩)
      · rw [lookup_of_mem w.nodup hm]; exact .inr rfl
  · rw [ne_eq, ← hne]; unfold nonEmpty; cases h <;> simp

/-- Identity order: the sets are iterated in insertion order. -/
theorem ordOK_id : OrdOK id := fun _ _ => Iff.rfl

/-- A concrete MultiFieldSelector: `MultiFieldSelector(["a", "b"], ["a", "d"], ["c"], [7, None, "x"])`. -/
def exMfs : Heads :=
  [(.str "a", .node [(.str "b", .all), (.str "d", .all)]), (.str "c", .all),
   (.int 7, .node [(.none, .node [(.str "x", .all)])])]

def exPaths : List FS :=
  [[.str "a", .str "b"], [.str "a", .str "d"], [.str "c"], [.int 7, .none, .str "x"]]

theorem exMfs_built : Built id exMfs exPaths :=
  .mk (.fs (.fs (.fs (.fs .nil)))) rfl

example : containsPath exMfs [.int 7, .int 3, .str "x", .str "deeper"] = true ∧
    containsPath exMfs [.str "a"] = false ∧ containsComp exMfs (.str "a") = true := by decide

/-- Nested construction, in a different set order. -/
example : Built List.reverse
    [(.str "a", .node [(.str "b", .all), (.str "d", .all)]), (.str "z", .all)]
    ([[.str "a", .str "b"]] ++ [[.str "z"], [.str "a", .str "d"]]) :=
  .mk (args := [.mfs [(.str "a", .node [(.str "b", .all)])], .fs [.str "z"], .fs [.str "a", .str "d"]])
    (.mfs (.mk (.fs .nil) rfl) (.fs (.fs .nil))) rfl

/-! ## C14 -/

/-- C14: `mfs[p]` is the residual at `p`: a path `q` is in it iff `p + q` is in `mfs`. -/
theorem C14_getitem_residual {ord : List MArg → List MArg} (ho : OrdOK ord) {h h' : Heads} {qs : List FS}
    (hb : Built ord h qs) (p : FS) (hg : getPath h p = some h') (q : FS) :
    containsPath h' q = containsPath h (p ++ q) :=
  (getPath_some (built_sound ho hb).1 hg).2.2 q

/-- C14: for a non-empty MultiFieldSelector, `mfs[p]` is `None` iff nothing at or below `p` is covered. -/
theorem C14_getitem_none {ord : List MArg → List MArg} (ho : OrdOK ord) {h : Heads} {qs : List FS}
    (hb : Built ord h qs) (hne : qs ≠ []) (p : FS) :
    getPath h p = none ↔ ∀ r, ¬ ∃ q ∈ qs, Covers q (p ++ r) := by
  obtain ⟨w, hcov, he⟩ := built_sound ho hb
  simp only [← hcov]
  constructor
  · intro hg r; rw [getPath_none w hg r]; simp
  · intro hr
    cases hg : getPath h p with
    | none => rfl
    | some h' =>
      obtain ⟨w', hne', hq⟩ := getPath_some w hg
      obtain ⟨q, hc⟩ := exists_contained w' (hne' (fun e => hne (he.1 e)))
      rw [hq q] at hc
      exact absurd hc (hr q)

/-- C14: `p in mfs` iff `mfs[p]` is complete; subscripting with `p + q` is subscripting twice. -/
theorem C14_contains_iff_complete {ord : List MArg → List MArg} (ho : OrdOK ord) {h : Heads}
    {qs : List FS} (hb : Built ord h qs) (p q : FS) :
    (containsPath h p = true ↔ ∃ h', getPath h p = some h' ∧ complete h' = true) ∧
    getPath h (p ++ q) = (getPath h p).bind (fun h' => getPath h' q) := by
  obtain ⟨w, _, _⟩ := built_sound ho hb
  refine ⟨?_, getPath_append w p q⟩
  constructor
  · intro hc
    cases hg : getPath h p with
    | none =>
      have := getPath_none w hg []
      rw [List.append_nil, hc] at this; simp at this
    | some h' =>
      have := (getPath_some w hg).2.2 []
      rw [List.append_nil, hc] at this
      exact ⟨h', rfl, this⟩
  · rintro ⟨h', hg, hc⟩
    have := (getPath_some w hg).2.2 []
    rw [List.append_nil] at this
    rw [← this]; exact hc

/-- C14, for a single component: what the docstring says of `mfs["a"]`. -/
def C14_comp_statement : Prop :=
  ∀ (h : Heads) (qs : List FS), Built id h qs → qs ≠ [] → ∀ c,
    (getComp h c = none ↔ ∀ r, ¬ ∃ q ∈ qs, Covers q (c :: r))

/-- The code violates it: `MultiFieldSelector([None, "b"])["a"]` is `None` although `["a", "b"]` is covered
(and `mfs[("a",)]` is not `None`). -/
theorem C14_comp_violated : ¬ C14_comp_statement := by
  intro hs
  have hb : Built id [(.none, .node [(.str "b", .all)])] [[.none, .str "b"]] :=
    .mk (.fs .nil) rfl
  have := (hs _ _ hb (by simp) (.str "a")).1 rfl [.str "b"]
  apply this
  refine ⟨[.none, .str "b"], by simp, ?_⟩
  show Matches [.none, .str "b"] [.str "a", .str "b"]
  exact .wild _ (.same _ (.nil _))

/-- C14 for a single component (partial): it agrees with the path form unless the MultiFieldSelector has
a wildcard at this level.  Missing: wildcards (`C14_comp_violated`). -/
theorem C14_comp_partial (h : Heads) (c : Comp) (hn : hasNone h = false) :
    getComp h c = getPath h [c] := by
  have hc : complete h = false := by simp [complete, hn]
  simp only [getComp, getPath, hc, headKey, hn, Bool.false_eq_true, if_false]

example : getPath exMfs [.str "a"] = some [(.str "b", .all), (.str "d", .all)] ∧
    getPath exMfs [.str "x"] = none := ⟨rfl, rfl⟩

/-! ## C15 -/

/-- C15: rebuilding from the selectors that iteration yields (what `repr` prints) never raises, gives the
same membership, and each yielded selector is itself a member (apart from its own trailing wildcard). -/
theorem C15_iter_rebuild {ord : List MArg → List MArg} (ho : OrdOK ord) {h : Heads} {qs : List FS}
    (hb : Built ord h qs) (ord' : List MArg → List MArg) (ho' : OrdOK ord') :
    (∃ h', Mfs.init ord' ((iter h).map MArg.fs) = .ok h' ∧
      ∀ p, containsPath h' p = containsPath h p) ∧
    ∀ q ∈ iter h, containsPath h q = true := by
  obtain ⟨w, _, _⟩ := built_sound ho hb
  have hw : ∀ a ∈ (iter h).map MArg.fs, ArgWF a := by
    intro a ha; simp only [List.mem_map] at ha; obtain ⟨q, _, rfl⟩ := ha; trivial
  have hin : ∀ q, InPaths ((iter h).map MArg.fs) q ↔ q ∈ iter h := by
    intro q
    unfold InPaths
    constructor
    · rintro ⟨a, ha, hq⟩
      simp only [List.mem_map] at ha; obtain ⟨q', hq', rfl⟩ := ha
      cases q' with
      | nil => exact absurd hq' nil_not_mem_iter
      | cons c r => simp [argPaths, nonNil] at hq; subst hq; exact hq'
    · intro hq
      refine ⟨.fs q, List.mem_map.2 ⟨q, hq, rfl⟩, ?_⟩
      cases q with
      | nil => exact absurd hq nil_not_mem_iter
      | cons c r => simp [argPaths, nonNil]
  refine ⟨?_, ?_⟩
  · cases hi : Mfs.init ord' ((iter h).map MArg.fs) with
    | error e =>
      have := (buildN_error_iff ho' _ _ hw fuelFor_enough (by unfold fuelFor; omega) e).1 hi
      have hcl : ClashS (fun q => q ∈ iter h) := by
        have := this.2; unfold ClashS at this ⊢; simpa only [hin] using this
      exact absurd hcl (no_clash_iter w)
    | ok h' =>
      refine ⟨h', rfl, fun p => ?_⟩
      obtain ⟨_, hcov, _⟩ := buildN_sound ho' _ _ _ hw hi
      rw [Bool.eq_iff_iff, hcov p, ← iter_covers w p]
      constructor
      · rintro ⟨a, ha, hc⟩
        simp only [List.mem_map] at ha
        obtain ⟨q, hq, rfl⟩ := ha
        exact ⟨q, hq, hc⟩
      · rintro ⟨q, hq, hc⟩
        exact ⟨.fs q, List.mem_map.2 ⟨q, hq, rfl⟩, hc⟩
  · intro q hq
    rw [← iter_covers w]
    refine ⟨q, hq, ?_⟩
    unfold Covers core
    have refl : ∀ r : FS, Matches r r := fun r => by
      induction r with
      | nil => exact .nil _
      | cons c r ih => exact .same c ih
    split
    · rename_i hl
      have : ∀ r s : FS, Matches r (r ++ s) := fun r s => by
        induction r with
        | nil => exact .nil _
        | cons c r ih => exact .same c ih
      have h1 := this q.dropLast [.none]
      have h2 : q.dropLast ++ [Comp.none] = q := by
        have hne : q ≠ [] := by rintro rfl; simp at hl
        have := List.dropLast_concat_getLast hne
        rw [List.getLast?_eq_some_getLast hne] at hl
        simp at hl
        rwa [hl] at this
      rwa [h2] at h1
    · exact refl q

example : iter exMfs = exPaths := rfl

/-! ## C16 -/

/-- C16: construction from field selectors raises `ValueError` exactly when somewhere a wildcard meets a
named or indexed component, and never raises anything else. -/
theorem C16_raises_iff {ord : List MArg → List MArg} (ho : OrdOK ord) (qs : List FS) (e : Exc) :
    Mfs.init ord (qs.map MArg.fs) = .error e ↔ e = .valueError ∧ Clash qs := by
  have hw : ∀ a ∈ qs.map MArg.fs, ArgWF a := by
    intro a ha; simp only [List.mem_map] at ha; obtain ⟨q, _, rfl⟩ := ha; trivial
  unfold Mfs.init
  rw [buildN_error_iff ho _ _ hw fuelFor_enough (by unfold fuelFor; omega) e]
  have hin : ∀ q, InPaths (qs.map MArg.fs) q ↔ q ∈ qs.map nonNil := by
    intro q
    constructor
    · rintro ⟨a, ha, hq⟩
      simp only [List.mem_map] at ha
      obtain ⟨q', hq', rfl⟩ := ha
      simp [argPaths] at hq
      exact List.mem_map.2 ⟨q', hq', hq.symm⟩
    · intro hq
      simp only [List.mem_map] at hq
      obtain ⟨q', hq', rfl⟩ := hq
      exact ⟨.fs q', List.mem_map.2 ⟨q', hq', rfl⟩, by simp [argPaths]⟩
  unfold ClashS Clash
  simp only [hin]

/-- C16: the order and repetition of the arguments (and the set order used inside) do not matter: either
both constructions raise, or both succeed with the same members. -/
theorem C16_order_irrelevant {ord ord' : List MArg → List MArg} (ho : OrdOK ord) (ho' : OrdOK ord')
    (qs qs' : List FS) (hsame : ∀ q, q ∈ qs ↔ q ∈ qs') :
    (∃ e, Mfs.init ord (qs.map MArg.fs) = .error e ∧ Mfs.init ord' (qs'.map MArg.fs) = .error e) ∨
    (∃ h h', Mfs.init ord (qs.map MArg.fs) = .ok h ∧ Mfs.init ord' (qs'.map MArg.fs) = .ok h' ∧
      ∀ p, containsPath h p = containsPath h' p) := by
  have hcl : Clash qs ↔ Clash qs' := by
    have : ∀ q, q ∈ qs.map nonNil ↔ q ∈ qs'.map nonNil := by
      intro q; simp only [List.mem_map, hsame]
    unfold Clash; simp only [this]
  have hb : ∀ qs : List FS, ∀ ord, ArgsBuilt ord (qs.map MArg.fs) qs := by
    intro qs ord
    induction qs with
    | nil => exact .nil
    | cons q qs ih => exact .fs ih
  cases h1 : Mfs.init ord (qs.map MArg.fs) with
  | error e =>
    obtain ⟨rfl, hc⟩ := (C16_raises_iff ho qs e).1 h1
    exact .inl ⟨_, rfl, (C16_raises_iff ho' qs' _).2 ⟨rfl, hcl.1 hc⟩⟩
  | ok h =>
    cases h2 : Mfs.init ord' (qs'.map MArg.fs) with
    | error e =>
      obtain ⟨rfl, hc⟩ := (C16_raises_iff ho' qs' e).1 h2
      have := (C16_raises_iff ho qs _).2 ⟨rfl, hcl.2 hc⟩
      rw [h1] at this; simp at this
    | ok h' =>
      refine .inr ⟨h, h', rfl, rfl, fun p => ?_⟩
      rw [Bool.eq_iff_iff, C13_contains ho (.mk (hb qs ord) h1), C13_contains ho' (.mk (hb qs' ord') h2)]
      simp only [hsame]

/-- C16: combining MultiFieldSelectors gives the union of their members. -/
theorem C16_union {ord : List MArg → List MArg} (ho : OrdOK ord) {h₁ h₂ h : Heads} {qs₁ qs₂ : List FS}
    (hb₁ : Built ord h₁ qs₁) (hb₂ : Built ord h₂ qs₂)
    (hi : Mfs.init ord [.mfs h₁, .mfs h₂] = .ok h) (p : FS) :
    containsPath h p = (containsPath h₁ p || containsPath h₂ p) := by
  have hb : Built ord h (qs₁ ++ (qs₂ ++ [])) := .mk (.mfs hb₁ (.mfs hb₂ .nil)) hi
  rw [Bool.eq_iff_iff, Bool.or_eq_true, C13_contains ho hb, C13_contains ho hb₁, C13_contains ho hb₂]
  simp only [List.append_nil, List.mem_append, or_and_right, exists_or]

example : Mfs.init id [.fs [.str "a", .none], .fs [.str "a", .str "b"]] = .error .valueError ∧
    (∃ h, Mfs.init id [.mfs exMfs, .mfs [(.str "c", .node [(.str "z", .all)])]] = .ok h) :=
  ⟨rfl, _, rfl⟩

end Normalize
