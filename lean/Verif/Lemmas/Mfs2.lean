import Verif.Lemmas.Mfs

/-!
# More lemmas about MultiFieldSelector: subscripting, iteration, when construction raises
-/

namespace Normalize.Mfs

open Spec

/-! ## subscripting -/

theorem wf_completeHeads : WF completeHeads := by
  refine .mk _ ?_ ?_ ?_ ?_
  · simp [completeHeads]
  · intro _; exact ⟨.all, rfl⟩
  · intro c s h; simp [completeHeads] at h
  · intro c s h; simp [completeHeads] at h

theorem containsPath_cons {h : Heads} (hnc : complete h = false) (c : Comp) (p : FS) :
    containsPath h (c :: p) = match lookup h (headKey h c) with
      | none => false
      | some .all => true
      | some (.node s) => containsPath s p := by
  simp only [containsPath, getComp, hnc]
  cases hl : lookup h (headKey h c) with
  | none => simp
  | some t => cases t <;> simp [completeHeads_contains]

theorem getPath_some {h h' : Heads} (w : WF h) {p : FS} (e : getPath h p = some h') :
    WF h' ∧ (h ≠ [] → h' ≠ []) ∧ ∀ q, containsPath h' q = containsPath h (p ++ q) := by
  induction p generalizing h with
  | nil => simp [getPath] at e; subst e; exact ⟨w, id, fun _ => rfl⟩
  | cons c p ih =>
    unfold getPath at e
    split at e
    · rename_i hc
      simp at e; subst e
      have := w.complete_iff.1 hc
      subst this
      exact ⟨w, id, fun q => by rw [completeHeads_contains, completeHeads_contains]⟩
    · rename_i hc
      simp at hc
      split at e
      · simp at e
      · rename_i hl
        simp at e; subst e
        refine ⟨wf_completeHeads, fun _ => by simp [completeHeads], fun q => ?_⟩
        rw [completeHeads_contains, List.cons_append, containsPath_cons hc, hl]
      · rename_i s hl
        have hm := lookup_mem hl
        obtain ⟨w', hne, hq⟩ := ih (w.sub _ _ hm) e
        refine ⟨w', fun _ => hne (w.nonempty _ _ hm), fun q => ?_⟩
        rw [hq q, List.cons_append, containsPath_cons hc, hl]

theorem getPath_none {h : Heads} (w : WF h) {p : FS} (e : getPath h p = none) :
    ∀ q, containsPath h (p ++ q) = false := by
  induction p generalizing h with
  | nil => simp [getPath] at e
  | cons c p ih =>
    unfold getPath at e
    split at e
    · simp at e
    · rename_i hc
      simp at hc
      intro q
      rw [List.cons_append, containsPath_cons hc]
      split at e
      · rename_i hl; rw [hl]
      · simp at e
      · rename_i s hl
        rw [hl]
        exact ih (w.sub _ _ (lookup_mem hl)) e q

theorem exists_contained {h : Heads} (w : WF h) (hne : h ≠ []) : ∃ q, containsPath h q = true := by
  induction w with
  | mk h nodup single nonempty sub ih =>
    cases h with
    | nil => exact absurd rfl hne
    | cons e es =>
      obtain ⟨c, t⟩ := e
      have w' : WF ((c, t) :: es) := .mk _ nodup single nonempty sub
      cases t with
      | all =>
        refine ⟨[c], (containsPath_iff_entry w' _).2 ⟨(c, .all), by simp, ?_⟩⟩
        simp [mfsEntry, EntryCov, TailCov]
      | node s =>
        obtain ⟨q, hq⟩ := ih c s (by simp) (nonempty c s (by simp))
        refine ⟨c :: q, (containsPath_iff_entry w' _).2 ⟨(c, .node s), by simp, ?_⟩⟩
        simp [mfsEntry, EntryCov, TailCov, ArgCov, hq]

theorem getPath_complete (p : FS) : getPath completeHeads p = some completeHeads := by
  cases p <;> rfl

theorem getPath_append {h : Heads} (w : WF h) (p q : FS) :
    getPath h (p ++ q) = (getPath h p).bind (fun h' => getPath h' q) := by
  induction p generalizing h with
  | nil => rfl
  | cons c p ih =>
    rw [List.cons_append]
    have key : ∀ r, getPath h (c :: r) = if complete h then some h
        else match lookup h (headKey h c) with
          | none => none
          | some .all => some completeHeads
          | some (.node s) => getPath s r := fun r => rfl
    rw [key, key]
    split
    · rename_i hc
      have := w.complete_iff.1 hc
      subst this
      simp only [Option.bind_some]
      exact (getPath_complete q).symm
    · split
      · rfl
      · simp only [Option.bind_some]
        exact (getPath_complete q).symm
      · rename_i s hl
        exact ih (w.sub _ _ (lookup_mem hl))

/-! ## iteration -/

theorem mem_iter {h : Heads} {q : FS} : q ∈ iter h ↔ ∃ c t, (c, t) ∈ h ∧ q ∈ iterT c t := by
  induction h with
  | nil => simp [iter]
  | cons e es ih =>
    obtain ⟨c, t⟩ := e
    simp only [iter, List.mem_append, ih, List.mem_cons]
    constructor
    · rintro (hq | ⟨c', t', hm, hq⟩)
      · exact ⟨c, t, .inl rfl, hq⟩
      · exact ⟨c', t', .inr hm, hq⟩
    · rintro ⟨c', t', hm | hm, hq⟩
      · simp at hm; obtain ⟨rfl, rfl⟩ := hm; exact .inl hq
      · exact .inr ⟨c', t', hm, hq⟩

theorem mem_iterT {c : Comp} {t : MTree} {q : FS} :
    q ∈ iterT c t ↔ (t = .all ∧ q = [c]) ∨ ∃ s x, t = .node s ∧ x ∈ iter s ∧ q = c :: x := by
  cases t with
  | all => simp [iterT]
  | node s =>
    simp only [iterT, List.mem_map, FS.add]
    constructor
    · rintro ⟨x, hx, rfl⟩; exact .inr ⟨s, x, rfl, hx, rfl⟩
    · rintro (⟨e, _⟩ | ⟨s', x, e, hx, rfl⟩)
      · simp at e
      · simp at e; subst e; exact ⟨x, hx, rfl⟩

theorem nil_not_mem_iter {h : Heads} : [] ∉ iter h := by
  intro hm
  obtain ⟨c, t, _, hq⟩ := mem_iter.1 hm
  rcases mem_iterT.1 hq with ⟨_, e⟩ | ⟨_, _, _, _, e⟩ <;> simp at e

theorem single_mem_iter {h : Heads} {c : Comp} : [c] ∈ iter h ↔ (c, MTree.all) ∈ h := by
  rw [mem_iter]
  constructor
  · rintro ⟨c', t, hm, hq⟩
    rcases mem_iterT.1 hq with ⟨rfl, e⟩ | ⟨s, x, rfl, hx, e⟩
    · simp at e; subst e; exact hm
    · simp at e; rw [e.2] at hx; exact absurd hx nil_not_mem_iter
  · intro hm; exact ⟨c, .all, hm, by simp [iterT]⟩

theorem cons_mem_iter {h : Heads} {c d : Comp} {r : FS} :
    c :: d :: r ∈ iter h ↔ ∃ s, (c, MTree.node s) ∈ h ∧ d :: r ∈ iter s := by
  rw [mem_iter]
  constructor
  · rintro ⟨c', t, hm, hq⟩
    rcases mem_iterT.1 hq with ⟨rfl, e⟩ | ⟨s, x, rfl, hx, e⟩
    · simp at e
    · simp at e; obtain ⟨rfl, rfl⟩ := e; exact ⟨s, hm, hx⟩
  · rintro ⟨s, hm, hx⟩; exact ⟨c, _, hm, mem_iterT.2 (.inr ⟨s, _, rfl, hx, rfl⟩)⟩

theorem iter_ne_nil {h : Heads} (w : WF h) (hne : h ≠ []) : ∃ q, q ∈ iter h := by
  induction w with
  | mk h nodup single nonempty sub ih =>
    cases h with
    | nil => exact absurd rfl hne
    | cons e es =>
      obtain ⟨c, t⟩ := e
      cases t with
      | all => exact ⟨[c], by simp [iter, iterT]⟩
      | node s =>
        obtain ⟨q, hq⟩ := ih c s (by simp) (nonempty c s (by simp))
        exact ⟨c :: q, mem_iter.2 ⟨c, _, by simp, mem_iterT.2 (.inr ⟨s, q, rfl, hq, rfl⟩)⟩⟩

theorem iter_covers {h : Heads} (w : WF h) (p : FS) :
    (∃ q ∈ iter h, Covers q p) ↔ containsPath h p = true := by
  induction w generalizing p with
  | mk h nodup single nonempty sub ih =>
    rw [containsPath_iff_entry (.mk h nodup single nonempty sub)]
    constructor
    · rintro ⟨q, hq, hc⟩
      obtain ⟨c, t, hm, hq⟩ := mem_iter.1 hq
      refine ⟨(c, t), hm, ?_⟩
      rw [covers_iff_entry] at hc
      rcases mem_iterT.1 hq with ⟨rfl, rfl⟩ | ⟨s, x, rfl, hx, rfl⟩
      · exact hc
      · cases x with
        | nil => exact absurd hx nil_not_mem_iter
        | cons d r =>
          cases p with
          | nil => simp [fsEntry, EntryCov] at hc
          | cons e p =>
            simp only [fsEntry, EntryCov, TailCov, ArgCov] at hc
            simp only [mfsEntry, EntryCov, TailCov, ArgCov]
            exact ⟨hc.1, (ih c s hm p).1 ⟨_, hx, hc.2⟩⟩
    · rintro ⟨⟨c, t⟩, hm, he⟩
      cases t with
      | all => exact ⟨[c], single_mem_iter.2 hm, (covers_iff_entry _ _).2 he⟩
      | node s =>
        cases p with
        | nil => simp [mfsEntry, EntryCov] at he
        | cons e p =>
          simp only [mfsEntry, EntryCov, TailCov, ArgCov] at he
          obtain ⟨x, hx, hxc⟩ := (ih c s hm p).2 he.2
          cases x with
          | nil => exact absurd hx nil_not_mem_iter
          | cons d r =>
            refine ⟨c :: d :: r, cons_mem_iter.2 ⟨s, hm, hx⟩, ?_⟩
            rw [covers_iff_entry]
            simp only [fsEntry, EntryCov, TailCov, ArgCov]
            exact ⟨he.1, hxc⟩

/-! ## when construction raises -/

/-- The selectors an argument stands for. -/
def argPaths : MArg → List FS
  | .fs q => [nonNil q]
  | .mfs h => iter h

/-- `q` is one of the selectors of the arguments. -/
def InPaths (args : List MArg) (q : FS) : Prop := ∃ a ∈ args, q ∈ argPaths a

/-- `Spec.Clash` over a membership predicate. -/
def ClashS (S : FS → Prop) : Prop :=
  ∃ w c r₁ r₂, S (w ++ .none :: r₁) ∧ S (w ++ c :: r₂) ∧ c ≠ .none ∧
    ∀ w₁ w₂, w = w₁ ++ w₂ → w₁ ≠ [] → ¬ S w₁

theorem inPaths_nil {args : List MArg} : ¬ InPaths args [] := by
  rintro ⟨a, ha, hq⟩
  cases a with
  | fs q => cases q <;> simp [argPaths, nonNil] at hq
  | mfs h => exact nil_not_mem_iter hq

theorem inPaths_single {args : List MArg} {c : Comp} : InPaths args [c] ↔ (c, Tail.all) ∈ entries args := by
  rw [mem_entries]
  constructor
  · rintro ⟨a, ha, hq⟩
    cases a with
    | fs q =>
      refine .inl ⟨q, ha, ?_⟩
      match q, hq with
      | [], hq => simp [argPaths, nonNil] at hq; subst hq; rfl
      | [d], hq => simp [argPaths, nonNil] at hq; subst hq; rfl
      | _ :: _ :: _, hq => simp [argPaths, nonNil] at hq
    | mfs h => exact .inr ⟨h, ha, _, single_mem_iter.1 hq, rfl⟩
  · rintro (⟨q, hq, e⟩ | ⟨h, hh, ⟨c', t⟩, hx, e⟩)
    · refine ⟨_, hq, ?_⟩
      match q, e with
      | [], e => simp [fsEntry] at e; subst e; simp [argPaths, nonNil]
      | [d], e => simp [fsEntry] at e; subst e; simp [argPaths, nonNil]
      | _ :: _ :: _, e => simp [fsEntry] at e
    · refine ⟨_, hh, ?_⟩
      cases t with
      | all => simp [mfsEntry] at e; subst e; exact single_mem_iter.2 hx
      | node s => simp [mfsEntry] at e

theorem inPaths_cons {args : List MArg} {c d : Comp} {r : FS} :
    InPaths args (c :: d :: r) ↔ ∃ a, (c, Tail.arg a) ∈ entries args ∧ d :: r ∈ argPaths a := by
  constructor
  · rintro ⟨a, ha, hq⟩
    cases a with
    | fs q =>
      match q, hq with
      | [], hq => simp [argPaths, nonNil] at hq
      | [_], hq => simp [argPaths, nonNil] at hq
      | c' :: d' :: r', hq =>
        simp [argPaths, nonNil] at hq
        obtain ⟨rfl, rfl, rfl⟩ := hq
        exact ⟨.fs (d :: r), mem_entries.2 (.inl ⟨_, ha, rfl⟩), by simp [argPaths, nonNil]⟩
    | mfs h =>
      obtain ⟨s, hm, hx⟩ := cons_mem_iter.1 hq
      exact ⟨.mfs s, mem_entries.2 (.inr ⟨h, ha, _, hm, rfl⟩), hx⟩
  · rintro ⟨a, he, hq⟩
    rcases mem_entries.1 he with ⟨q, hq', e⟩ | ⟨h, hh, ⟨c', t⟩, hx, e⟩
    · match q, e with
      | [], e => simp [fsEntry] at e
      | [_], e => simp [fsEntry] at e
      | c' :: d' :: r', e =>
        simp [fsEntry] at e
        obtain ⟨rfl, rfl⟩ := e
        simp [argPaths, nonNil] at hq
        obtain ⟨rfl, rfl⟩ := hq
        exact ⟨_, hq', by simp [argPaths, nonNil]⟩
    · cases t with
      | all => simp [mfsEntry] at e
      | node s =>
        simp [mfsEntry] at e
        obtain ⟨rfl, rfl⟩ := e
        exact ⟨_, hh, cons_mem_iter.2 ⟨s, hx, hq⟩⟩

theorem argPaths_ne {a : MArg} (hw : ArgWF a) (hne : ArgNE a) : ∃ d r, d :: r ∈ argPaths a := by
  cases a with
  | fs q => cases q with
    | nil => exact ⟨.none, [], by simp [argPaths, nonNil]⟩
    | cons d r => exact ⟨d, r, by simp [argPaths, nonNil]⟩
  | mfs h =>
    obtain ⟨q, hq⟩ := iter_ne_nil hw hne
    cases q with
    | nil => exact absurd hq nil_not_mem_iter
    | cons d r => exact ⟨d, r, hq⟩

theorem head_iff {args : List MArg} (hw : ∀ a ∈ args, ArgWF a) {c : Comp} :
    c ∈ headKeys (entries args) ↔ ∃ r, InPaths args (c :: r) := by
  rw [mem_headKeys]
  constructor
  · rintro ⟨t, he⟩
    cases t with
    | all => exact ⟨[], inPaths_single.2 he⟩
    | arg a =>
      obtain ⟨h1, h2⟩ := entry_arg_good hw he
      obtain ⟨d, r, hd⟩ := argPaths_ne h1 h2
      exact ⟨d :: r, inPaths_cons.2 ⟨a, he, hd⟩⟩
  · rintro ⟨r, hr⟩
    cases r with
    | nil => exact ⟨_, inPaths_single.1 hr⟩
    | cons d r => obtain ⟨a, he, _⟩ := inPaths_cons.1 hr; exact ⟨_, he⟩

theorem depth_le_of_mem {h : Heads} {c : Comp} {t : MTree} (hm : (c, t) ∈ h) : depth t ≤ depthL h := by
  induction h with
  | nil => simp at hm
  | cons e es ih =>
    obtain ⟨c', t'⟩ := e
    simp only [depthL]
    simp at hm
    rcases hm with ⟨rfl, rfl⟩ | hm
    · omega
    · have := ih hm; omega

theorem entry_depth {args : List MArg} {c : Comp} {a : MArg} (he : (c, Tail.arg a) ∈ entries args) :
    ∃ b ∈ args, argDepth a < argDepth b := by
  rcases mem_entries.1 he with ⟨q, hq, e⟩ | ⟨h, hh, ⟨c', t⟩, hx, e⟩
  · match q, e with
    | [], e => simp [fsEntry] at e
    | [_], e => simp [fsEntry] at e
    | _ :: d :: r, e =>
      simp [fsEntry] at e
      rw [e.2]
      exact ⟨_, hq, by simp [argDepth]⟩
  · cases t with
    | all => simp [mfsEntry] at e
    | node s =>
      simp [mfsEntry] at e
      rw [e.2]
      refine ⟨_, hh, ?_⟩
      have := depth_le_of_mem hx
      simp only [depth] at this
      simp only [argDepth]; omega

theorem fuelFor_enough {args : List MArg} : ∀ a ∈ args, argDepth a < fuelFor args := by
  unfold fuelFor
  induction args with
  | nil => simp
  | cons b bs ih =>
    intro a ha
    simp only [List.foldr_cons]
    simp at ha
    rcases ha with rfl | ha
    · omega
    · have := ih a ha; omega

theorem hasNone_of_key {h : Heads} (hk : Comp.none ∈ h.map (·.1)) : hasNone h = true := by
  simp only [List.mem_map] at hk
  obtain ⟨⟨c, t⟩, hm, rfl⟩ := hk
  exact hasNone_iff.2 ⟨t, hm⟩

/-- Construction raises exactly on a clash, and always `ValueError`. -/
theorem buildN_error_iff {ord : List MArg → List MArg} (ho : OrdOK ord) (n : Nat) (args : List MArg)
    (hw : ∀ a ∈ args, ArgWF a) (hd : ∀ a ∈ args, argDepth a < n) (hn : 0 < n) (e : Exc) :
    buildN ord n args = .error e ↔ e = .valueError ∧ ClashS (InPaths args) := by
  induction n generalizing args e with
  | zero => omega
  | succ n ih =>
    -- facts about one head
    have sub : ∀ c, anyAll (tailsOf (entries args) c) = false → c ∈ headKeys (entries args) →
        ∀ e, buildN ord n (ord (tailArgs (tailsOf (entries args) c))) = .error e ↔
          e = .valueError ∧ ClashS (fun q => q ≠ [] ∧ InPaths args (c :: q)) := by
      intro c hna hc e
      have hmem : ∀ a, a ∈ ord (tailArgs (tailsOf (entries args) c)) ↔ (c, Tail.arg a) ∈ entries args := by
        intro a; rw [ho, mem_tailArgs, mem_tailsOf]
      have hS : ∀ q, InPaths (ord (tailArgs (tailsOf (entries args) c))) q ↔ q ≠ [] ∧ InPaths args (c :: q) := by
        intro q
        cases q with
        | nil => simp [inPaths_nil]
        | cons d r =>
          rw [inPaths_cons]
          constructor
          · rintro ⟨a, ha, hq⟩; exact ⟨by simp, a, (hmem a).1 ha, hq⟩
          · rintro ⟨_, a, ha, hq⟩; exact ⟨a, (hmem a).2 ha, hq⟩
      have hpos : 0 < n := by
        obtain ⟨t, ht⟩ := mem_headKeys.1 hc
        cases t with
        | all =>
          have := anyAll_iff.2 (mem_tailsOf.2 ht)
          simp [hna] at this
        | arg a =>
          obtain ⟨b, hb, hlt⟩ := entry_depth ht
          have := hd b hb
          omega
      rw [ih _ (fun a ha => (entry_arg_good hw ((hmem a).1 ha)).1)
        (fun a ha => by
          obtain ⟨b, hb, hlt⟩ := entry_depth ((hmem a).1 ha)
          have := hd b hb
          omega) hpos e]
      have : ClashS (InPaths (ord (tailArgs (tailsOf (entries args) c)))) ↔
          ClashS (fun q => q ≠ [] ∧ InPaths args (c :: q)) := by
        unfold ClashS; simp only [hS]
      rw [this]
    -- the two directions
    have hup : ∀ c, anyAll (tailsOf (entries args) c) = false →
        ClashS (fun q => q ≠ [] ∧ InPaths args (c :: q)) → ClashS (InPaths args) := by
      rintro c hna ⟨w, d, r₁, r₂, h1, h2, h3, h4⟩
      refine ⟨c :: w, d, r₁, r₂, h1.2, h2.2, h3, ?_⟩
      intro w₁ w₂ hw12 hne hin
      cases w₁ with
      | nil => exact hne rfl
      | cons x w₁ =>
        simp at hw12
        obtain ⟨rfl, hw12⟩ := hw12
        cases w₁ with
        | nil =>
          have := anyAll_iff.2 (mem_tailsOf.2 (inPaths_single.1 hin))
          simp [hna] at this
        | cons y w₁ => exact h4 _ _ hw12 (by simp) ⟨by simp, hin⟩
    simp only [buildN]
    constructor
    · intro hb
      split at hb
      · rename_i e' hm
        simp at hb; subst hb
        obtain ⟨c, hc, hf⟩ := mapE_error hm
        split at hf
        · simp at hf
        · rename_i hna
          simp at hna
          split at hf
          · simp at hf
          · rename_i e'' hs
            simp at hf; subst hf
            obtain ⟨h1, h2⟩ := (sub c hna hc _).1 hs
            exact ⟨h1, hup c hna h2⟩
      · rename_i h hm
        split at hb
        · simp at hb
        · rename_i hs
          simp at hb
          refine ⟨hb.symm, ?_⟩
          have hk : h.map (·.1) = headKeys (entries args) := by
            have := mapE_map_eq (g := (·.1)) (g' := id) hm ?_
            · simpa using this
            · intro a b hab
              split at hab
              · simp at hab; subst hab; rfl
              · split at hab
                · simp at hab; subst hab; rfl
                · simp at hab
          rw [sane_iff] at hs
          simp only [Classical.not_imp, Classical.not_forall] at hs
          obtain ⟨hnone, ⟨c, t⟩, hm', hc⟩ := hs
          obtain ⟨t0, hm0⟩ := hasNone_iff.1 hnone
          have h1 : Comp.none ∈ headKeys (entries args) := by
            rw [← hk]; exact List.mem_map.2 ⟨_, hm0, rfl⟩
          have h2 : c ∈ headKeys (entries args) := by
            rw [← hk]; exact List.mem_map.2 ⟨_, hm', rfl⟩
          obtain ⟨r₁, hr1⟩ := (head_iff hw).1 h1
          obtain ⟨r₂, hr2⟩ := (head_iff hw).1 h2
          refine ⟨[], c, r₁, r₂, hr1, hr2, hc, ?_⟩
          intro w₁ w₂ h12 hne
          simp at h12
          exact absurd h12.1 hne
    · rintro ⟨rfl, w, c, r₁, r₂, h1, h2, h3, h4⟩
      split
      · -- some head raised: it is a ValueError
        rename_i e' hm
        obtain ⟨c, hc, hf⟩ := mapE_error hm
        split at hf
        · simp at hf
        · rename_i hna
          simp at hna
          split at hf
          · simp at hf
          · rename_i e'' hs
            simp at hf; subst hf
            rw [((sub c hna hc _).1 hs).1]
      · rename_i h hm
        have hk : h.map (·.1) = headKeys (entries args) := by
          have := mapE_map_eq (g := (·.1)) (g' := id) hm ?_
          · simpa using this
          · intro a b hab
            split at hab
            · simp at hab; subst hab; rfl
            · split at hab
              · simp at hab; subst hab; rfl
              · simp at hab
        cases w with
        | nil =>
          have k1 : Comp.none ∈ h.map (·.1) := by rw [hk]; exact (head_iff hw).2 ⟨r₁, h1⟩
          have k2 : c ∈ h.map (·.1) := by rw [hk]; exact (head_iff hw).2 ⟨r₂, h2⟩
          rw [if_neg]
          intro hs
          simp only [List.mem_map] at k2
          obtain ⟨e2, he2, rfl⟩ := k2
          exact h3 (sane_iff.1 hs (hasNone_of_key k1) e2 he2)
        | cons x w =>
          exfalso
          have hna : anyAll (tailsOf (entries args) x) = false := by
            cases ha : anyAll (tailsOf (entries args) x) with
            | false => rfl
            | true =>
              exact absurd (inPaths_single.2 (mem_tailsOf.1 (anyAll_iff.1 ha))) (h4 [x] w (by simp) (by simp))
          have hx : x ∈ headKeys (entries args) := (head_iff hw).2 ⟨_, h1⟩
          have hcl : ClashS (fun q => q ≠ [] ∧ InPaths args (x :: q)) := by
            refine ⟨w, c, r₁, r₂, ⟨by simp, h1⟩, ⟨by simp, h2⟩, h3, ?_⟩
            rintro w₁ w₂ h12 hne ⟨_, hin⟩
            exact h4 (x :: w₁) w₂ (by simp [h12]) (by simp) hin
          have herr := (sub x hna hx .valueError).2 ⟨rfl, hcl⟩
          obtain ⟨b, _, hf⟩ := mapE_ok_left hm x hx
          rw [if_neg (by simp [hna]), herr] at hf
          simp at hf

theorem no_clash_iter {h : Heads} (w : WF h) : ¬ ClashS (fun q => q ∈ iter h) := by
  rintro ⟨u, c, r₁, r₂, h1, h2, h3, h4⟩
  induction u generalizing h with
  | nil =>
    obtain ⟨c1, t1, hm1, hq1⟩ := mem_iter.1 h1
    obtain ⟨c2, t2, hm2, hq2⟩ := mem_iter.1 h2
    have e1 : c1 = .none := by
      rcases mem_iterT.1 hq1 with ⟨_, e⟩ | ⟨_, _, _, _, e⟩ <;> (simp at e; exact e.1.symm)
    have e2 : c2 = c := by
      rcases mem_iterT.1 hq2 with ⟨_, e⟩ | ⟨_, _, _, _, e⟩ <;> (simp at e; exact e.1.symm)
    subst e1; subst e2
    obtain ⟨t, rfl⟩ := w.single (hasNone_iff.2 ⟨_, hm1⟩)
    simp at hm2
    exact h3 hm2.1
  | cons x u ih =>
    have get : ∀ y r, x :: (u ++ y :: r) ∈ iter h → ∃ s, (x, MTree.node s) ∈ h ∧ u ++ y :: r ∈ iter s := by
      intro y r hm
      cases hu : u ++ y :: r with
      | nil => simp at hu
      | cons d q => rw [hu] at hm; exact cons_mem_iter.1 hm
    obtain ⟨s, hs, hq1⟩ := get _ _ h1
    obtain ⟨s', hs', hq2⟩ := get _ _ h2
    have : s' = s := by
      have a := lookup_of_mem w.nodup hs
      have b := lookup_of_mem w.nodup hs'
      rw [a] at b; simp at b; exact b.symm
    subst this
    refine ih (w.sub _ _ hs) hq1 hq2 ?_
    intro w₁ w₂ h12 hne hin
    cases w₁ with
    | nil => exact hne rfl
    | cons d w₁ =>
      exact h4 (x :: d :: w₁) w₂ (by simp [h12]) (by simp) (cons_mem_iter.2 ⟨_, hs, hin⟩)

end Normalize.Mfs
