import Verif.Model.Mfs
import Verif.Spec.Mfs

/-!
# Helper lemmas about MultiFieldSelector
-/

namespace Normalize.Mfs

open Spec

/-! ## lookup and flags -/

theorem lookup_mem {h : Heads} {c : Comp} {t : MTree} (e : lookup h c = some t) : (c, t) ∈ h := by
  unfold lookup at e
  simp only [Option.map_eq_some_iff] at e
  obtain ⟨a, ha, rfl⟩ := e
  have h1 := List.mem_of_find?_eq_some ha
  have h2 := List.find?_some ha
  simp at h2
  subst h2
  exact h1

theorem lookup_none {h : Heads} {c : Comp} (e : lookup h c = none) : ∀ t, (c, t) ∉ h := by
  unfold lookup at e
  simp only [Option.map_eq_none_iff, List.find?_eq_none] at e
  intro t ht
  have := e _ ht
  simp at this

theorem lookup_of_mem {h : Heads} {c : Comp} {t : MTree} (hn : (h.map (·.1)).Nodup) (hm : (c, t) ∈ h) :
    lookup h c = some t := by
  induction h with
  | nil => simp at hm
  | cons e es ih =>
    simp at hm hn
    unfold lookup
    by_cases hc : e.1 = c
    · simp only [List.find?_cons, hc, decide_true, Option.map_some]
      rcases hm with rfl | hm
      · rfl
      · exact absurd hm (by rw [← hc]; exact fun hm => hn.1 _ hm)
    · simp only [List.find?_cons, hc, decide_false]
      rcases hm with rfl | hm
      · simp at hc
      · exact ih hn.2 hm

theorem hasNone_iff {h : Heads} : hasNone h = true ↔ ∃ t, (Comp.none, t) ∈ h := by
  unfold hasNone
  rw [List.any_eq_true]
  constructor
  · rintro ⟨⟨c, t⟩, hm, hc⟩
    cases c <;> simp at hc
    exact ⟨t, hm⟩
  · rintro ⟨t, hm⟩
    exact ⟨_, hm, rfl⟩

theorem not_hasNone_mem {h : Heads} (hn : hasNone h = false) {c : Comp} {t : MTree} (hm : (c, t) ∈ h) :
    c ≠ .none := by
  rintro rfl
  have := hasNone_iff.2 ⟨t, hm⟩
  simp [hn] at this

theorem getComp_isSome {h : Heads} {c : Comp} (e : (lookup h c).isSome) : (getComp h c).isSome := by
  unfold getComp
  split
  · rfl
  · split <;> simp_all

/-- Well-formed `heads`: what every constructed `MultiFieldSelector` satisfies. -/
inductive WF : Heads → Prop
  | mk (h : Heads) (nodup : (h.map (·.1)).Nodup) (single : hasNone h = true → ∃ t, h = [(.none, t)])
      (nonempty : ∀ c s, (c, MTree.node s) ∈ h → s ≠ [])
      (sub : ∀ c s, (c, MTree.node s) ∈ h → WF s) : WF h

theorem WF.nodup {h} (w : WF h) : (h.map (·.1)).Nodup := by cases w; assumption
theorem WF.single {h} (w : WF h) : hasNone h = true → ∃ t, h = [(.none, t)] := by cases w; assumption
theorem WF.nonempty {h} (w : WF h) : ∀ c s, (c, MTree.node s) ∈ h → s ≠ [] := by cases w; assumption
theorem WF.sub {h} (w : WF h) : ∀ c s, (c, MTree.node s) ∈ h → WF s := by cases w; assumption

theorem WF.complete_iff {h : Heads} (w : WF h) : complete h = true ↔ h = completeHeads := by
  constructor
  · intro hc
    unfold complete at hc
    simp only [Bool.and_eq_true] at hc
    obtain ⟨t, rfl⟩ := w.single hc.1
    cases t with
    | all => rfl
    | node s => simp [lookup] at hc
  · rintro rfl; rfl

/-! ## semantics of entries -/

/-- A constructor argument covers a path. -/
def ArgCov : MArg → FS → Prop
  | .fs q, p => Covers q p
  | .mfs h, p => containsPath h p = true

/-- A collected tail covers a path. -/
def TailCov : Tail → FS → Prop
  | .all, _ => True
  | .arg a, p => ArgCov a p

/-- A collected entry covers a path. -/
def EntryCov : Comp × Tail → FS → Prop
  | (c, .all), [] => c = .none
  | (_, .arg _), [] => False
  | (c, t), d :: p => (c = .none ∨ c = d) ∧ TailCov t p

theorem core_cons {c d : Comp} {r : FS} : core (c :: d :: r) = c :: core (d :: r) := by
  unfold core
  simp [List.getLast?_cons_cons]
  split <;> rfl

theorem matches_nil_right {q : FS} : Matches q [] ↔ q = [] := by
  constructor
  · intro h; cases h; rfl
  · rintro rfl; exact .nil _

theorem matches_cons {c d : Comp} {q p : FS} :
    Matches (c :: q) (d :: p) ↔ (c = .none ∨ c = d) ∧ Matches q p := by
  constructor
  · intro h
    cases h with
    | wild _ h => exact ⟨.inl rfl, h⟩
    | same _ h => exact ⟨.inr rfl, h⟩
  · rintro ⟨rfl | rfl, h⟩
    · exact .wild _ h
    · exact .same _ h

theorem covers_iff_entry (q p : FS) : Covers q p ↔ EntryCov (fsEntry q) p := by
  unfold Covers
  match q with
  | [] =>
    simp only [core, fsEntry]
    cases p with
    | nil => simp [EntryCov]; exact .nil _
    | cons d p => simp [EntryCov, TailCov]; exact .nil _
  | [c] =>
    by_cases hc : c = .none
    · subst hc
      simp only [core, fsEntry]
      cases p with
      | nil => simp [EntryCov]; exact .nil _
      | cons d p => simp [EntryCov, TailCov]; exact .nil _
    · have : core [c] = [c] := by simp [core, hc]
      rw [this]
      simp only [fsEntry]
      cases p with
      | nil => simp [EntryCov, hc, matches_nil_right]
      | cons d p => simp [EntryCov, TailCov, matches_cons]; intro _; exact .nil _
  | c :: d :: r =>
    rw [core_cons]
    simp only [fsEntry]
    cases p with
    | nil => simp [EntryCov, matches_nil_right]
    | cons e p => simp [EntryCov, TailCov, ArgCov, matches_cons, Covers]

theorem completeHeads_contains (p : FS) : containsPath completeHeads p = true := by
  induction p with
  | nil => rfl
  | cons c p ih =>
    have : containsPath completeHeads (c :: p) = containsPath completeHeads p := rfl
    rw [this, ih]

theorem containsPath_iff_entry {h : Heads} (w : WF h) (p : FS) :
    containsPath h p = true ↔ ∃ e ∈ h, EntryCov (mfsEntry e) p := by
  cases p with
  | nil =>
    simp only [containsPath]
    rw [w.complete_iff]
    constructor
    · rintro rfl; exact ⟨(.none, .all), by simp [completeHeads], rfl⟩
    · rintro ⟨⟨c, t⟩, hm, he⟩
      cases t with
      | all =>
        simp [mfsEntry, EntryCov] at he; subst he
        obtain ⟨t, rfl⟩ := w.single (hasNone_iff.2 ⟨_, hm⟩)
        simp at hm; subst hm; rfl
      | node s => simp [mfsEntry, EntryCov] at he
  | cons d p =>
    by_cases hc : h = completeHeads
    · subst hc
      rw [completeHeads_contains]
      simp [completeHeads, mfsEntry, EntryCov, TailCov]
    · have hnc : complete h = false := by
        cases hh : complete h with
        | false => rfl
        | true => exact absurd (w.complete_iff.1 hh) hc
      simp only [containsPath]
      by_cases hn : hasNone h = true
      · obtain ⟨t, rfl⟩ := w.single hn
        have hk : headKey [(Comp.none, t)] d = .none := by simp [headKey, hn]
        have hl : lookup [(Comp.none, t)] .none = some t := by simp [lookup]
        simp only [hk, hl, Option.isSome_some, if_true, getComp, hnc]
        cases t with
        | all => exact absurd rfl hc
        | node s => simp [mfsEntry, EntryCov, TailCov, ArgCov]
      · have hk : headKey h d = d := by simp [headKey, hn]
        simp only [hk]
        simp at hn
        cases hl : lookup h d with
        | none =>
          simp
          intro c t hm he
          cases t with
          | all =>
            simp [mfsEntry, EntryCov, TailCov] at he
            rcases he with rfl | rfl
            · exact not_hasNone_mem hn hm rfl
            · exact lookup_none hl _ hm
          | node s =>
            simp [mfsEntry, EntryCov, TailCov] at he
            rcases he.1 with rfl | rfl
            · exact not_hasNone_mem hn hm rfl
            · exact lookup_none hl _ hm
        | some t =>
          have hm := lookup_mem hl
          have key : ∀ c t', (c, t') ∈ h → (c = .none ∨ c = d) → t' = t ∧ c = d := by
            intro c t' hm' hcd
            rcases hcd with rfl | rfl
            · exact absurd rfl (not_hasNone_mem hn hm')
            · rw [lookup_of_mem w.nodup hm'] at hl; simp at hl; exact ⟨hl, rfl⟩
          simp only [Option.isSome_some, if_true, getComp, hnc, hl]
          cases t with
          | all =>
            simp [completeHeads_contains]
            exact ⟨_, _, hm, by simp [mfsEntry, EntryCov, TailCov]⟩
          | node s =>
            simp
            constructor
            · intro hp; exact ⟨_, _, hm, by simp [mfsEntry, EntryCov, TailCov, ArgCov, hp]⟩
            · rintro ⟨c, t', hm', he⟩
              cases t' with
              | all =>
                simp [mfsEntry, EntryCov, TailCov] at he
                have := (key _ _ hm' he).1; simp at this
              | node s' =>
                simp [mfsEntry, EntryCov, TailCov, ArgCov] at he
                have := (key _ _ hm' he.1).1; simp at this; subst this
                exact he.2

theorem mem_entries {args : List MArg} {e : Comp × Tail} :
    e ∈ entries args ↔ (∃ q, MArg.fs q ∈ args ∧ e = fsEntry q) ∨
      (∃ h, MArg.mfs h ∈ args ∧ ∃ x ∈ h, e = mfsEntry x) := by
  unfold entries
  simp only [List.mem_append, List.mem_flatMap]
  constructor
  · rintro (⟨a, ha, he⟩ | ⟨a, ha, he⟩)
    · cases a with
      | fs q => simp at he
      | mfs h => simp only [List.mem_map] at he; obtain ⟨x, hx, rfl⟩ := he; exact .inr ⟨h, ha, x, hx, rfl⟩
    · cases a with
      | fs q => simp at he; exact .inl ⟨q, ha, he⟩
      | mfs h => simp at he
  · rintro (⟨q, hq, rfl⟩ | ⟨h, hh, x, hx, rfl⟩)
    · exact .inr ⟨_, hq, by simp⟩
    · exact .inl ⟨_, hh, List.mem_map.2 ⟨x, hx, rfl⟩⟩

/-- Arguments whose nested MultiFieldSelectors are well-formed. -/
def ArgWF : MArg → Prop
  | .fs _ => True
  | .mfs h => WF h

theorem args_iff_entries {args : List MArg} (hw : ∀ a ∈ args, ArgWF a) (p : FS) :
    (∃ a ∈ args, ArgCov a p) ↔ ∃ e ∈ entries args, EntryCov e p := by
  constructor
  · rintro ⟨a, ha, hc⟩
    cases a with
    | fs q => exact ⟨fsEntry q, mem_entries.2 (.inl ⟨q, ha, rfl⟩), (covers_iff_entry q p).1 hc⟩
    | mfs h =>
      obtain ⟨e, he, hh⟩ := (containsPath_iff_entry (hw _ ha) p).1 hc
      exact ⟨_, mem_entries.2 (.inr ⟨h, ha, e, he, rfl⟩), hh⟩
  · rintro ⟨e, he, hc⟩
    rcases mem_entries.1 he with ⟨q, hq, rfl⟩ | ⟨h, hh, x, hx, rfl⟩
    · exact ⟨_, hq, (covers_iff_entry q p).2 hc⟩
    · exact ⟨_, hh, (containsPath_iff_entry (hw _ hh) p).2 ⟨x, hx, hc⟩⟩

theorem mem_headKeys {es : List (Comp × Tail)} {c : Comp} : c ∈ headKeys es ↔ ∃ t, (c, t) ∈ es := by
  induction es with
  | nil => simp [headKeys]
  | cons e es ih =>
    simp only [headKeys, List.mem_cons, List.mem_filter, ih]
    constructor
    · rintro (rfl | ⟨⟨t, ht⟩, _⟩)
      · exact ⟨e.2, .inl rfl⟩
      · exact ⟨t, .inr ht⟩
    · rintro ⟨t, rfl | ht⟩
      · exact .inl rfl
      · by_cases hc : c = e.1
        · exact .inl hc
        · exact .inr ⟨⟨t, ht⟩, by simp [hc]⟩

theorem headKeys_nodup (es : List (Comp × Tail)) : (headKeys es).Nodup := by
  induction es with
  | nil => simp [headKeys]
  | cons e es ih =>
    simp only [headKeys, List.nodup_cons, List.mem_filter]
    exact ⟨by simp, List.Pairwise.filter _ ih⟩

theorem mem_tailsOf {es : List (Comp × Tail)} {c : Comp} {t : Tail} : t ∈ tailsOf es c ↔ (c, t) ∈ es := by
  unfold tailsOf
  simp only [List.mem_map, List.mem_filter]
  constructor
  · rintro ⟨⟨c', t'⟩, ⟨hm, hc⟩, rfl⟩; simp at hc; subst hc; exact hm
  · intro h; exact ⟨_, ⟨h, by simp⟩, rfl⟩

theorem anyAll_iff {ts : List Tail} : anyAll ts = true ↔ Tail.all ∈ ts := by
  unfold anyAll
  rw [List.any_eq_true]
  constructor
  · rintro ⟨t, hm, ht⟩; cases t <;> simp at ht; exact hm
  · intro h; exact ⟨_, h, rfl⟩

theorem mem_tailArgs {ts : List Tail} {a : MArg} : a ∈ tailArgs ts ↔ Tail.arg a ∈ ts := by
  unfold tailArgs
  simp only [List.mem_filterMap]
  constructor
  · rintro ⟨t, hm, ht⟩
    cases t with
    | all => simp at ht
    | arg b => simp at ht; subst ht; exact hm
  · intro h; exact ⟨_, h, rfl⟩

/-- An argument that contributes at least one entry. -/
def ArgNE : MArg → Prop
  | .fs _ => True
  | .mfs h => h ≠ []

/-- The order oracle keeps the members. -/
def OrdOK (ord : List MArg → List MArg) : Prop := ∀ l a, a ∈ ord l ↔ a ∈ l

theorem entry_arg_good {args : List MArg} (hw : ∀ a ∈ args, ArgWF a) {c : Comp} {a : MArg}
    (he : (c, Tail.arg a) ∈ entries args) : ArgWF a ∧ ArgNE a := by
  rcases mem_entries.1 he with ⟨q, hq, e⟩ | ⟨h, hh, ⟨c', t⟩, hx, e⟩
  · match q, e with
    | [], e => simp [fsEntry] at e
    | [_], e => simp [fsEntry] at e
    | _ :: _ :: _, e => simp [fsEntry] at e; rw [e.2]; exact ⟨trivial, trivial⟩
  · cases t with
    | all => simp [mfsEntry] at e
    | node s =>
      simp [mfsEntry] at e
      rw [e.2]
      have := hw _ hh
      exact ⟨WF.sub this _ _ hx, WF.nonempty this _ _ hx⟩

theorem sane_iff {h : Heads} : sane h = true ↔ (hasNone h = true → ∀ e ∈ h, e.1 = .none) := by
  unfold sane hasInt hasString
  constructor
  · intro hs hn e he
    simp only [hn, Bool.true_and, Bool.not_eq_true', Bool.or_eq_false_iff, List.any_eq_false] at hs
    have h1 := hs.1 e he; have h2 := hs.2 e he
    cases hc : e.1 with
    | str s => simp [hc] at h2
    | int i => simp [hc] at h1
    | none => rfl
  · intro hh
    cases hn : hasNone h with
    | false => simp
    | true =>
      have := hh hn
      simp only [Bool.true_and, Bool.not_eq_true', Bool.or_eq_false_iff, List.any_eq_false]
      constructor <;> (intro e he; simp [this e he])

/-- One level of construction, as a relation: what a successful call produced. -/
theorem buildN_ok {ord : List MArg → List MArg} {n : Nat} {args : List MArg} {h : Heads}
    (hb : buildN ord (n + 1) args = .ok h) :
    h.map (·.1) = headKeys (entries args) ∧ sane h = true ∧
    (∀ c t, (c, t) ∈ h →
      (anyAll (tailsOf (entries args) c) = true ∧ t = .all) ∨
      (anyAll (tailsOf (entries args) c) = false ∧
        ∃ s, t = .node s ∧ buildN ord n (ord (tailArgs (tailsOf (entries args) c))) = .ok s)) := by
  simp only [buildN] at hb
  split at hb
  · simp at hb
  · rename_i h' hm
    split at hb
    · rename_i hs
      simp at hb; subst hb
      refine ⟨?_, hs, ?_⟩
      · have := mapE_map_eq (g := (·.1)) (g' := id) hm ?_
        · simpa using this
        · intro a b hab
          split at hab
          · simp at hab; subst hab; rfl
          · split at hab
            · simp at hab; subst hab; rfl
            · simp at hab
      · intro c t hct
        obtain ⟨a, ha, hf⟩ := mapE_ok_right hm _ hct
        split at hf
        · simp at hf
          obtain ⟨rfl, rfl⟩ := hf
          exact .inl ⟨by assumption, rfl⟩
        · split at hf
          · rename_i hna _ sub hsub
            simp at hf
            obtain ⟨rfl, rfl⟩ := hf
            exact .inr ⟨by simpa using hna, sub, rfl, hsub⟩
          · simp at hf
    · simp at hb

theorem buildN_sound {ord : List MArg → List MArg} (ho : OrdOK ord) (n : Nat) (args : List MArg) (h : Heads)
    (hw : ∀ a ∈ args, ArgWF a) (hb : buildN ord n args = .ok h) :
    WF h ∧ (∀ p, containsPath h p = true ↔ ∃ a ∈ args, ArgCov a p) ∧
    ((∃ a ∈ args, ArgNE a) → h ≠ []) := by
  induction n generalizing args h with
  | zero => simp [buildN] at hb
  | succ n ih =>
    obtain ⟨hk, hs, ht⟩ := buildN_ok hb
    have sub : ∀ c s, (c, MTree.node s) ∈ h →
        anyAll (tailsOf (entries args) c) = false ∧ WF s ∧ s ≠ [] ∧
        ∀ p, containsPath s p = true ↔ ∃ a, (c, Tail.arg a) ∈ entries args ∧ ArgCov a p := by
      intro c s hm
      rcases ht c _ hm with ⟨_, e⟩ | ⟨hna, s', e, hb'⟩
      · simp at e
      · simp at e; subst e
        have hmem : ∀ a, a ∈ ord (tailArgs (tailsOf (entries args) c)) ↔ (c, Tail.arg a) ∈ entries args := by
          intro a; rw [ho, mem_tailArgs, mem_tailsOf]
        have hgood : ∀ a ∈ ord (tailArgs (tailsOf (entries args) c)), ArgWF a ∧ ArgNE a :=
          fun a ha => entry_arg_good hw ((hmem a).1 ha)
        obtain ⟨w, hcov, hne⟩ := ih _ _ (fun a ha => (hgood a ha).1) hb'
        refine ⟨hna, w, ?_, ?_⟩
        · have hc : c ∈ headKeys (entries args) := by
            rw [← hk]; exact List.mem_map.2 ⟨_, hm, rfl⟩
          obtain ⟨t, ht'⟩ := mem_headKeys.1 hc
          cases t with
          | all =>
            have := anyAll_iff.2 (mem_tailsOf.2 ht')
            simp [hna] at this
          | arg a => exact hne ⟨a, (hmem a).2 ht', (hgood a ((hmem a).2 ht')).2⟩
        · intro p
          rw [hcov p]
          constructor
          · rintro ⟨a, ha, hp⟩; exact ⟨a, (hmem a).1 ha, hp⟩
          · rintro ⟨a, ha, hp⟩; exact ⟨a, (hmem a).2 ha, hp⟩
    have wf : WF h := by
      refine .mk h ?_ ?_ ?_ ?_
      · rw [hk]; exact headKeys_nodup _
      · intro hn
        have hall := sane_iff.1 hs hn
        have hnd : (h.map (·.1)).Nodup := by rw [hk]; exact headKeys_nodup _
        obtain ⟨t, hm⟩ := hasNone_iff.1 hn
        match h, hall, hnd, hm with
        | [e], _, _, hm => simp at hm; subst hm; exact ⟨_, rfl⟩
        | e :: e' :: es, hall, hnd, _ =>
          have h1 := hall e (by simp); have h2 := hall e' (by simp)
          simp [h1, h2] at hnd
      · intro c s hm; exact (sub c s hm).2.2.1
      · intro c s hm; exact (sub c s hm).2.1
    refine ⟨wf, ?_, ?_⟩
    · intro p
      rw [containsPath_iff_entry wf, args_iff_entries hw]
      constructor
      · rintro ⟨⟨c, t⟩, hm, he⟩
        cases t with
        | all =>
          rcases ht c _ hm with ⟨ha, _⟩ | ⟨_, s, e, _⟩
          · exact ⟨(c, .all), mem_tailsOf.1 (anyAll_iff.1 ha), he⟩
          · simp at e
        | node s =>
          obtain ⟨_, _, _, hcov⟩ := sub c s hm
          cases p with
          | nil => simp [mfsEntry, EntryCov] at he
          | cons d p =>
            simp [mfsEntry, EntryCov, TailCov, ArgCov] at he
            obtain ⟨a, ha, hp⟩ := (hcov p).1 he.2
            exact ⟨_, ha, by simp [EntryCov, TailCov, he.1, hp]⟩
      · rintro ⟨⟨c, t⟩, hm, he⟩
        have hc : c ∈ h.map (·.1) := by rw [hk]; exact mem_headKeys.2 ⟨t, hm⟩
        simp only [List.mem_map] at hc
        obtain ⟨⟨c', t'⟩, hm', rfl⟩ := hc
        refine ⟨_, hm', ?_⟩
        cases t' with
        | all =>
          cases p with
          | nil => cases t <;> simp [EntryCov] at he; exact he
          | cons d p => simp [EntryCov] at he; simp [mfsEntry, EntryCov, TailCov, he.1]
        | node s =>
          obtain ⟨hna, _, _, hcov⟩ := sub _ s hm'
          cases t with
          | all =>
            have := anyAll_iff.2 (mem_tailsOf.2 hm)
            simp [hna] at this
          | arg a =>
            cases p with
            | nil => simp [EntryCov] at he
            | cons d p =>
              simp [EntryCov, TailCov] at he
              simp only [mfsEntry, EntryCov, TailCov, ArgCov]
              exact ⟨he.1, (hcov p).2 ⟨a, hm, he.2⟩⟩
    · rintro ⟨a, ha, hne⟩
      have : ∃ e, e ∈ entries args := by
        cases a with
        | fs q => exact ⟨_, mem_entries.2 (.inl ⟨q, ha, rfl⟩)⟩
        | mfs g =>
          cases g with
          | nil => exact absurd rfl hne
          | cons x xs => exact ⟨_, mem_entries.2 (.inr ⟨_, ha, x, by simp, rfl⟩)⟩
      obtain ⟨⟨c, t⟩, he⟩ := this
      have hc : c ∈ h.map (·.1) := by rw [hk]; exact mem_headKeys.2 ⟨t, he⟩
      rintro rfl
      simp at hc

end Normalize.Mfs
