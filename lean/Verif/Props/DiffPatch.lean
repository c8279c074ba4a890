import Verif.Spec.DiffPatch
import Verif.Props.DiffCopy
import Verif.Props.MfsAccess

/-!
# C129: comparing with the source after a patch
-/

namespace Normalize.Diff
open Ident (IProp ICls Ty ItemTy CollKind Schema readAttr AtomLaws veq)
open Spec
open Gen

variable {S : Schema} {o : Opts} {E : Env}

/-- C129: after `MultiFieldSelector.patch(target, source)` there are no differences between the two within the selectors.
(Classes store what they are given, and unset attributes cannot be read.) -/
def C129_statement : Prop :=
  ∀ (D : Setup) (o : Opts) (ord : List MArg → List MArg) (h : Heads) (qs : List FS) (E : Env) (n : Nat) (c : String)
    (s s' : List (String × Val)) (target' : Val),
    (∀ p, D.compareAs p = none) → OrdOK D.hooks → AtomLaws D.S → Mfs.OrdOK ord → Built ord h qs → qs ≠ [] →
    Honest E → Keeps E → (∀ cls nm a, E.attr cls nm = some a → a.unset = none) →
    (∀ cls nm, Ident.unsetOf D.S cls nm = none) →
    (∀ q ∈ qs, ∀ k ∈ q, ∃ nm, k = Comp.str nm) →
    o.duckType = false → o.compareFilter = some h → Real D.S (.rcd c s') → Real D.S (.rcd c s) →
    Mfs.patch E h (.rcd c s) (.rcd c s') = (.ok (), target') →
    ∀ d ∈ (diff D.hooks o n (.rcd c s') target').out, d.kind = .noChange

/-! ## Writing keeps the route -/

theorem heads_unique {h : Heads} (w : Mfs.WF h) {k : Comp} {t t' : MTree} (h1 : (k, t) ∈ h) (h2 : (k, t') ∈ h) : t = t' := by
  have := List.inj_on_of_nodup_map w.nodup h1 h2 rfl
  cases this
  rfl

theorem route_post {v : Val} : ∀ {t : MTree} {x y : Val}, SameRoute t x y → ∀ {h : Heads} {fs : FS}, t = .node h →
    Mfs.WF h → fs ∈ Mfs.iter h → SameRoute t (Normalize.post E fs v x).2 y ∧ NoNewKeys E v fs x := by
  intro t x y hr
  induction hr with
  | all => intro h fs ht; cases ht
  | @rcd h c s s' hn h1 h2 h3 ih =>
    intro h' fs ht w hm
    cases ht
    obtain ⟨k, t, hkt, hq⟩ := Mfs.mem_iter.1 hm
    obtain ⟨nm, rfl⟩ := hn k t hkt
    rcases Mfs.mem_iterT.1 hq with ⟨rfl, rfl⟩ | ⟨sub, x, rfl, hx, rfl⟩
    · refine ⟨?_, .one⟩
      have hnot : ∀ nm' h', (Comp.str nm', MTree.node h') ∈ h → nm ≠ nm' := by
        rintro nm' h' hm' rfl
        have := heads_unique w hkt hm'
        cases this
      have hkeep : ∀ s2 : List (String × Val), (∀ nm', nm ≠ nm' → alookup s2 nm' = alookup s nm') →
          SameRoute (.node h) (.rcd c s2) (.rcd c s') := by
        intro s2 hs2
        refine .rcd hn ?_ h2 ?_
        · intro nm' h' hm'
          rw [hs2 nm' (hnot nm' h' hm')]
          exact h1 nm' h' hm'
        · intro nm' h' v w hm' hv hw
          rw [hs2 nm' (hnot nm' h' hm')] at hv
          exact h3 nm' h' v w hm' hv hw
      have hput : ∃ s2, (Normalize.put1 E (.str nm) v (.rcd c s)).2 = .rcd c s2 ∧
          ∀ nm', nm ≠ nm' → alookup s2 nm' = alookup s nm' := by
        simp only [put1, tryIndex, setAttr, Bool.false_eq_true, if_false]
        cases E.attr c nm with
        | none => exact ⟨_, rfl, fun nm' hne => by rw [alookup_aset, if_neg hne]⟩
        | some a =>
          simp only
          cases a.assign (alookup s nm) v with
          | error e => exact ⟨_, rfl, fun _ _ => rfl⟩
          | ok z => exact ⟨_, rfl, fun nm' hne => by rw [alookup_setSlot, if_neg hne]⟩
      obtain ⟨s2, hs2, hs3⟩ := hput
      have hpost : (Normalize.post E [.str nm] v (.rcd c s)).2 = (Normalize.put1 E (.str nm) v (.rcd c s)).2 := by
        simp only [Normalize.post]
        generalize put1 E (.str nm) v (.rcd c s) = r
        obtain ⟨r1, r2⟩ := r
        cases r1 <;> rfl
      rw [hpost, hs2]
      exact hkeep s2 hs3
    · obtain ⟨d, p, rfl⟩ : ∃ d p, x = d :: p := by
        cases x with
        | nil => exact absurd hx Mfs.nil_not_mem_iter
        | cons d p => exact ⟨d, p, rfl⟩
      obtain ⟨v0, hv0⟩ := Option.isSome_iff_exists.1 (h1 nm sub hkt)
      obtain ⟨w0, hw0⟩ := Option.isSome_iff_exists.1 (h2 nm sub hkt)
      obtain ⟨i1, i2⟩ := ih nm sub v0 w0 hkt hv0 hw0 rfl (w.sub _ _ hkt) hx
      have hstep : ∀ kw, stepPost E (.rcd c s) (.str nm) kw = (.rcd c s, false, .child v0) := by
        intro kw
        simp [stepPost, tryIndex, getAttr, hv0]
      refine ⟨?_, .cons (by simp [tryIndex]) ?_⟩
      · simp only [Normalize.post, hstep, replaceChild]
        refine .rcd hn ?_ h2 ?_
        · intro nm' h' hm'
          rw [alookup_areplace]
          split
          · rw [hv0]; rfl
          · exact h1 nm' h' hm'
        · intro nm' h' v' w' hm' hv' hw'
          rw [alookup_areplace] at hv'
          split at hv'
          · rename_i he
            subst he
            rw [hv0] at hv'
            simp only [Option.map_some, Option.some.injEq] at hv'
            subst hv'
            have hsub := heads_unique w hkt hm'
            cases hsub
            rw [hw0] at hw'
            cases hw'
            exact i1
          · exact h3 nm' h' v' w' hm' hv' hw'
      · intro x' b y hst
        rw [hstep] at hst
        cases hst
        exact i2

theorem route_delete : ∀ {t : MTree} {x y : Val}, SameRoute t x y → ∀ {h : Heads} {fs : FS}, t = .node h →
    Mfs.WF h → fs ∈ Mfs.iter h → SameRoute t (Normalize.delete E fs x).2 y := by
  intro t x y hr
  induction hr with
  | all => intro h fs ht; cases ht
  | @rcd h c s s' hn h1 h2 h3 ih =>
    intro h' fs ht w hm
    cases ht
    obtain ⟨k, t, hkt, hq⟩ := Mfs.mem_iter.1 hm
    obtain ⟨nm, rfl⟩ := hn k t hkt
    rcases Mfs.mem_iterT.1 hq with ⟨rfl, rfl⟩ | ⟨sub, x, rfl, hx, rfl⟩
    · have hnot : ∀ nm' h', (Comp.str nm', MTree.node h') ∈ h → nm ≠ nm' := by
        rintro nm' h' hm' rfl
        have := heads_unique w hkt hm'
        cases this
      have hkeep : ∀ s2 : List (String × Val), (∀ nm', nm ≠ nm' → alookup s2 nm' = alookup s nm') →
          SameRoute (.node h) (.rcd c s2) (.rcd c s') := by
        intro s2 hs2
        refine .rcd hn ?_ h2 ?_
        · intro nm' h' hm'
          rw [hs2 nm' (hnot nm' h' hm')]
          exact h1 nm' h' hm'
        · intro nm' h' v w hm' hv hw
          rw [hs2 nm' (hnot nm' h' hm')] at hv
          exact h3 nm' h' v w hm' hv hw
      have hdel : ∃ s2, (Normalize.delete E [.str nm] (.rcd c s)).2 = .rcd c s2 ∧
          ∀ nm', nm ≠ nm' → alookup s2 nm' = alookup s nm' := by
        simp only [Normalize.delete, delete1, tryIndex, Bool.false_eq_true, if_false]
        split
        · simp only [delAttr]
          cases E.attr c nm with
          | none => exact ⟨_, rfl, fun nm' hne => by rw [alookup_aerase, if_neg hne]⟩
          | some a =>
            simp only
            cases a.remove (alookup s nm) with
            | error e => exact ⟨_, rfl, fun _ _ => rfl⟩
            | ok z => exact ⟨_, rfl, fun nm' hne => by rw [alookup_aerase, if_neg hne]⟩
        · exact ⟨_, rfl, fun _ _ => rfl⟩
        · exact ⟨_, rfl, fun _ _ => rfl⟩
      obtain ⟨s2, hs2, hs3⟩ := hdel
      rw [hs2]
      exact hkeep s2 hs3
    · obtain ⟨d, p, rfl⟩ : ∃ d p, x = d :: p := by
        cases x with
        | nil => exact absurd hx Mfs.nil_not_mem_iter
        | cons d p => exact ⟨d, p, rfl⟩
      obtain ⟨v0, hv0⟩ := Option.isSome_iff_exists.1 (h1 nm sub hkt)
      obtain ⟨w0, hw0⟩ := Option.isSome_iff_exists.1 (h2 nm sub hkt)
      have i1 := ih nm sub v0 w0 hkt hv0 hw0 rfl (w.sub _ _ hkt) hx
      have hstep : step E (.rcd c s) (.str nm) = .ok v0 := by
        simp [step, tryIndex, getAttr, hv0]
      simp only [Normalize.delete, hstep, replaceChild]
      refine .rcd hn ?_ h2 ?_
      · intro nm' h' hm'
        rw [alookup_areplace]
        split
        · rw [hv0]; rfl
        · exact h1 nm' h' hm'
      · intro nm' h' v' w' hm' hv' hw'
        rw [alookup_areplace] at hv'
        split at hv'
        · rename_i he
          subst he
          rw [hv0] at hv'
          simp only [Option.map_some, Option.some.injEq] at hv'
          subst hv'
          have hsub := heads_unique w hkt hm'
          cases hsub
          rw [hw0] at hw'
          cases hw'
          exact i1
        · exact h3 nm' h' v' w' hm' hv' hw'

theorem route_store {h : Heads} (w : Mfs.WF h) {y : Val} : ∀ (l : List (FS × Option Val)) (x : Val),
    (∀ e ∈ l, e.1 ∈ Mfs.iter h) → SameRoute (.node h) x y → SameRoute (.node h) (Mfs.store E l x).2 y
  | [], x, _, hr => hr
  | (fs, none) :: l, x, hl, hr => by
    have h1 := route_delete (E := E) hr rfl w (hl _ List.mem_cons_self)
    simp only [Mfs.store]
    generalize Normalize.delete E fs x = r at h1
    obtain ⟨r1, r2⟩ := r
    cases r1 with
    | error e => exact h1
    | ok u => exact route_store w l r2 (fun e he => hl e (List.mem_cons_of_mem _ he)) h1
  | (fs, some v) :: l, x, hl, hr => by
    have h1 := (route_post (E := E) (v := v) hr rfl w (hl _ List.mem_cons_self)).1
    simp only [Mfs.store]
    generalize Normalize.post E fs v x = r at h1
    obtain ⟨r1, r2⟩ := r
    cases r1 with
    | error e => exact h1
    | ok u => exact route_store w l r2 (fun e he => hl e (List.mem_cons_of_mem _ he)) h1

/-- All selectors are made of names. -/
theorem route_names : ∀ {t : MTree} {x y : Val}, SameRoute t x y → ∀ {h : Heads} {fs : FS}, t = .node h →
    fs ∈ Mfs.iter h → ∀ c ∈ fs, ∃ nm, c = Comp.str nm := by
  intro t x y hr
  induction hr with
  | all => intro h fs ht; cases ht
  | @rcd h c s s' hn h1 h2 h3 ih =>
    intro h' fs ht hm
    cases ht
    obtain ⟨k, t, hkt, hq⟩ := Mfs.mem_iter.1 hm
    obtain ⟨nm, rfl⟩ := hn k t hkt
    rcases Mfs.mem_iterT.1 hq with ⟨rfl, rfl⟩ | ⟨sub, x, rfl, hx, rfl⟩
    · intro k hk
      rw [List.mem_singleton] at hk
      exact ⟨nm, hk⟩
    · obtain ⟨v0, hv0⟩ := Option.isSome_iff_exists.1 (h1 nm sub hkt)
      obtain ⟨w0, hw0⟩ := Option.isSome_iff_exists.1 (h2 nm sub hkt)
      intro k hk
      rcases List.mem_cons.1 hk with rfl | hk
      · exact ⟨nm, rfl⟩
      · exact ih nm sub v0 w0 hkt hv0 hw0 rfl hx k hk

/-! ## The two agree afterwards -/

/-- Two objects read the same at the selector. -/
def ReadSame (E : Env) (fs : FS) (x y : Val) : Prop :=
  (∀ v, get E fs y = .ok v → get E fs x = .ok v) ∧ (∀ e, get E fs y = .error e → ∃ e', get E fs x = .error e')

theorem sameIn_of_route (hun : ∀ cls nm a, E.attr cls nm = some a → a.unset = none)
    (hS : ∀ cls nm, Ident.unsetOf S cls nm = none) : ∀ {t : MTree} {x y : Val}, SameRoute t x y →
    ∀ {h : Heads}, t = .node h → (∀ fs ∈ Mfs.iter h, ReadSame E fs x y) → SameIn S t y x ∧ SameIn S t x y := by
  have hread : ∀ c sl nm, readAttr S (.rcd c sl) nm = alookup sl nm := by
    intro c sl nm
    simp only [readAttr, hS]
    cases alookup sl nm <;> rfl
  intro t x y hr
  induction hr with
  | all => intro h ht; cases ht
  | @rcd h c s s' hn h1 h2 h3 ih =>
    intro h' ht hrd
    cases ht
    have hnone : Mfs.hasNone h = false := by
      cases hh : Mfs.hasNone h with
      | false => rfl
      | true =>
        obtain ⟨t, ht⟩ := Mfs.hasNone_iff.1 hh
        obtain ⟨nm, hnm⟩ := hn _ _ ht
        cases hnm
    have hget : ∀ sl nm, get E [.str nm] (.rcd c sl) =
        match alookup sl nm with | some v => .ok v | none => .error (.fsAttribute nm) := by
      intro sl nm
      have hu : (E.attr c nm).bind (·.unset) = none := by
        cases ha : E.attr c nm with
        | none => rfl
        | some a => exact hun _ _ _ ha
      simp only [Normalize.get, step, tryIndex, getAttr, hu, Bool.false_eq_true, if_false]
      cases alookup sl nm <;> rfl
    have hget2 : ∀ sl nm v p, alookup sl nm = some v → get E (.str nm :: p) (.rcd c sl) = get E p v := by
      intro sl nm v p hv
      simp [Normalize.get, step, tryIndex, getAttr, hv]
    have hleaf : ∀ nm, (Comp.str nm, MTree.all) ∈ h → alookup s nm = alookup s' nm := by
      intro nm hm
      have := hrd [.str nm] (Mfs.mem_iter.2 ⟨_, _, hm, Mfs.mem_iterT.2 (.inl ⟨rfl, rfl⟩)⟩)
      unfold ReadSame at this
      rw [hget, hget] at this
      cases hs' : alookup s' nm with
      | some v =>
        have h4 := this.1 v (by rw [hs'])
        cases hs : alookup s nm with
        | some u => rw [hs] at h4; cases h4; rfl
        | none => rw [hs] at h4; cases h4
      | none =>
        obtain ⟨e', h4⟩ := this.2 (.fsAttribute nm) (by rw [hs'])
        cases hs : alookup s nm with
        | some u => rw [hs] at h4; cases h4
        | none => rfl
    have hsub : ∀ nm h' v w, (Comp.str nm, MTree.node h') ∈ h → alookup s nm = some v → alookup s' nm = some w →
        SameIn S (.node h') w v ∧ SameIn S (.node h') v w := by
      intro nm h' v w hm hv hw
      refine ih nm h' v w hm hv hw rfl fun fs hfs => ?_
      have := hrd (.str nm :: fs) (Mfs.mem_iter.2 ⟨_, _, hm, Mfs.mem_iterT.2 (.inr ⟨_, _, rfl, hfs, rfl⟩)⟩)
      unfold ReadSame at this ⊢
      rwa [hget2 s nm v fs hv, hget2 s' nm w fs hw] at this
    have hiso : ∀ nm t, (Comp.str nm, t) ∈ h → (alookup s' nm).isSome = (alookup s nm).isSome := by
      intro nm t hm
      cases t with
      | all => rw [hleaf nm hm]
      | node h' => rw [h1 nm h' hm, h2 nm h' hm]
    refine ⟨.rcd hnone ?_ ?_, .rcd hnone ?_ ?_⟩
    · intro nm t hm
      rw [hread, hread]
      exact hiso nm t hm
    · intro nm t v w hm hv hw
      rw [hread] at hv hw
      cases t with
      | all =>
        rw [← hleaf nm hm, hw] at hv
        cases hv
        exact .same
      | node h' => exact (hsub nm h' w v hm hw hv).1
    · intro nm t hm
      rw [hread, hread]
      exact (hiso nm t hm).symm
    · intro nm t v w hm hv hw
      rw [hread] at hv hw
      cases t with
      | all =>
        rw [hleaf nm hm, hw] at hv
        cases hv
        exact .same
      | node h' => exact (hsub nm h' v w hm hv hw).2

theorem patched_sameIn {ord : List MArg → List MArg} (hord : Mfs.OrdOK ord) {h : Heads} {qs : List FS}
    (hb : Built ord h qs) (hE : Honest E) (hK : Keeps E)
    (hun : ∀ cls nm a, E.attr cls nm = some a → a.unset = none) (hS : ∀ cls nm, Ident.unsetOf S cls nm = none)
    {target source target' : Val} (hr : SameRoute (.node h) target source)
    (hp : Mfs.patch E h target source = (.ok (), target')) :
    SameIn S (.node h) source target' ∧ SameIn S (.node h) target' source := by
  obtain ⟨w, _, _⟩ := built_sound hord hb
  have hnames : ∀ fs ∈ Mfs.iter h, ∀ c ∈ fs, ∃ nm, c = Comp.str nm := fun fs hfs => route_names hr rfl hfs
  have hfetch : ∀ l, Mfs.fetch E source (Mfs.iter h) = .ok l → ∀ e ∈ l, e.1 ∈ Mfs.iter h := by
    intro l hl e he
    obtain ⟨h1, _⟩ := fetch_spec hl
    rw [← h1]
    exact List.mem_map.2 ⟨e, he, rfl⟩
  have hread := (C20_patch_partial hord hb E hE hK hun target source target'
    (fun fs hfs c hc => by obtain ⟨nm, rfl⟩ := hnames fs hfs c hc; trivial)
    (fun fs hfs e _ => by
      rcases List.eq_nil_or_concat fs with rfl | ⟨r, c, rfl⟩
      · exact absurd hfs Mfs.nil_not_mem_iter
      · obtain ⟨nm, rfl⟩ := hnames _ hfs c (by simp)
        exact ⟨r, nm, by rw [List.concat_eq_append]⟩)
    hp
    (fun pre fs v post hl => by
      have hmem := hfetch _ hl
      exact (route_post (E := E) (route_store w pre target (fun e he => hmem e (by simp [he])) hr) rfl w
        (hmem (fs, some v) (by simp))).2)).1
  have hr' : SameRoute (.node h) target' source := by
    unfold Mfs.patch at hp
    split at hp
    · cases hp
    · rename_i l hl
      have := route_store (E := E) w l target (hfetch l hl) hr
      rw [hp] at this
      exact this
  exact sameIn_of_route hun hS hr' rfl hread

/-- **C129 (what holds).** If the selectors go through both objects by name, along records of the same classes, then
nothing differs within the selectors after the patch, in either direction. -/
theorem C129_partial (D : Setup) (hc : Spec.ComparePure D) (ho : OrdOK D.hooks) (L : AtomLaws D.S)
    {ord : List MArg → List MArg} (hord : Mfs.OrdOK ord) {h : Heads} {qs : List FS} (hb : Built ord h qs) (hq : qs ≠ [])
    (E : Env) (hE : Honest E) (hK : Keeps E) (hun : ∀ cls nm a, E.attr cls nm = some a → a.unset = none)
    (hS : ∀ cls nm, Ident.unsetOf D.S cls nm = none) (hd : o.duckType = false) (hf : o.compareFilter = some h) (n : Nat)
    (target source target' : Val) (hr : SameRoute (.node h) target source)
    (hp : Mfs.patch E h target source = (.ok (), target')) :
    (Real D.S source → ∀ d ∈ (diff D.hooks o n source target').out, d.kind = .noChange) ∧
    (Real D.S target' → ∀ d ∈ (diff D.hooks o n target' source).out, d.kind = .noChange) := by
  obtain ⟨w, _, he⟩ := built_sound hord hb
  have hne : h ≠ [] := fun e => hq (he.1 e)
  have hact : o.active = some h := by
    unfold Opts.active
    rw [hf]
    cases h with
    | nil => exact absurd rfl hne
    | cons _ _ => rfl
  obtain ⟨h1, h2⟩ := patched_sameIn hord hb hE hK hun hS hr hp
  refine ⟨fun hx => quiet_sameIn D hc L ho w hact hd n (.node h) _ _ [] [] hx h1 ?_,
    fun hx => quiet_sameIn D hc L ho w hact hd n (.node h) _ _ [] [] hx h2 ?_⟩
  all_goals
    rintro h' ⟨⟩
    rfl

namespace Ex

theorem env_honest : Honest env where
  item cls kw z h := by simp [env] at h
  attr cls nm a f kw z h := by simp [env] at h
  itemKw cls s v z h := by simp [env] at h
  attrKw cls nm a f s v z h := by simp [env] at h

theorem env_keeps : Keeps env where
  assign cls nm a old v s h := by simp [env] at h
  item cls v u h := by
    simp only [env, Except.ok.injEq] at h
    exact h.symm
  itemKw cls s v z h := by simp [env] at h
  attrKw cls nm a f s v z h := by simp [env] at h

/-- `MultiFieldSelector(["author", "name"], ["note"])` -/
def authorName : Heads := [(.str "author", .node [(.str "name", .all)]), (.str "note", .all)]

theorem authorName_built : Built id authorName [[.str "author", .str "name"], [.str "note"]] := .mk (.fs (.fs .nil)) rfl

/-- `docA` with the author's name and the note of `docB`. -/
def docAB : Val := .rcd "Doc" [("title", .str "A  title"), ("author", person 1 "Anna"),
  ("people", .lcoll "People" [person 1 "Ann", person 2 "Bob", person 3 "Cid"]),
  ("words", .lcoll "Words" [word "red" "en", word "rot" "de", word "blu" "it"]),
  ("tags", .list [.str "x", .str "y", .str "y"]),
  ("scores", .dict [(.str "k", .int 1), (.str "l", .int 2)]), ("note", .str "two")]

theorem route_docs : SameRoute (.node authorName) docA docB := by
  refine .rcd ?_ ?_ ?_ ?_
  · intro k t hm
    simp only [authorName, List.mem_cons, Prod.mk.injEq, List.not_mem_nil, or_false] at hm
    rcases hm with ⟨rfl, _⟩ | ⟨rfl, _⟩ <;> exact ⟨_, rfl⟩
  · intro nm h' hm
    simp only [authorName, List.mem_cons, Prod.mk.injEq, Comp.str.injEq, List.not_mem_nil, or_false, reduceCtorEq,
      and_false] at hm
    rw [hm.1]
    decide +kernel
  · intro nm h' hm
    simp only [authorName, List.mem_cons, Prod.mk.injEq, Comp.str.injEq, List.not_mem_nil, or_false, reduceCtorEq,
      and_false] at hm
    rw [hm.1]
    decide +kernel
  · intro nm h' v w hm hv hw
    simp only [authorName, List.mem_cons, Prod.mk.injEq, Comp.str.injEq, List.not_mem_nil, or_false, reduceCtorEq,
      and_false, MTree.node.injEq] at hm
    obtain ⟨rfl, rfl⟩ := hm
    have hv : some (person 1 "Ann") = some v := hv
    have hw : some (person 1 "Anna") = some w := hw
    cases hv
    cases hw
    refine .rcd ?_ ?_ ?_ ?_
    · intro k t hm
      simp only [List.mem_cons, Prod.mk.injEq, List.not_mem_nil, or_false] at hm
      exact ⟨_, hm.1⟩
    all_goals
      intro nm h' 
      simp

end Ex

example : Mfs.patch Ex.env Ex.authorName Ex.docA Ex.docB = (.ok (), Ex.docAB) := by decide +kernel

/-- The author's name and the note are the same now. -/
example : ∀ d ∈ (diff (Ex.hooks {}) { compareFilter := some Ex.authorName } 9 Ex.docB Ex.docAB).out,
    d.kind = .noChange :=
  (C129_partial (o := { compareFilter := some Ex.authorName }) (Ex.setup {}) (.none fun _ => rfl) (Ex.ordOK _) Ex.laws ordOK_id
    Ex.authorName_built (by simp) Ex.env Ex.env_honest Ex.env_keeps (by intro _ _ _ h; simp [Ex.env] at h)
    (Ex.unsetOf_none Ex.unset_schema) rfl rfl 9 Ex.docA Ex.docB Ex.docAB Ex.route_docs (by decide +kernel)).1
    Ex.real_docB

/-- So they are if names are compared by their length. -/
example : ∀ d ∈ (diff Ex.setupLengths.hooks { compareFilter := some Ex.authorName } 9 Ex.docB Ex.docAB).out,
    d.kind = .noChange :=
  (C129_partial (o := { compareFilter := some Ex.authorName }) Ex.setupLengths Ex.pureLengths (Ex.ordOK {}) Ex.laws ordOK_id
    Ex.authorName_built (by simp) Ex.env Ex.env_honest Ex.env_keeps (by intro _ _ _ h; simp [Ex.env] at h)
    (Ex.unsetOf_none Ex.unset_schema) rfl rfl 9 Ex.docA Ex.docB Ex.docAB Ex.route_docs (by decide +kernel)).1
    Ex.real_docB

namespace Ex

/-- A document without author. -/
def docBare : Val := .rcd "Doc" [("note", .str "three")]

theorem real_docBare : Real schema docBare := by
  refine .rcd (by simp [Ident.Proper, schema, cls]) (by simp [schema, cls]) ?_
  intro x hx
  simp only [List.mem_cons, List.not_mem_nil, or_false] at hx
  rw [hx]
  exact .atom _

end Ex

/-- **C129 does not hold**: if the source has no author, then the target keeps one, without name. -/
theorem C129_violated : ¬ C129_statement := by
  intro h
  have := h (Ex.setup {}) { compareFilter := some Ex.authorName } id Ex.authorName _ Ex.env 9 "Doc" _ _ _
    (fun _ => rfl) (Ex.ordOK _) Ex.laws ordOK_id Ex.authorName_built (by simp) Ex.env_honest Ex.env_keeps
    (by intro _ _ _ h; simp [Ex.env] at h) (Ex.unsetOf_none Ex.unset_schema)
    (by
      intro q hq k hk
      simp only [List.mem_cons, List.not_mem_nil, or_false] at hq
      rcases hq with rfl | rfl <;> simp only [List.mem_cons, List.not_mem_nil, or_false] at hk
      · rcases hk with rfl | rfl <;> exact ⟨_, rfl⟩
      · exact ⟨_, hk⟩)
    rfl rfl Ex.real_docBare Ex.real_docA (Prod.ext (by decide +kernel) rfl)
  exact absurd this (by decide +kernel)

end Normalize.Diff
