import Verif.Spec.MfsOrder
import Verif.Props.MfsAccess
import Mathlib.Tactic.Tauto

/-! # C137: the order of the selectors makes no difference -/

namespace Normalize

open Spec Mfs

/-- C137, in full: `delete` and `patch` of two `MultiFieldSelector`s with the same selectors do the same, whatever the order
of the selectors and of python's sets. -/
def C137_statement : Prop :=
  ∀ (ord ord' : List MArg → List MArg), OrdOK ord → OrdOK ord' → ∀ (qs qs' : List FS), (∀ q, q ∈ qs ↔ q ∈ qs') →
  ∀ (h h' : Heads), Mfs.init ord (qs.map MArg.fs) = .ok h → Mfs.init ord' (qs'.map MArg.fs) = .ok h' →
  ∀ (E : Env) (x s : Val) (force : Bool),
    SameLeaves E (Mfs.delete E h force x).2 (Mfs.delete E h' force x).2 ∧
    SameLeaves E (Mfs.patch E h x s).2 (Mfs.patch E h' x s).2

/-- **C137 does not hold**: of a list of three, `[0]` and `[1]` delete the first and the last, `[1]` and `[0]` the first
two. -/
theorem C137_violated : ¬ C137_statement := by
  intro h
  have := (h id id ordOK_id ordOK_id [[.int 0], [.int 1]] [[.int 1], [.int 0]] (by intro q; simp [or_comm])
    [(.int 0, .all), (.int 1, .all)] [(.int 1, .all), (.int 0, .all)] rfl rfl MfsDemo.env (.list [.int 5, .int 6, .int 7])
    (.list []) false).1 [.int 0] (.int 6) (by simp [Direct])
  have h1 : get MfsDemo.env [.int 0] (Mfs.delete MfsDemo.env [(.int 0, .all), (.int 1, .all)] false (.list [.int 5, .int 6, .int 7])).2 =
      .ok (.atom (.int 6)) := by decide +kernel
  have h2 : get MfsDemo.env [.int 0] (Mfs.delete MfsDemo.env [(.int 1, .all), (.int 0, .all)] false (.list [.int 5, .int 6, .int 7])).2 =
      .ok (.atom (.int 7)) := by decide +kernel
  have h3 := this.1 h1
  rw [h2] at h3
  simp at h3

namespace MfsDemo

/-- Items are made with the argument they are given. -/
def envM : Env :=
  { env with makeItem := fun _ o => match o with | some (s, v) => .ok (.rcd "P" [(s, v)]) | none => .ok (.rcd "P" []) }

def listP : Val := .lcoll "L" [.rcd "P" [("n", .int 1)], .rcd "P" [("n", .int 2)]]

end MfsDemo

/-- Nor for `patch`: an empty list is filled from the start, or not at all. -/
theorem C137_patch_violated : ∃ (h h' : Heads),
    Mfs.init id [.fs [.int 0, .str "n"], .fs [.int 1, .str "n"]] = .ok h ∧
    Mfs.init id [.fs [.int 1, .str "n"], .fs [.int 0, .str "n"]] = .ok h' ∧
    Mfs.patch MfsDemo.envM h (.lcoll "L" []) MfsDemo.listP = (.ok (), MfsDemo.listP) ∧
    Mfs.patch MfsDemo.envM h' (.lcoll "L" []) MfsDemo.listP = (.error .valueError, .lcoll "L" []) :=
  ⟨[(.int 0, .node [(.str "n", .all)]), (.int 1, .node [(.str "n", .all)])],
    [(.int 1, .node [(.str "n", .all)]), (.int 0, .node [(.str "n", .all)])], rfl, rfl, by decide +kernel, by decide +kernel⟩

theorem buildN_iter {ord : List MArg → List MArg} (ho : OrdOK ord) (n : Nat) (args : List MArg) (h : Heads)
    (hb : buildN ord n args = .ok h) (q : FS) :
    q ∈ iter h ↔ InPaths args q ∧ ∀ w₁ w₂, q = w₁ ++ w₂ → w₁ ≠ [] → w₂ ≠ [] → ¬ InPaths args w₁ := by
  induction n generalizing args h q with
  | zero => simp [buildN] at hb
  | succ n ih =>
    obtain ⟨hk, _, ht⟩ := buildN_ok hb
    have key : ∀ c, (∃ t, (c, t) ∈ h) ↔ ∃ t, (c, t) ∈ entries args := by
      intro c
      rw [← mem_headKeys, ← hk]
      simp
    match q with
    | [] => exact ⟨fun hq => absurd hq nil_not_mem_iter, fun hq => absurd hq.1 inPaths_nil⟩
    | [c] =>
      rw [single_mem_iter, inPaths_single]
      constructor
      · intro hm
        rcases ht c _ hm with ⟨ha, _⟩ | ⟨_, s, hs, _⟩
        · refine ⟨mem_tailsOf.1 (anyAll_iff.1 ha), ?_⟩
          intro w₁ w₂ e h1 h2
          cases w₁ with
          | nil => exact absurd rfl h1
          | cons a w =>
            rw [List.cons_append, List.cons.injEq] at e
            cases w with
            | nil => exact absurd e.2.symm h2
            | cons b w => simp at e
        · cases hs
      · rintro ⟨he, _⟩
        obtain ⟨t, hm⟩ := (key c).2 ⟨_, he⟩
        rcases ht c t hm with ⟨_, rfl⟩ | ⟨ha, _⟩
        · exact hm
        · have := anyAll_iff.2 (mem_tailsOf.2 he)
          rw [ha] at this
          cases this
    | c :: d :: r =>
      rw [cons_mem_iter]
      have hS : ∀ q, InPaths (ord (tailArgs (tailsOf (entries args) c))) q ↔ q ≠ [] ∧ InPaths args (c :: q) := by
        intro q
        have hmem : ∀ a, a ∈ ord (tailArgs (tailsOf (entries args) c)) ↔ (c, Tail.arg a) ∈ entries args := by
          intro a; rw [ho, mem_tailArgs, mem_tailsOf]
        cases q with
        | nil => simp [inPaths_nil]
        | cons d r =>
          rw [inPaths_cons]
          constructor
          · rintro ⟨a, ha, hq⟩; exact ⟨by simp, a, (hmem a).1 ha, hq⟩
          · rintro ⟨_, a, ha, hq⟩; exact ⟨a, (hmem a).2 ha, hq⟩
      constructor
      · rintro ⟨s, hm, hq⟩
        rcases ht c _ hm with ⟨_, e⟩ | ⟨ha, s', e, hs⟩
        · cases e
        · cases e
          obtain ⟨h1, h2⟩ := (ih _ _ hs (d :: r)).1 hq
          refine ⟨((hS _).1 h1).2, ?_⟩
          intro w₁ w₂ e hw1 hw2 hin
          cases w₁ with
          | nil => exact hw1 rfl
          | cons a w =>
            rw [List.cons_append, List.cons.injEq] at e
            obtain ⟨rfl, e⟩ := e
            cases w with
            | nil =>
              have := anyAll_iff.2 (mem_tailsOf.2 (inPaths_single.1 hin))
              rw [ha] at this
              cases this
            | cons b w => exact h2 (b :: w) w₂ e (by simp) hw2 ((hS _).2 ⟨by simp, hin⟩)
      · rintro ⟨hin, hmin⟩
        obtain ⟨a, he, _⟩ := inPaths_cons.1 hin
        obtain ⟨t, hm⟩ := (key c).2 ⟨_, he⟩
        rcases ht c t hm with ⟨ha, rfl⟩ | ⟨ha, s, rfl, hs⟩
        · exact absurd (inPaths_single.2 (mem_tailsOf.1 (anyAll_iff.1 ha))) (hmin [c] (d :: r) rfl (by simp) (by simp))
        · refine ⟨s, hm, (ih _ _ hs (d :: r)).2 ⟨(hS _).2 ⟨by simp, hin⟩, ?_⟩⟩
          intro w₁ w₂ e hw1 hw2 hin'
          exact hmin (c :: w₁) w₂ (by rw [List.cons_append, ← e]) (by simp) hw2 ((hS _).1 hin').2

theorem inPaths_fs {qs : List FS} (q : FS) : InPaths (qs.map MArg.fs) q ↔ q ∈ qs.map nonNil := by
  constructor
  · rintro ⟨a, ha, hq⟩
    simp only [List.mem_map] at ha
    obtain ⟨q', hq', rfl⟩ := ha
    simp [argPaths] at hq
    exact List.mem_map.2 ⟨q', hq', hq.symm⟩
  · intro hq
    simp only [List.mem_map] at hq
    obtain ⟨q', hq', rfl⟩ := hq
    exact ⟨.fs q', List.mem_map.2 ⟨q', hq', rfl⟩, by simp [argPaths]⟩

/-- Iterating over a `MultiFieldSelector` gives each of its selectors that no other points around, once. -/
theorem C137_iter {ord : List MArg → List MArg} (ho : OrdOK ord) {qs : List FS} {h : Heads} (hi : Mfs.init ord (qs.map MArg.fs) = .ok h) :
    (∀ q, q ∈ iter h ↔ Outermost qs q) ∧ (iter h).Nodup := by
  constructor
  · intro q
    rw [buildN_iter ho _ _ _ hi q]
    simp only [inPaths_fs, Outermost]
  · have hb : ArgsBuilt ord (qs.map MArg.fs) qs := by
      clear hi
      induction qs with
      | nil => exact .nil
      | cons q qs ih => exact .fs ih
    refine (iter_pairwise (built_sound ho (.mk hb hi)).1).imp ?_
    rintro a b ⟨p, c, a', d, b', rfl, rfl, hne⟩ e
    simp at e
    exact hne e.1

theorem built_fs {ord : List MArg → List MArg} {qs : List FS} {h : Heads} (hi : Mfs.init ord (qs.map MArg.fs) = .ok h) : Built ord h qs := by
  have hb : ArgsBuilt ord (qs.map MArg.fs) qs := by
    clear hi
    induction qs with
    | nil => exact .nil
    | cons q qs ih => exact .fs ih
  exact .mk hb hi

theorem outermost_same {qs qs' : List FS} (hs : ∀ q, q ∈ qs ↔ q ∈ qs') (q : FS) : Outermost qs q ↔ Outermost qs' q := by
  have : ∀ q, q ∈ qs.map nonNil ↔ q ∈ qs'.map nonNil := by intro q; simp only [List.mem_map, hs]
  simp only [Outermost, this]

/-- Two paths part ways, or one continues the other. -/
theorem paths_relate (f q : FS) : Diverge f q ∨ (∃ r, q = f ++ r) ∨ ∃ r, r ≠ [] ∧ f = q ++ r := by
  induction f generalizing q with
  | nil => exact .inr (.inl ⟨q, rfl⟩)
  | cons c f ih =>
    cases q with
    | nil => exact .inr (.inr ⟨c :: f, by simp, rfl⟩)
    | cons d q =>
      by_cases hcd : c = d
      · subst hcd
        rcases ih q with ⟨p, c', a, d', b, rfl, rfl, hne⟩ | ⟨r, rfl⟩ | ⟨r, hr, rfl⟩
        · exact .inl ⟨c :: p, c', a, d', b, rfl, rfl, hne⟩
        · exact .inr (.inl ⟨r, rfl⟩)
        · exact .inr (.inr ⟨r, hr, rfl⟩)
      · exact .inl ⟨[], c, f, d, q, rfl, rfl, hcd⟩

/-- Everything that is not on the way to a selector parts ways with all of them, or lies within one. -/
theorem place_relates {qs : List FS} {q : FS} (hq : ¬ OnTheWay qs q) :
    (∀ f, Outermost qs f → Diverge f q) ∨ ∃ f r, Outermost qs f ∧ q = f ++ r := by
  by_cases hex : ∃ f r, Outermost qs f ∧ q = f ++ r
  · exact .inr hex
  · left
    intro f hf
    rcases paths_relate f q with h | ⟨r, rfl⟩ | ⟨r, hr, rfl⟩
    · exact h
    · exact absurd ⟨f, r, hf, rfl⟩ hex
    · exact absurd ⟨r, hr, hf⟩ hq

variable {ord ord' : List MArg → List MArg} {qs qs' : List FS} {h h' : Heads} {E : Env}

/-- C137, `delete`, if no selected field is an item of a list or a wildcard: both orders leave the same at every place that is
not on the way to a selected one. -/
theorem C137_delete_partial (ho : OrdOK ord) (ho' : OrdOK ord') (hs : ∀ q, q ∈ qs ↔ q ∈ qs')
    (hi : Mfs.init ord (qs.map MArg.fs) = .ok h) (hi' : Mfs.init ord' (qs'.map MArg.fs) = .ok h')
    (hun : ∀ cls nm a, E.attr cls nm = some a → a.unset = none)
    (hrem : ∀ cls nm a old e, E.attr cls nm = some a → a.remove old = .error e → e.isFieldSelector = false)
    (hp : ∀ fs, Outermost qs fs → EndsInName fs ∧ ∀ c ∈ fs, Direct c) (force force' : Bool) (x y y' : Val)
    (hok : Mfs.delete E h force x = (.ok (), y)) (hok' : Mfs.delete E h' force' x = (.ok (), y')) (q : FS)
    (hq : ∀ c ∈ q, Direct c) (hw : ¬ OnTheWay qs q) (v : Val) : get E q y = .ok v ↔ get E q y' = .ok v := by
  have hm := (C137_iter ho hi).1
  have hm' : ∀ f, f ∈ iter h' ↔ Outermost qs f := fun f => by rw [(C137_iter ho' hi').1, outermost_same hs]
  have a := C19_deleted_partial ho (built_fs hi) E hun hrem (fun fs hf => hp fs ((hm fs).1 hf)) force x y hok
  have b := C19_deleted_partial ho' (built_fs hi') E hun hrem (fun fs hf => hp fs ((hm' fs).1 hf)) force' x y' hok'
  rcases place_relates hw with hd | ⟨f, r, hf, rfl⟩
  · rw [a.2 q hq (fun f hf => hd f ((hm f).1 hf)), b.2 q hq (fun f hf => hd f ((hm' f).1 hf))]
  · have hpl : Plain f := fun c hc => direct_ne ((hp f hf).2 c hc)
    obtain ⟨e, he⟩ := a.1 f ((hm f).2 hf)
    obtain ⟨e', he'⟩ := b.1 f ((hm' f).2 hf)
    simp [get_append hpl, he, he']

/-- … and both return, or both raise and change nothing, if the attributes may be removed. -/
theorem C137_delete_returns_partial (ho : OrdOK ord) (ho' : OrdOK ord') (hs : ∀ q, q ∈ qs ↔ q ∈ qs')
    (hi : Mfs.init ord (qs.map MArg.fs) = .ok h) (hi' : Mfs.init ord' (qs'.map MArg.fs) = .ok h')
    (hrem : ∀ cls nm a old, E.attr cls nm = some a → a.remove old = .ok ())
    (hp : ∀ fs, Outermost qs fs → EndsInName fs ∧ ∀ c ∈ fs, Direct c) (x : Val) :
    ((∃ y, Mfs.delete E h false x = (.ok (), y)) ∧ ∃ y, Mfs.delete E h' false x = (.ok (), y)) ∨
      ((∃ e, Mfs.delete E h false x = (.error e, x)) ∧ ∃ e, Mfs.delete E h' false x = (.error e, x)) := by
  have hm := (C137_iter ho hi).1
  have hm' : ∀ f, f ∈ iter h' ↔ Outermost qs f := fun f => by rw [(C137_iter ho' hi').1, outermost_same hs]
  by_cases hall : ∃ fs, Outermost qs fs ∧ ∃ e, get E fs x = .error e
  · right
    obtain ⟨fs, hf, he⟩ := hall
    obtain ⟨_, _, _, e1, _, _, _, h1⟩ := C19_missing_unchanged E h x ⟨fs, (hm fs).2 hf, he⟩
    obtain ⟨_, _, _, e2, _, _, _, h2⟩ := C19_missing_unchanged E h' x ⟨fs, (hm' fs).2 hf, he⟩
    exact ⟨⟨e1, h1⟩, e2, h2⟩
  · left
    have hv : ∀ fs, Outermost qs fs → ∃ v, get E fs x = .ok v := by
      intro fs hf
      cases hg : get E fs x with
      | ok v => exact ⟨v, rfl⟩
      | error e => exact absurd ⟨fs, hf, e, hg⟩ hall
    exact ⟨C19_succeeds_partial ho (built_fs hi) E hrem (fun fs hf => hp fs ((hm fs).1 hf)) x (fun fs hf => hv fs ((hm fs).1 hf)),
      C19_succeeds_partial ho' (built_fs hi') E hrem (fun fs hf => hp fs ((hm' fs).1 hf)) x (fun fs hf => hv fs ((hm' fs).1 hf))⟩

/-- C137, `patch`, where `C20_patch_partial` says what it does: both orders leave the same at every place that is not on the way
to a selected one, if the object around it was there before or it lies within a selected one. -/
theorem C137_patch_partial (ho : OrdOK ord) (ho' : OrdOK ord') (hs : ∀ q, q ∈ qs ↔ q ∈ qs')
    (hi : Mfs.init ord (qs.map MArg.fs) = .ok h) (hi' : Mfs.init ord' (qs'.map MArg.fs) = .ok h')
    (hE : Honest E) (hK : Keeps E) (hun : ∀ cls nm a, E.attr cls nm = some a → a.unset = none) (target source y y' : Val)
    (hdir : ∀ fs, Outermost qs fs → ∀ c ∈ fs, Direct c)
    (hname : ∀ fs, Outermost qs fs → ∀ e, get E fs source = .error e → EndsInName fs)
    (hok : Mfs.patch E h target source = (.ok (), y)) (hok' : Mfs.patch E h' target source = (.ok (), y'))
    (hnk : ∀ pre fs v post, Mfs.fetch E source (Mfs.iter h) = .ok (pre ++ (fs, some v) :: post) → NoNewKeys E v fs (Mfs.store E pre target).2)
    (hnk' : ∀ pre fs v post, Mfs.fetch E source (Mfs.iter h') = .ok (pre ++ (fs, some v) :: post) → NoNewKeys E v fs (Mfs.store E pre target).2)
    (q : FS) (hq : ∀ c ∈ q, Direct c) (hw : ¬ OnTheWay qs q)
    (hpar : (∃ f r, Outermost qs f ∧ q = f ++ r) ∨ ∃ z, get E q.dropLast target = .ok z) (v : Val) :
    get E q y = .ok v ↔ get E q y' = .ok v := by
  have hm := (C137_iter ho hi).1
  have hm' : ∀ f, f ∈ iter h' ↔ Outermost qs f := fun f => by rw [(C137_iter ho' hi').1, outermost_same hs]
  have a := C20_patch_partial ho (built_fs hi) E hE hK hun target source y (fun fs hf => hdir fs ((hm fs).1 hf))
    (fun fs hf => hname fs ((hm fs).1 hf)) hok hnk
  have b := C20_patch_partial ho' (built_fs hi') E hE hK hun target source y' (fun fs hf => hdir fs ((hm' fs).1 hf))
    (fun fs hf => hname fs ((hm' fs).1 hf)) hok' hnk'
  have inside : (∃ f r, Outermost qs f ∧ q = f ++ r) → (get E q y = .ok v ↔ get E q y' = .ok v) := by
    rintro ⟨f, r, hf, rfl⟩
    have hpl : Plain f := fun c hc => direct_ne (hdir f hf c hc)
    have a1 := a.1 f ((hm f).2 hf)
    have b1 := b.1 f ((hm' f).2 hf)
    cases hg : get E f source with
    | ok u => simp [get_append hpl, a1.1 u hg, b1.1 u hg]
    | error e =>
      obtain ⟨e1, h1⟩ := a1.2 e hg
      obtain ⟨e2, h2⟩ := b1.2 e hg
      simp [get_append hpl, h1, h2]
  rcases place_relates hw with hd | hin
  · rcases hpar with hin | hz
    · exact inside hin
    · rw [a.2 q hq (fun f hf => hd f ((hm f).1 hf)) hz, b.2 q hq (fun f hf => hd f ((hm' f).1 hf)) hz]
  · exact inside hin

/-- C137, `get`, where `C18_kept_partial` says what it does: whatever is selected reads the same in both results. -/
theorem C137_get_partial (ho : OrdOK ord) (ho' : OrdOK ord') (hs : ∀ q, q ∈ qs ↔ q ∈ qs')
    (hi : Mfs.init ord (qs.map MArg.fs) = .ok h) (hi' : Mfs.init ord' (qs'.map MArg.fs) = .ok h') (C : Ctors) (hF : Faithful C E)
    (x y y' : Val) (hcl : Clean E x) (hfi : FirstItems E h x) (hfi' : FirstItems E h' x)
    (hg : Mfs.get C E h x = .ok y) (hg' : Mfs.get C E h' x = .ok y') (fs : FS) (hc : ∃ q ∈ qs, Covers q fs) :
    get E fs y = get E fs y' := by
  rw [C18_kept_partial ho (built_fs hi) C E hF x y hcl hfi hg fs hc,
    C18_kept_partial ho' (built_fs hi') C E hF x y' hcl hfi' hg' fs (by simpa only [hs] using hc)]

/-! An example: `a.b`, `k` and `a`, in two orders; `a.b` lies within `a`. -/

namespace MfsDemo

def sels : List FS := [[.str "a", .str "b"], [.str "k"], [.str "a"]]
def slem : List FS := [[.str "k"], [.str "a"], [.str "a", .str "b"]]

theorem sels_same : ∀ q, q ∈ sels ↔ q ∈ slem := by
  intro q
  simp only [sels, slem, List.mem_cons, List.not_mem_nil, or_false]
  tauto

theorem sels_init : Mfs.init id (sels.map MArg.fs) = .ok [(.str "a", .all), (.str "k", .all)] := rfl
theorem slem_init : Mfs.init id (slem.map MArg.fs) = .ok [(.str "k", .all), (.str "a", .all)] := rfl

theorem sels_names : ∀ fs, Outermost sels fs → EndsInName fs ∧ ∀ c ∈ fs, Direct c := by
  intro fs hf
  have := ((C137_iter ordOK_id sels_init).1 fs).2 hf
  simp [iter, iterT] at this
  rcases this with rfl | rfl
  · exact ⟨⟨[], "a", rfl⟩, by simp [Direct]⟩
  · exact ⟨⟨[], "k", rfl⟩, by simp [Direct]⟩

def withZ : Val := .rcd "R" [("a", .rcd "Q" [("b", .str "B")]), ("k", .int 9), ("z", .int 3)]

theorem z_not_on_the_way : ¬ OnTheWay sels [.str "z"] := by
  rintro ⟨r, hr, ho⟩
  have := ((C137_iter ordOK_id sels_init).1 _).2 ho
  simp [iter, iterT] at this

-- the hypotheses of `C137_delete_partial` and `C137_delete_returns_partial` are met, and `z` stays
example : ∃ y y', Mfs.delete env [(.str "a", .all), (.str "k", .all)] false withZ = (.ok (), y) ∧
    Mfs.delete env [(.str "k", .all), (.str "a", .all)] false withZ = (.ok (), y') ∧
    (get env [.str "z"] y = .ok (.int 3) ↔ get env [.str "z"] y' = .ok (.int 3)) ∧ get env [.str "z"] y = .ok (.int 3) :=
  ⟨.rcd "R" [("z", .int 3)], .rcd "R" [("z", .int 3)], by decide +kernel, by decide +kernel,
    C137_delete_partial ordOK_id ordOK_id sels_same sels_init slem_init (by intro _ _ _ h; simp [env] at h)
      (by intro _ _ _ _ _ h; simp [env] at h) sels_names false false withZ _ _ (by decide +kernel) (by decide +kernel)
      _ (by simp [Direct]) z_not_on_the_way _, by decide +kernel⟩

-- and of `C137_patch_partial`, but for what the examples of C20 show
example : Mfs.patch env [(.str "a", .all), (.str "k", .all)] withZ (.rcd "R" [("k", .int 1)]) =
      (.ok (), .rcd "R" [("k", .int 1), ("z", .int 3)]) ∧
    Mfs.patch env [(.str "k", .all), (.str "a", .all)] withZ (.rcd "R" [("k", .int 1)]) =
      (.ok (), .rcd "R" [("k", .int 1), ("z", .int 3)]) := by decide +kernel

end MfsDemo

end Normalize
