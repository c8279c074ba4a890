import Verif.Props.Mfs
import Verif.Lemmas.MfsWrite

/-!
# C18–C20: MultiFieldSelector.get, delete, patch
-/

namespace Normalize

open Spec

/-! ## C18 -/

/-- C18 in full: what each contained selector reads is kept, and nothing else is. -/
def C18_statement : Prop :=
  ∀ (ord : List MArg → List MArg), Mfs.OrdOK ord → ∀ (h : Heads) (qs : List FS), Built ord h qs →
  ∀ (C : Ctors) (E : Env), Faithful C E → (∀ cls nm a, E.attr cls nm = some a → a.unset = none) →
  ∀ (x y : Val), Clean E x → Mfs.get C E h x = .ok y →
    (∀ fs v, (∃ q ∈ qs, Covers q fs) → get E fs x = .ok v → get E fs y = .ok v) ∧
    (∀ fs v, fs ≠ [] → (∀ c ∈ fs, Direct c) → get E fs y = .ok v → ∃ r, ∃ q ∈ qs, Covers q (fs ++ r))

/-- C18, kept part: a selector contained in the set reads the same in the filtered object as in the original
(or raises the same).  Where items of lists are picked by index, they must be the first ones, since the result
is a shorter list; no attribute may be `None`. -/
theorem C18_kept_partial {ord : List MArg → List MArg} (ho : Mfs.OrdOK ord) {h : Heads} {qs : List FS}
    (hb : Built ord h qs) (C : Ctors) (E : Env) (hF : Faithful C E) (x y : Val) (hcl : Clean E x)
    (hfi : FirstItems E h x) (hg : Mfs.get C E h x = .ok y) (fs : FS) (hc : ∃ q ∈ qs, Covers q fs) :
    get E fs y = get E fs x := by
  obtain ⟨w, hcov, _⟩ := built_sound ho hb
  exact Mfs.get_same hF w hcl hfi hg ((hcov fs).2 hc)

/-- C18, nothing else: whatever can be read in the filtered object through names and indices lies on the way
to, or inside, something selected. -/
theorem C18_only_partial {ord : List MArg → List MArg} (ho : Mfs.OrdOK ord) {h : Heads} {qs : List FS}
    (hb : Built ord h qs) (C : Ctors) (E : Env) (hF : Faithful C E)
    (hun : ∀ cls nm a, E.attr cls nm = some a → a.unset = none) (x y : Val) (hcl : Clean E x)
    (hfi : FirstItems E h x) (hg : Mfs.get C E h x = .ok y) (fs : FS) (hne : fs ≠ [])
    (hd : ∀ c ∈ fs, Direct c) (v : Val) (hv : get E fs y = .ok v) :
    ∃ r, ∃ q ∈ qs, Covers q (fs ++ r) := by
  obtain ⟨w, hcov, _⟩ := built_sound ho hb
  obtain ⟨r, hr⟩ := Mfs.get_only hF hun w hcl hfi hg hne hd hv
  exact ⟨r, (hcov _).1 hr⟩

namespace MfsDemo

/-- Classes whose attributes are all plain. -/
def env : Env where
  attr _ _ := none
  coerceItem _ v := match v with
    | .rcd "P" sl => .ok (.rcd "P" sl)
    | _ => .error .collectionItemCoerce
  makeItem _ _ := .error .typeError

/-- Their constructors. -/
def ctors : Ctors where
  rcd cls kw := .ok (.rcd cls kw)
  atom a := .ok (.atom a)

theorem faithful : Faithful ctors env where
  rcd cls kw z h := by simp [ctors] at h; subst h; exact ⟨kw, rfl, fun _ => rfl⟩
  atom a z h := by simp [ctors] at h; subst h; exact ⟨a, rfl, fun _ h => h⟩
  isaRcd cls sl sl' k h := by
    simp only [env] at h ⊢
    split at h
    · rename_i heq; simp at heq; obtain ⟨rfl, _⟩ := heq; rfl
    · simp at h
  isaList xs xs' k h := by simp [env] at h
  isaDict xs xs' k h := by simp [env] at h
  isaLcoll cls xs xs' k h := by simp [env] at h
  isaDcoll cls xs xs' k h := by simp [env] at h

/-- `a.b`, `a.c[0]`, `a.c[1].n` -/
def mfs : Heads := [(.str "a", .node [(.str "b", .all),
  (.str "c", .node [(.int 0, .all), (.int 1, .node [(.str "n", .all)])])])]

theorem built : Built id mfs [[.str "a", .str "b"], [.str "a", .str "c", .int 0],
    [.str "a", .str "c", .int 1, .str "n"]] := .mk (.fs (.fs (.fs .nil))) rfl

/-- A record with nested records and a collection. -/
def x : Val := .rcd "R" [("a", .rcd "Q" [("b", .str "B"), ("z", .int 3), ("c", .lcoll "L"
  [.rcd "P" [("n", .int 1)], .rcd "P" [("n", .int 2), ("m", .int 4)], .rcd "P" []])]), ("k", .int 9)]

theorem clean : Clean env x := by
  refine .rcd ?_ ?_
  · intro e he; simp at he; rcases he with rfl | rfl <;> simp [Val.none, Val.int]
  · intro e he; simp at he
    rcases he with rfl | rfl
    · refine .rcd ?_ ?_
      · intro e he; simp at he; rcases he with rfl | rfl | rfl <;> simp [Val.none, Val.int, Val.str]
      · intro e he; simp at he
        rcases he with rfl | rfl | rfl
        · exact .atom
        · exact .atom
        · refine .lcoll ?_ ?_
          · intro v hv; simp at hv; rcases hv with rfl | rfl | rfl <;> rfl
          · intro v hv; simp at hv
            rcases hv with rfl | rfl | rfl
            · refine .rcd ?_ ?_ <;> (intro e he; simp at he; subst he)
              · simp [Val.none, Val.int]
              · exact .atom
            · refine .rcd ?_ ?_ <;> (intro e he; simp at he; rcases he with rfl | rfl)
              · simp [Val.none, Val.int]
              · simp [Val.none, Val.int]
              · exact .atom
              · exact .atom
            · exact .rcd (by simp) (by simp)
    · exact .atom

theorem first : FirstItems env mfs x := by
  refine .mk (fun h => absurd h (by simp [x, IsSeq])) ?_
  intro c s y hm hp
  simp [mfs] at hm; obtain ⟨rfl, rfl⟩ := hm
  cases hp with
  | step _ hs =>
    simp [step, tryIndex, getAttr, x, alookup] at hs; subst hs
    refine .mk (fun h => absurd h (by simp [IsSeq])) ?_
    intro c s y hm hp
    simp at hm; obtain ⟨rfl, rfl⟩ := hm
    cases hp with
    | step _ hs =>
      simp [step, tryIndex, getAttr, alookup] at hs; subst hs
      refine .mk (fun _ _ => ⟨2, ?_⟩) ?_
      · intro i
        simp only [List.mem_cons, Prod.mk.injEq, Comp.int.injEq, List.not_mem_nil, or_false, reduceCtorEq]
        constructor
        · rintro ⟨t, ⟨rfl, _⟩ | ⟨rfl, _⟩⟩ <;> simp
        · rintro ⟨h1, h2⟩
          obtain rfl | rfl : i = 0 ∨ i = 1 := by omega
          · exact ⟨_, .inl ⟨rfl, rfl⟩⟩
          · exact ⟨_, .inr ⟨rfl, rfl⟩⟩
      · intro c s y hm hp
        simp at hm; obtain ⟨rfl, rfl⟩ := hm
        cases hp with
        | step _ hs =>
          simp [step, tryIndex, getItem, getIdx, pyIndex] at hs; subst hs
          exact .mk (fun h => absurd h (by simp [IsSeq])) (by intro c s y hm; simp at hm)

example : Mfs.get ctors env mfs x = .ok (.rcd "R" [("a", .rcd "Q" [("b", .str "B"), ("c", .lcoll "L"
    [.rcd "P" [("n", .int 1)], .rcd "P" [("n", .int 2)]])])]) := by decide +kernel

example : get env [.str "a", .str "c", .int 1, .str "n"] (.rcd "R" [("a", .rcd "Q" [("b", .str "B"),
    ("c", .lcoll "L" [.rcd "P" [("n", .int 1)], .rcd "P" [("n", .int 2)]])])]) = .ok (.int 2) := by
  refine (C18_kept_partial ordOK_id built ctors env faithful x _ clean first (by decide +kernel) _
    ⟨[.str "a", .str "c", .int 1, .str "n"], by simp, ?_⟩).trans (by decide +kernel)
  exact .same _ (.same _ (.same _ (.same _ (.nil _))))

/-- A list of two. -/
def two : Val := .list [.int 5, .int 6]

theorem two_clean : Clean env two := by
  refine .list ?_; intro v hv; simp at hv; rcases hv with rfl | rfl <;> exact .atom

end MfsDemo

/-- C18 is false of the code: picking an item other than the first of a list moves it. -/
theorem C18_violated : ¬ C18_statement := by
  intro h
  have hb : Built id [(.int 1, .all)] [[.int 1]] := .mk (.fs .nil) rfl
  have hg : Mfs.get MfsDemo.ctors MfsDemo.env [(.int 1, .all)] MfsDemo.two = .ok (.list [.int 6]) := by
    decide +kernel
  have := (h id ordOK_id _ _ hb _ _ MfsDemo.faithful (by intro _ _ _ h; simp [MfsDemo.env] at h) _ _
    MfsDemo.two_clean hg).1 [.int 1] (.int 6) ⟨[.int 1], by simp, .same _ (.nil _)⟩ (by decide +kernel)
  have h2 : get MfsDemo.env [.int 1] (.list [.int 6]) = .error (.fsKey (.int 1)) := by decide +kernel
  rw [h2] at this; simp at this

/-! ## C19 -/

/-- C19 in full. -/
def C19_statement : Prop :=
  ∀ (ord : List MArg → List MArg), Mfs.OrdOK ord → ∀ (h : Heads) (qs : List FS), Built ord h qs →
  ∀ (E : Env), (∀ cls nm a, E.attr cls nm = some a → a.unset = none) →
  ∀ (x : Val),
    ((∃ fs ∈ Mfs.iter h, ∃ e, get E fs x = .error e) → ∃ e, Mfs.delete E h false x = (.error e, x)) ∧
    ((∀ fs ∈ Mfs.iter h, ∃ v, get E fs x = .ok v) → ∃ x', Mfs.delete E h false x = (.ok (), x') ∧
      (∀ fs ∈ Mfs.iter h, ∃ e, get E fs x' = .error e) ∧
      ∀ q, (∀ c ∈ q, Direct c) → (∀ fs ∈ Mfs.iter h, Diverge fs q) → get E q x' = get E q x)

/-- C19, first part: if any selected field is missing, the call raises what reading the first missing field
raises, and the object is unchanged. -/
theorem C19_missing_unchanged (E : Env) (h : Heads) (x : Val)
    (hm : ∃ fs ∈ Mfs.iter h, ∃ e, get E fs x = .error e) :
    ∃ pre fs post e, Mfs.iter h = pre ++ fs :: post ∧ (∀ f ∈ pre, ∃ v, get E f x = .ok v) ∧
      get E fs x = .error e ∧ Mfs.delete E h false x = (.error e, x) := by
  have key : ∀ l : List FS, (∃ fs ∈ l, ∃ e, get E fs x = .error e) →
      ∃ pre fs post e, l = pre ++ fs :: post ∧ (∀ f ∈ pre, ∃ v, get E f x = .ok v) ∧
        get E fs x = .error e ∧ Mfs.checkAll E l x = .error e := by
    intro l
    induction l with
    | nil => simp
    | cons f l ih =>
      rintro ⟨fs, hfs, e, he⟩
      cases hf : get E f x with
      | error e' => exact ⟨[], f, l, e', rfl, by simp, hf, by simp [Mfs.checkAll, hf]⟩
      | ok v =>
        have hfs' : fs ∈ l := by
          rcases List.mem_cons.1 hfs with rfl | h1
          · rw [he] at hf; simp at hf
          · exact h1
        obtain ⟨pre, g, post, e', rfl, h1, h2, h3⟩ := ih ⟨fs, hfs', e, he⟩
        refine ⟨f :: pre, g, post, e', rfl, ?_, h2, by simp [Mfs.checkAll, hf, h3]⟩
        intro g' hg'
        rcases List.mem_cons.1 hg' with rfl | hg'
        · exact ⟨v, hf⟩
        · exact h1 _ hg'
  obtain ⟨pre, fs, post, e, h1, h2, h3, h4⟩ := key _ hm
  exact ⟨pre, fs, post, e, h1, h2, h3, by simp [Mfs.delete, h4]⟩

theorem deleteAll_spec {E : Env} (hun : ∀ cls nm a, E.attr cls nm = some a → a.unset = none)
    (hrem : ∀ cls nm a old e, E.attr cls nm = some a → a.remove old = .error e → e.isFieldSelector = false)
    (l : List FS) (hp : ∀ fs ∈ l, EndsInName fs ∧ ∀ c ∈ fs, Direct c) (hdv : l.Pairwise Diverge) (x x' : Val)
    (h : Mfs.deleteAll E l x = (.ok (), x')) :
    (∀ fs ∈ l, ∃ e, get E fs x' = .error e) ∧
    ∀ q, (∀ c ∈ q, Direct c) → (∀ fs ∈ l, Diverge fs q) → get E q x' = get E q x := by
  -- reading along a path that diverges is not changed by one deletion
  have one : ∀ fs, (EndsInName fs ∧ ∀ c ∈ fs, Direct c) → ∀ q, (∀ c ∈ q, Direct c) → Diverge fs q → ∀ x,
      get E q (delete E fs x).2 = get E q x := by
    intro fs hfs q hq hd x
    obtain ⟨p, c, a, d, b, rfl, rfl, hcd⟩ := hd
    have hpl : Plain p := fun c hc => Mfs.direct_ne (hq c (by simp [hc]))
    have hdd : Direct d := hq d (by simp)
    cases hy : get E p x with
    | error e => rw [Mfs.delete_fail_prefix hpl (by simp) hy]
    | ok y =>
      obtain ⟨y', h1, h2⟩ := Mfs.delete_moved (E := E) hfs.2 hfs.1 x p c a rfl d hdd hcd y hy
      rw [get_append hpl, get_append hpl, hy, h1]
      simp only [Except.bind]
      rw [get_cons (Mfs.direct_ne hdd), get_cons (Mfs.direct_ne hdd), h2]
  induction l generalizing x with
  | nil => simp [Mfs.deleteAll] at h; subst h; simp
  | cons f l ih =>
    obtain ⟨hd1, hd2⟩ := List.pairwise_cons.1 hdv
    have hpf := hp f (by simp)
    have hpl : ∀ fs ∈ l, EndsInName fs ∧ ∀ c ∈ fs, Direct c := fun fs hfs => hp fs (by simp [hfs])
    have fin : ∀ x1, x1 = (delete E f x).2 → (∃ e, get E f x1 = .error e) →
        Mfs.deleteAll E l x1 = (.ok (), x') →
        (∀ fs ∈ f :: l, ∃ e, get E fs x' = .error e) ∧
        ∀ q, (∀ c ∈ q, Direct c) → (∀ fs ∈ f :: l, Diverge fs q) → get E q x' = get E q x := by
      intro x1 hx1 hgone h1
      obtain ⟨i1, i2⟩ := ih hpl hd2 x1 h1
      refine ⟨?_, ?_⟩
      · intro fs hfs
        rcases List.mem_cons.1 hfs with rfl | hfs
        · rw [i2 fs hpf.2 (fun g hg => Mfs.diverge_symm (hd1 g hg))]; exact hgone
        · exact i1 fs hfs
      · intro q hq hdq
        rw [i2 q hq (fun g hg => hdq g (by simp [hg])), hx1]
        exact one f hpf q hq (hdq f (by simp)) x
    cases hdel : delete E f x with
    | mk r x1 =>
      simp only [Mfs.deleteAll, hdel] at h
      cases r with
      | ok _ =>
        simp only at h
        exact fin x1 (by rw [hdel]) (Mfs.delete_gone hpf.2 hpf.1 hun hdel).1 h
      | error e =>
        simp only at h
        split at h
        · rename_i he
          obtain ⟨rfl, e', he'⟩ := Mfs.delete_fse hpf.2 hpf.1 hrem hdel he
          refine fin x1 (by rw [hdel]) ?_ h
          obtain ⟨r, nm, rfl⟩ := hpf.1
          have hpl : Plain r := fun c hc => Mfs.direct_ne (hpf.2 c (by simp [hc]))
          rw [List.dropLast_concat] at he'
          rw [get_append hpl, he']
          exact ⟨e', rfl⟩
        · simp at h

/-- C19, second part: a call that returns has removed every selected field and nothing else, if no selected
field is an item of a list (removing one moves the next) and no path has a wildcard.  `force` or not. -/
theorem C19_deleted_partial {ord : List MArg → List MArg} (ho : Mfs.OrdOK ord) {h : Heads} {qs : List FS}
    (hb : Built ord h qs) (E : Env) (hun : ∀ cls nm a, E.attr cls nm = some a → a.unset = none)
    (hrem : ∀ cls nm a old e, E.attr cls nm = some a → a.remove old = .error e → e.isFieldSelector = false)
    (hp : ∀ fs ∈ Mfs.iter h, EndsInName fs ∧ ∀ c ∈ fs, Direct c) (force : Bool) (x x' : Val)
    (hok : Mfs.delete E h force x = (.ok (), x')) :
    (∀ fs ∈ Mfs.iter h, ∃ e, get E fs x' = .error e) ∧
    ∀ q, (∀ c ∈ q, Direct c) → (∀ fs ∈ Mfs.iter h, Diverge fs q) → get E q x' = get E q x := by
  have hpw := Mfs.iter_pairwise (built_sound ho hb).1
  refine deleteAll_spec hun hrem _ hp hpw x x' ?_
  unfold Mfs.delete at hok
  split at hok
  · exact hok
  · split at hok
    · simp at hok
    · exact hok

/-- C19, second part, when the call returns: it does if every selected field is present and every one of
them may be removed. -/
theorem C19_succeeds_partial {ord : List MArg → List MArg} (ho : Mfs.OrdOK ord) {h : Heads} {qs : List FS}
    (hb : Built ord h qs) (E : Env) (hrem : ∀ cls nm a old, E.attr cls nm = some a → a.remove old = .ok ())
    (hp : ∀ fs ∈ Mfs.iter h, EndsInName fs ∧ ∀ c ∈ fs, Direct c) (x : Val)
    (hall : ∀ fs ∈ Mfs.iter h, ∃ v, get E fs x = .ok v) :
    ∃ x', Mfs.delete E h false x = (.ok (), x') := by
  have hpw := Mfs.iter_pairwise (built_sound ho hb).1
  have hck : ∀ l : List FS, (∀ fs ∈ l, ∃ v, get E fs x = .ok v) → Mfs.checkAll E l x = .ok () := by
    intro l
    induction l with
    | nil => intro _; rfl
    | cons f l ih =>
      intro hl
      obtain ⟨v, hv⟩ := hl f (by simp)
      simp only [Mfs.checkAll, hv]
      exact ih (fun fs hfs => hl fs (by simp [hfs]))
  have key : ∀ l : List FS, (∀ fs ∈ l, EndsInName fs ∧ ∀ c ∈ fs, Direct c) → l.Pairwise Diverge → ∀ x,
      (∀ fs ∈ l, ∃ v, get E fs x = .ok v) → ∃ x', Mfs.deleteAll E l x = (.ok (), x') := by
    intro l
    induction l with
    | nil => intro _ _ x _; exact ⟨x, rfl⟩
    | cons f l ih =>
      intro hp hdv x hall
      obtain ⟨hd1, hd2⟩ := List.pairwise_cons.1 hdv
      obtain ⟨v, hv⟩ := hall f (by simp)
      have hdel : (delete E f x).1 = .ok () := by
        obtain ⟨⟨r, nm, rfl⟩, hdir⟩ := hp f (by simp)
        have hpl : Plain r := fun c hc => Mfs.direct_ne (hdir c (by simp [hc]))
        rw [get_append hpl] at hv
        cases hy : get E r x with
        | error e => simp [hy, Except.bind] at hv
        | ok y =>
          obtain ⟨h1, _⟩ := Mfs.delete_prefix (r := [.str nm]) hpl (by simp) hy
          rw [h1]
          simp only [hy, Except.bind] at hv
          rw [get_cons (by simp)] at hv
          cases hs : step E y (.str nm) with
          | error e => simp [hs] at hv
          | ok u =>
            simp only [delete, delete1]
            unfold step at hs
            split at hs
            · rename_i ht
              simp only [ht, if_true]
              cases y with
              | dict xs =>
                simp only [getItem] at hs
                cases ha : alookup xs (.str nm) with
                | none => simp [ha] at hs
                | some w => simp [delItem, ha]
              | dcoll cls xs =>
                simp only [getItem] at hs
                cases ha : alookup xs (.str nm) with
                | none => simp [ha] at hs
                | some w => simp [delItem, ha]
              | _ => simp [getItem] at hs
            · rename_i ht
              simp only [ht]
              cases hg : getAttr E y (.str nm) with
              | error e => rw [hg] at hs; split at hs <;> simp_all
              | ok w =>
                simp only [Bool.false_eq_true, if_false]
                cases y with
                | rcd cls sl =>
                  simp only [delAttr]
                  cases ha : E.attr cls nm with
                  | none => rfl
                  | some a => simp [hrem _ _ _ _ ha]
                | _ => simp [getAttr] at hg
      have hrest : ∀ fs ∈ l, ∃ v, get E fs (delete E f x).2 = .ok v := by
        intro fs hfs
        obtain ⟨u, hu⟩ := hall fs (by simp [hfs])
        have hdirf := (hp f (by simp))
        have hdirs := (hp fs (by simp [hfs]))
        have hpar : ∃ y, get E fs.dropLast x = .ok y := by
          obtain ⟨⟨r, nm, rfl⟩, hdir⟩ := hdirs
          have hpl : Plain r := fun c hc => Mfs.direct_ne (hdir c (by simp [hc]))
          rw [get_append hpl] at hu
          rw [List.dropLast_concat]
          cases hy : get E r x with
          | error e => simp [hy, Except.bind] at hu
          | ok y => exact ⟨y, rfl⟩
        have := (Mfs.moved_get (Mfs.delete_moved (E := E) hdirf.2 hdirf.1 x) hdirs.2 (hd1 fs hfs) hpar).1
        exact ⟨u, by rw [this]; exact hu⟩
      obtain ⟨x', hx'⟩ := ih (fun fs hfs => hp fs (by simp [hfs])) hd2 _ hrest
      refine ⟨x', ?_⟩
      simp only [Mfs.deleteAll]
      cases hd : delete E f x with
      | mk r x1 =>
        rw [hd] at hdel hx'
        simp only at hdel; subst hdel
        exact hx'
  obtain ⟨x', hx'⟩ := key _ hp hpw x hall
  exact ⟨x', by simp [Mfs.delete, hck _ hall, hx']⟩

/-- C19 is false of the code: removing two items of a list removes the wrong one. -/
theorem C19_violated : ¬ C19_statement := by
  intro h
  have hb : Built id [(.int 0, .all), (.int 1, .all)] [[.int 0], [.int 1]] := .mk (.fs (.fs .nil)) rfl
  obtain ⟨x', h1, h2, _⟩ := (h id ordOK_id _ _ hb MfsDemo.env (by intro _ _ _ h; simp [MfsDemo.env] at h)
    (.list [.int 5, .int 6, .int 7])).2 (by
      intro fs hfs
      simp [Mfs.iter, Mfs.iterT] at hfs
      rcases hfs with rfl | rfl
      · exact ⟨.int 5, by decide +kernel⟩
      · exact ⟨.int 6, by decide +kernel⟩)
  have h3 : Mfs.delete MfsDemo.env [(.int 0, .all), (.int 1, .all)] false (.list [.int 5, .int 6, .int 7]) =
      (.ok (), .list [.int 6]) := by decide +kernel
  rw [h3] at h1; simp at h1; subst h1
  obtain ⟨e, he⟩ := h2 [.int 0] (by simp [Mfs.iter, Mfs.iterT])
  have h4 : get MfsDemo.env [.int 0] (.list [.int 6]) = .ok (.int 6) := by decide +kernel
  rw [h4] at he; simp at he

/-- A class with a required attribute `r`. -/
def MfsDemo.envR : Env :=
  { MfsDemo.env with
    attr := fun _ nm => if nm = "r" then
      some ⟨fun _ v => .ok (some v), fun _ => .error .propertyRequired, none, none⟩ else none }

/-- Another way C19 fails: a field that may not be removed stops the call after others are gone. -/
theorem C19_half_done :
    Mfs.delete MfsDemo.envR [(.str "a", .all), (.str "r", .all)] false (.rcd "R" [("a", .int 1), ("r", .int 2)]) =
      (.error .propertyRequired, .rcd "R" [("r", .int 2)]) := by decide +kernel

/-! ## C20 -/

/-- C20 in full. -/
def C20_statement : Prop :=
  ∀ (ord : List MArg → List MArg), Mfs.OrdOK ord → ∀ (h : Heads) (qs : List FS), Built ord h qs →
  ∀ (E : Env), Honest E → Keeps E → (∀ cls nm a, E.attr cls nm = some a → a.unset = none) →
  ∀ (target source target' : Val), Mfs.patch E h target source = (.ok (), target') →
    (∀ fs ∈ Mfs.iter h,
      (∀ v, get E fs source = .ok v → get E fs target' = .ok v) ∧
      (∀ e, get E fs source = .error e → ∃ e', get E fs target' = .error e')) ∧
    ∀ q, (∀ c ∈ q, Direct c) → (∀ fs ∈ Mfs.iter h, Diverge fs q) → ∀ v, get E q target = .ok v →
      get E q target' = .ok v

theorem fetch_spec {E : Env} {source : Val} {l : List FS} {r : List (FS × Option Val)}
    (h : Mfs.fetch E source l = .ok r) :
    r.map (·.1) = l ∧ ∀ e ∈ r, match e.2 with
      | some v => get E e.1 source = .ok v
      | none => ∃ x, get E e.1 source = .error x := by
  induction l generalizing r with
  | nil => simp [Mfs.fetch] at h; subst h; simp
  | cons f l ih =>
    simp only [Mfs.fetch] at h
    split at h
    · rename_i v hv
      split at h
      · simp at h
      · rename_i r' hr
        simp at h; subst h
        obtain ⟨h1, h2⟩ := ih hr
        refine ⟨by simp [h1], ?_⟩
        intro e he
        rcases List.mem_cons.1 he with rfl | he
        · exact hv
        · exact h2 e he
    · rename_i x hx
      split at h
      · split at h
        · simp at h
        · rename_i r' hr
          simp at h; subst h
          obtain ⟨h1, h2⟩ := ih hr
          refine ⟨by simp [h1], ?_⟩
          intro e he
          rcases List.mem_cons.1 he with rfl | he
          · exact ⟨x, hx⟩
          · exact h2 e he
      · simp at h

theorem parent_of_get {E : Env} {fs : FS} (hdir : ∀ c ∈ fs, Direct c) {x v : Val} (h : get E fs x = .ok v) :
    ∃ y, get E fs.dropLast x = .ok y := by
  rcases List.eq_nil_or_concat fs with rfl | ⟨r, c, rfl⟩
  · exact ⟨x, rfl⟩
  · rw [List.concat_eq_append] at h hdir ⊢
    have hpl : Plain r := fun c hc => Mfs.direct_ne (hdir c (by simp [hc]))
    rw [get_append hpl] at h
    rw [List.dropLast_concat]
    cases hy : get E r x with
    | error e => simp [hy, Except.bind] at h
    | ok y => exact ⟨y, rfl⟩

/-- The field reads as the value, or is absent. -/
def ReadsAs (E : Env) (fs : FS) (x : Val) : Option Val → Prop
  | some v => get E fs x = .ok v
  | none => ∃ e, get E fs x = .error e

theorem store_spec {E : Env} (hE : Honest E) (hK : Keeps E)
    (hun : ∀ cls nm a, E.attr cls nm = some a → a.unset = none)
    (l : List (FS × Option Val)) (hne : ∀ e ∈ l, e.1 ≠ []) (hdir : ∀ e ∈ l, ∀ c ∈ e.1, Direct c)
    (hname : ∀ e ∈ l, e.2 = none → EndsInName e.1)
    (hdv : (l.map (·.1)).Pairwise Diverge) (x x' : Val) (h : Mfs.store E l x = (.ok (), x'))
    (hnk : ∀ pre fs v post, l = pre ++ (fs, some v) :: post → NoNewKeys E v fs (Mfs.store E pre x).2) :
    (∀ e ∈ l, ReadsAs E e.1 x' e.2) ∧
    ∀ q, (∀ c ∈ q, Direct c) → (∀ e ∈ l, Diverge e.1 q) → (∃ y, get E q.dropLast x = .ok y) →
      get E q x' = get E q x := by
  induction l generalizing x with
  | nil => simp [Mfs.store] at h; subst h; simp
  | cons f l ih =>
    obtain ⟨fs, o⟩ := f
    simp only [List.map_cons, List.pairwise_cons] at hdv
    obtain ⟨hd1, hd2⟩ := hdv
    have hfd : ∀ c ∈ fs, Direct c := hdir (fs, o) (by simp)
    have hfne : fs ≠ [] := hne (fs, o) (by simp)
    -- one write, then the rest
    have fin : ∀ x1, Mfs.Moved E fs x x1 → (∃ y, get E fs.dropLast x1 = .ok y) →
        ReadsAs E fs x1 o →
        Mfs.store E l x1 = (.ok (), x') →
        (∀ pre gs v post, l = pre ++ (gs, some v) :: post → NoNewKeys E v gs (Mfs.store E pre x1).2) →
        (∀ e ∈ (fs, o) :: l, ReadsAs E e.1 x' e.2) ∧
        ∀ q, (∀ c ∈ q, Direct c) → (∀ e ∈ (fs, o) :: l, Diverge e.1 q) → (∃ y, get E q.dropLast x = .ok y) →
          get E q x' = get E q x := by
      intro x1 hmv hpar hread h1 hnk1
      obtain ⟨i1, i2⟩ := ih (fun e he => hne e (by simp [he])) (fun e he => hdir e (by simp [he]))
        (fun e he => hname e (by simp [he])) hd2 x1 h1 hnk1
      refine ⟨?_, ?_⟩
      · intro e he
        rcases List.mem_cons.1 he with rfl | he
        · have hs : get E fs x' = get E fs x1 :=
            i2 fs hfd (fun g hg => Mfs.diverge_symm (hd1 g.1 (List.mem_map.2 ⟨g, hg, rfl⟩))) hpar
          cases o with
          | none => obtain ⟨e, he⟩ := hread; exact ⟨e, hs.trans he⟩
          | some v => exact hs.trans hread
        · exact i1 e he
      · intro q hq hdq hqp
        obtain ⟨m1, m2⟩ := Mfs.moved_get hmv hq (hdq (fs, o) (by simp)) hqp
        rw [i2 q hq (fun g hg => hdq g (by simp [hg])) m2, m1]
    cases o with
    | none =>
      simp only [Mfs.store] at h
      cases hdel : delete E fs x with
      | mk r x1 =>
        rw [hdel] at h
        cases r with
        | error e => simp at h
        | ok _ =>
          simp only at h
          have hen := hname (fs, none) (by simp) rfl
          obtain ⟨g1, g2⟩ := Mfs.delete_gone hfd hen hun hdel
          have hmv := Mfs.delete_moved (E := E) hfd hen x
          rw [hdel] at hmv
          refine fin x1 hmv g2 g1 h ?_
          intro pre gs v post hl
          have := hnk ((fs, none) :: pre) gs v post (by simp [hl])
          simpa [Mfs.store, hdel] using this
    | some v =>
      simp only [Mfs.store] at h
      cases hpo : post E fs v x with
      | mk r x1 =>
        rw [hpo] at h
        cases r with
        | error e => simp at h
        | ok n =>
          simp only at h
          have hk : NoNewKeys E v fs x := by
            have := hnk [] fs v l rfl
            simpa [Mfs.store] using this
          have hread : get E fs x1 = .ok v := by
            rcases List.eq_nil_or_concat fs with rfl | ⟨p, c, rfl⟩
            · exact absurd rfl hfne
            · rw [List.concat_eq_append] at hpo hk hfd ⊢
              exact Mfs.post_reads hE hK p c (fun c hc => Mfs.direct_ne (hfd c hc)) v x x1 n hpo hk
          refine fin x1 (Mfs.post_moved hE hfd hpo hk) (parent_of_get hfd hread) hread h ?_
          intro pre gs v' post hl
          have := hnk ((fs, some v) :: pre) gs v' post (by simp [hl])
          simpa [Mfs.store, hpo] using this

/-- C20: after a patch that returns, each selected field reads in the target as in the source, or is absent
if it is absent there, and every other part of the target (below containers it already had) reads as
before.  For selectors without wildcards; fields absent in the source must be attributes or keys (removing a
list item moves the next), and no key of a dict collection may have to be created on the way (`hnk`; that is
where the code goes wrong, see `C20_violated`). -/
theorem C20_patch_partial {ord : List MArg → List MArg} (ho : Mfs.OrdOK ord) {h : Heads} {qs : List FS}
    (hb : Built ord h qs) (E : Env) (hE : Honest E) (hK : Keeps E)
    (hun : ∀ cls nm a, E.attr cls nm = some a → a.unset = none) (target source target' : Val)
    (hdir : ∀ fs ∈ Mfs.iter h, ∀ c ∈ fs, Direct c)
    (hname : ∀ fs ∈ Mfs.iter h, ∀ e, get E fs source = .error e → EndsInName fs)
    (hok : Mfs.patch E h target source = (.ok (), target'))
    (hnk : ∀ pre fs v post, Mfs.fetch E source (Mfs.iter h) = .ok (pre ++ (fs, some v) :: post) →
      NoNewKeys E v fs (Mfs.store E pre target).2) :
    (∀ fs ∈ Mfs.iter h,
      (∀ v, get E fs source = .ok v → get E fs target' = .ok v) ∧
      (∀ e, get E fs source = .error e → ∃ e', get E fs target' = .error e')) ∧
    ∀ q, (∀ c ∈ q, Direct c) → (∀ fs ∈ Mfs.iter h, Diverge fs q) → (∃ y, get E q.dropLast target = .ok y) →
      get E q target' = get E q target := by
  have hpw := Mfs.iter_pairwise (built_sound ho hb).1
  unfold Mfs.patch at hok
  split at hok
  · simp at hok
  · rename_i l hl
    obtain ⟨h1, h2⟩ := fetch_spec hl
    have hmem : ∀ e ∈ l, e.1 ∈ Mfs.iter h := by
      intro e he; rw [← h1]; exact List.mem_map.2 ⟨e, he, rfl⟩
    obtain ⟨s1, s2⟩ := store_spec hE hK hun l
      (fun e he hnil => Mfs.nil_not_mem_iter (hnil ▸ hmem e he))
      (fun e he => hdir _ (hmem e he))
      (fun e he hn => by
        have := h2 e he
        rw [hn] at this
        obtain ⟨x, hx⟩ := this
        exact hname _ (hmem e he) x hx)
      (by rw [h1]; exact hpw) target target' hok
      (fun pre fs v post hp => hnk pre fs v post (by rw [hl, hp]))
    refine ⟨?_, ?_⟩
    · intro fs hfs
      rw [← h1] at hfs
      obtain ⟨e, he, rfl⟩ := List.mem_map.1 hfs
      have a1 := h2 e he
      have a2 := s1 e he
      cases ho : e.2 with
      | none =>
        simp only [ho] at a1 a2
        obtain ⟨x, hx⟩ := a1
        refine ⟨fun v hv => ?_, fun _ _ => a2⟩
        rw [hx] at hv; simp at hv
      | some u =>
        simp only [ho] at a1 a2
        refine ⟨fun v hv => ?_, fun e' hv => ?_⟩
        · rw [a1] at hv; simp at hv; subst hv; exact a2
        · rw [a1] at hv; simp at hv
    · intro q hq hdq hp
      exact s2 q hq (fun e he => hdq _ (hmem e he)) hp

/-- If a selected field cannot be read in the source for a reason other than a missing attribute, patch raises
that and the target is unchanged. -/
theorem C20_unreadable_unchanged (E : Env) (h : Heads) (target source : Val)
    (hm : ∃ fs ∈ Mfs.iter h, ∃ e, get E fs source = .error e ∧ e.isAttribute = false) :
    ∃ e, Mfs.patch E h target source = (.error e, target) := by
  have key : ∀ l : List FS, (∃ fs ∈ l, ∃ e, get E fs source = .error e ∧ e.isAttribute = false) →
      ∃ e, Mfs.fetch E source l = .error e := by
    intro l
    induction l with
    | nil => simp
    | cons f l ih =>
      rintro ⟨fs, hfs, e, he, ha⟩
      rcases List.mem_cons.1 hfs with rfl | hfs
      · exact ⟨e, by simp [Mfs.fetch, he, ha]⟩
      · obtain ⟨e', he'⟩ := ih ⟨fs, hfs, e, he, ha⟩
        simp only [Mfs.fetch, he']
        split
        · exact ⟨e', rfl⟩
        · split <;> exact ⟨_, rfl⟩
  obtain ⟨e, he⟩ := key _ hm
  exact ⟨e, by simp [Mfs.patch, he]⟩

namespace MfsDemo

theorem env_honest : Honest env where
  item cls kw z h := by simp [env] at h
  attr cls nm a f kw z h := by simp [env] at h
  itemKw cls s v z h := by simp [env] at h
  attrKw cls nm a f s v z h := by simp [env] at h

theorem env_keeps : Keeps env where
  assign cls nm a old v s h := by simp [env] at h
  item cls v u h := by
    simp only [env] at h
    split at h
    · simpa using h.symm
    · simp at h
  itemKw cls s v z h := by simp [env] at h
  attrKw cls nm a f s v z h := by simp [env] at h

/-- `a.b`, `a.z` -/
def mfs2 : Heads := [(.str "a", .node [(.str "b", .all), (.str "z", .all)])]

/-- has `a.b` but no `a.z` -/
def src : Val := .rcd "R" [("a", .rcd "Q" [("b", .str "new")]), ("k", .int 8)]

/-- `x` with `a.b` and `a.z` as in `src` -/
def patched : Val := .rcd "R" [("a", .rcd "Q" [("b", .str "new"), ("c", .lcoll "L"
  [.rcd "P" [("n", .int 1)], .rcd "P" [("n", .int 2), ("m", .int 4)], .rcd "P" []])]), ("k", .int 9)]

example : Mfs.patch env mfs2 x src = (.ok (), patched) := by decide +kernel

example : get env [.str "k"] patched = get env [.str "k"] x ∧ get env [.str "a", .str "b"] patched = .ok (.str "new") := by
  have hb : Built id mfs2 [[.str "a", .str "b"], [.str "a", .str "z"]] := .mk (.fs (.fs .nil)) rfl
  have hit : ∀ fs, fs ∈ Mfs.iter mfs2 ↔ fs = [.str "a", .str "b"] ∨ fs = [.str "a", .str "z"] := by
    intro fs; simp [mfs2, Mfs.iter, Mfs.iterT, FS.add]
  obtain ⟨h1, h2⟩ := C20_patch_partial ordOK_id hb env env_honest env_keeps (by intro _ _ _ h; simp [env] at h)
    x src patched
    (by intro fs hfs c hc; rcases (hit fs).1 hfs with rfl | rfl <;> (simp at hc; rcases hc with rfl | rfl <;> trivial))
    (by
      intro fs hfs e _
      rcases (hit fs).1 hfs with rfl | rfl
      · exact ⟨[.str "a"], "b", rfl⟩
      · exact ⟨[.str "a"], "z", rfl⟩)
    (by decide +kernel)
    (by
      intro pre fs v post hf
      have hfe : Mfs.fetch env src (Mfs.iter mfs2) =
          .ok [([.str "a", .str "b"], some (.str "new")), ([.str "a", .str "z"], none)] := by decide +kernel
      rw [hfe] at hf
      cases pre with
      | nil =>
        simp at hf; obtain ⟨⟨rfl, rfl⟩, _⟩ := hf
        exact .cons (by simp [Mfs.store, x, tryIndex]) (fun _ _ _ _ => .one)
      | cons e pre =>
        cases pre with
        | nil => simp at hf
        | cons e' pre => simp at hf)
  exact ⟨h2 [.str "k"] (by intro c hc; simp at hc; subst hc; trivial) (by
    intro fs hfs
    rcases (hit fs).1 hfs with rfl | rfl
    · exact ⟨[], _, _, _, _, rfl, rfl, by simp⟩
    · exact ⟨[], _, _, _, _, rfl, rfl, by simp⟩) ⟨x, rfl⟩,
    (h1 [.str "a", .str "b"] ((hit _).2 (.inl rfl))).1 _ (by decide +kernel)⟩

end MfsDemo

namespace Demo

theorem mkPerson_keeps {s : String} {v z : Val} (h : mkPerson (some (s, v)) = .ok z) :
    z = .rcd "Person" [("name", v)] ∧ s = "name" := by
  unfold mkPerson at h
  split at h
  · simp at *
  · rename_i heq
    simp at h heq
    obtain ⟨rfl, rfl⟩ := heq
    exact ⟨h.symm, rfl⟩
  · simp at h

theorem keeps' : Keeps env' where
  assign cls nm a old v s ha hs := by
    simp only [env', env] at ha
    split at ha
    · simp at ha
    · split at ha
      · unfold personAttr at ha
        split at ha <;> simp only [Option.some.injEq, reduceCtorEq] at ha <;> subst ha <;>
          · simp only [typed] at hs
            split at hs <;> simp at hs
            exact hs.symm
      · rename_i h; exact absurd rfl h
      · simp at ha
  item cls v u h := by
    simp only [env', env] at h
    split at h
    · simpa using h.symm
    · simp at h
  itemKw cls s v z h := by
    obtain ⟨rfl, rfl⟩ := mkPerson_keeps h
    rfl
  attrKw cls nm a f s v z ha hm h := by
    simp only [env'] at ha
    split at ha
    · simp at ha
    · rcases attr_make ha hm with rfl | ⟨_, rfl⟩
      · obtain ⟨rfl, rfl⟩ := mkPerson_keeps h
        rfl
      · simp at h

theorem unset' (cls nm : String) (a : Attr) (ha : env'.attr cls nm = some a) : a.unset = none := by
  simp only [env', env] at ha
  split at ha
  · simp at ha
  · split at ha
    · unfold personAttr at ha
      split at ha <;> simp only [Option.some.injEq, reduceCtorEq] at ha <;> subst ha <;> rfl
    · rename_i h; exact absurd rfl h
    · simp at ha

end Demo

/-- C20 is false of the code: patching a field of an item that a dict collection does not have yet writes it
to another key. -/
theorem C20_violated : ¬ C20_statement := by
  intro h
  have hb : Built id [(.str "k", .node [(.str "boss", .node [(.str "name", .all)])])]
      [[.str "k", .str "boss", .str "name"]] := .mk (.fs .nil) rfl
  have hp : Mfs.patch Demo.env' [(.str "k", .node [(.str "boss", .node [(.str "name", .all)])])]
      (.dcoll "Index" [])
      (.dcoll "Index" [(.str "k", .rcd "Person" [("boss", .rcd "Person" [("name", .str "X")])])]) =
      (.ok (), .dcoll "Index" [(.str "k", .rcd "Person" []), (.str "boss", .rcd "Person" [("name", .str "X")])]) := by
    decide +kernel
  have h1 := ((h id ordOK_id _ _ hb Demo.env' Demo.honest' Demo.keeps' Demo.unset' _ _ _ hp).1
    [.str "k", .str "boss", .str "name"] (by simp [Mfs.iter, Mfs.iterT, FS.add])).1 (.str "X") (by decide +kernel)
  have h2 : get Demo.env' [.str "k", .str "boss", .str "name"] (.dcoll "Index" [(.str "k", .rcd "Person" []),
      (.str "boss", .rcd "Person" [("name", .str "X")])]) = .error (.fsAttribute "boss") := by decide +kernel
  rw [h2] at h1; simp at h1

end Normalize
