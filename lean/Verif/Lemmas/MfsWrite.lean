import Verif.Lemmas.MfsGet3
import Verif.Props.Access

/-!
# Lemmas about deleting and patching by a set of selectors
-/

namespace Normalize.Mfs

open Spec

variable {E : Env}

theorem direct_ne {c : Comp} (h : Direct c) : c ≠ .none := by cases c <;> simp [Direct] at h ⊢

theorem apart_of_direct {x : Val} {c d : Comp} (hc : Direct c) (hd : Direct d) (h : c ≠ d) : Apart x c d := by
  have key : ∀ (n : Nat) (i j : Int), 0 ≤ i → 0 ≤ j → i ≠ j → ∀ k, pyIndex n i = some k → pyIndex n j ≠ some k := by
    intro n i j hi hj hne k h1 h2
    unfold pyIndex at h1 h2
    simp only [hi, hj, if_true] at h1 h2
    split at h1 <;> simp at h1
    split at h2 <;> simp at h2
    omega
  cases c with
  | none => simp [Direct] at hc
  | str s => cases x <;> exact h
  | int i =>
    cases d with
    | none => simp [Direct] at hd
    | str s => cases x <;> exact h
    | int j =>
      have hij : i ≠ j := fun e => h (by rw [e])
      cases x <;> first | exact h | exact key _ i j hc hd hij

/-- The operation took place elsewhere: what the two selectors share is still there, and the other branch is
as it was. -/
def Moved (E : Env) (fs : FS) (x x' : Val) : Prop :=
  ∀ p c a, fs = p ++ c :: a → ∀ d, Direct d → c ≠ d → ∀ y, Normalize.get E p x = .ok y →
    ∃ y', Normalize.get E p x' = .ok y' ∧ step E y' d = step E y d

theorem moved_refl (fs : FS) (x : Val) : Moved E fs x x := fun _ _ _ _ _ _ _ y h => ⟨y, h, rfl⟩

theorem moved_get {fs q : FS} {x x' : Val} (h : Moved E fs x x') (hdir : ∀ c ∈ q, Direct c) (hdv : Diverge fs q)
    (hpar : ∃ y, Normalize.get E q.dropLast x = .ok y) :
    Normalize.get E q x' = Normalize.get E q x ∧ ∃ y, Normalize.get E q.dropLast x' = .ok y := by
  obtain ⟨p, c, a, d, b, rfl, rfl, hcd⟩ := hdv
  have hpl : Plain p := fun c hc => direct_ne (hdir c (by simp [hc]))
  have hd : Direct d := hdir d (by simp)
  obtain ⟨y0, hy0⟩ := hpar
  have hdl : (p ++ d :: b).dropLast = p ++ (d :: b).dropLast := by
    rw [List.dropLast_append_of_ne_nil (by simp)]
  rw [hdl, get_append hpl] at hy0
  cases hp : Normalize.get E p x with
  | error e => simp [hp, Except.bind] at hy0
  | ok y =>
    obtain ⟨y', h1, h2⟩ := h p c a rfl d hd hcd y hp
    have hsame : ∀ b, Normalize.get E (p ++ d :: b) x' = Normalize.get E (p ++ d :: b) x := by
      intro b
      rw [get_append hpl, get_append hpl, hp, h1]
      simp only [Except.bind]
      rw [get_cons (direct_ne hd), get_cons (direct_ne hd), h2]
    refine ⟨hsame b, ?_⟩
    rw [hdl]
    cases b with
    | nil => exact ⟨y', by simpa using h1⟩
    | cons e b =>
      simp only [List.dropLast_cons_cons]
      rw [hsame, get_append hpl, hp]
      simp only [hp] at hy0
      exact ⟨y0, hy0⟩

/-! ## delete -/

theorem delete_prefix {p r : FS} (hp : Plain p) (hr : r ≠ []) {x y : Val} (h : Normalize.get E p x = .ok y) :
    (Normalize.delete E (p ++ r) x).1 = (Normalize.delete E r y).1 ∧
    Normalize.get E p (Normalize.delete E (p ++ r) x).2 = .ok (Normalize.delete E r y).2 := by
  induction p generalizing x with
  | nil => simp only [Normalize.get, Except.ok.injEq] at h; subst h; exact ⟨rfl, rfl⟩
  | cons c p ih =>
    have hc : c ≠ .none := hp c (by simp)
    have hp' : Plain p := fun c hc => hp c (by simp [hc])
    rw [get_cons hc] at h
    cases hs : step E x c with
    | error e => simp [hs] at h
    | ok z =>
      simp only [hs] at h
      obtain ⟨h1, h2⟩ := ih hp' h
      rw [List.cons_append, delete_cons hc (by simp [hr]), hs]
      simp only
      refine ⟨h1, ?_⟩
      rw [get_cons hc]
      rcases step_replaceChild_self (Normalize.delete E (p ++ r) z).2 hs with h3 | ⟨⟨a, rfl⟩, h3⟩
      · rw [h3]; exact h2
      · rw [h3, hs]
        rw [delete_atom_state] at h2; exact h2

theorem delete_fail_prefix {p r : FS} (hp : Plain p) (hr : r ≠ []) {x : Val} {e : Exc}
    (h : Normalize.get E p x = .error e) : Normalize.delete E (p ++ r) x = (.error e, x) := by
  induction p generalizing x with
  | nil => simp [Normalize.get] at h
  | cons c p ih =>
    have hc : c ≠ .none := hp c (by simp)
    have hp' : Plain p := fun c hc => hp c (by simp [hc])
    rw [get_cons hc] at h
    rw [List.cons_append, delete_cons hc (by simp [hr])]
    cases hs : step E x c with
    | error e' => simp [hs] at h; simp [h]
    | ok z =>
      simp only [hs] at h
      simp only [ih hp' h]
      rw [replaceChild_same hs]

theorem delete1_other {c d : Comp} (hc : Direct c) (hd : Direct d) (h : c ≠ d) {y : Val}
    (hname : ∃ nm, c = .str nm) : step E (delete1 E c y).2 d = step E y d := by
  by_cases hk : Keyed y
  · exact delete1_frame (direct_ne hc) (apart_of_direct hc hd h) hk
  · obtain ⟨nm, rfl⟩ := hname
    cases y with
    | list xs => rfl
    | lcoll cls xs => rfl
    | _ => exact absurd trivial hk

theorem delete_moved {fs : FS} (hdir : ∀ c ∈ fs, Direct c) (hname : EndsInName fs) (x : Val) :
    Moved E fs x (Normalize.delete E fs x).2 := by
  rintro p c a rfl d hd hcd y hy
  have hpl : Plain p := fun c hc => direct_ne (hdir c (by simp [hc]))
  have hc : Direct c := hdir c (by simp)
  obtain ⟨_, h2⟩ := delete_prefix (r := c :: a) hpl (by simp) hy
  refine ⟨_, h2, ?_⟩
  cases a with
  | nil =>
    obtain ⟨r, nm, hr⟩ := hname
    have : c = .str nm := by
      have := congrArg List.getLast? hr; simpa using this
    simp only [Normalize.delete]
    exact delete1_other hc hd hcd ⟨nm, this⟩
  | cons e a =>
    rw [delete_cons (direct_ne hc) (by simp)]
    cases hs : step E y c with
    | error e => rfl
    | ok z => exact step_replaceChild_other _ (apart_of_direct hc hd hcd)

/-- What a successful deletion leaves. -/
theorem delete_gone {fs : FS} (hdir : ∀ c ∈ fs, Direct c) (hname : EndsInName fs)
    (hun : ∀ cls nm a, E.attr cls nm = some a → a.unset = none) {x x' : Val}
    (h : Normalize.delete E fs x = (.ok (), x')) :
    (∃ e, Normalize.get E fs x' = .error e) ∧ ∃ y, Normalize.get E fs.dropLast x' = .ok y := by
  obtain ⟨r, nm, rfl⟩ := hname
  have hpl : Plain r := fun c hc => direct_ne (hdir c (by simp [hc]))
  cases hy : Normalize.get E r x with
  | error e => rw [delete_fail_prefix hpl (by simp) hy] at h; simp at h
  | ok y =>
    obtain ⟨h1, h2⟩ := delete_prefix (r := [.str nm]) hpl (by simp) hy
    rw [h] at h1 h2
    refine ⟨?_, by rw [List.dropLast_concat]; exact ⟨_, h2⟩⟩
    refine C10_delete_gone E r (.str nm) ?_ x x' y h hy ?_ ?_
    · intro c hc; exact direct_ne (hdir c hc)
    · simp only [Normalize.delete] at h1
      cases y with
      | list xs => simp [delete1, tryIndex, delItem] at h1
      | lcoll cls xs => simp [delete1, tryIndex, delItem] at h1
      | _ => trivial
    · intro cls sl nm' a _ _ ha; exact hun _ _ _ ha

/-- A deletion that raises a selector error: the field was not there. -/
theorem delete_fse {fs : FS} (hdir : ∀ c ∈ fs, Direct c) (hname : EndsInName fs)
    (hrem : ∀ cls nm a old e, E.attr cls nm = some a → a.remove old = .error e → e.isFieldSelector = false)
    {x x' : Val} {e : Exc} (h : Normalize.delete E fs x = (.error e, x')) (he : e.isFieldSelector = true) :
    x' = x ∧ ∃ e', Normalize.get E fs.dropLast x = .error e' := by
  obtain ⟨r, nm, rfl⟩ := hname
  have hpl : Plain r := fun c hc => direct_ne (hdir c (by simp [hc]))
  rw [List.dropLast_concat]
  cases hy : Normalize.get E r x with
  | error e' =>
    rw [delete_fail_prefix hpl (by simp) hy] at h; simp at h
    exact ⟨h.2.symm, e', rfl⟩
  | ok y =>
    exfalso
    obtain ⟨h1, _⟩ := delete_prefix (r := [.str nm]) hpl (by simp) hy
    rw [h] at h1
    simp only [Normalize.delete, delete1] at h1
    split at h1
    · simp only [delItem] at h1
      cases y <;> simp only at h1
      all_goals first
        | (simp at h1; subst h1; simp [Exc.isFieldSelector] at he)
        | (split at h1 <;> simp at h1; subst h1; simp [Exc.isFieldSelector] at he)
    · cases hg : getAttr E y (.str nm) with
      | ok v =>
        simp only [hg] at h1
        cases y with
        | rcd cls sl =>
          simp only [delAttr] at h1
          cases ha : E.attr cls nm with
          | none => simp [ha] at h1
          | some a =>
            simp only [ha] at h1
            cases hr : a.remove (alookup sl nm) with
            | ok _ => simp [hr] at h1
            | error e2 =>
              simp [hr] at h1; subst h1
              rw [hrem _ _ _ _ _ ha hr] at he; simp at he
        | _ => simp [getAttr] at hg
      | error e2 =>
        rw [hg] at h1
        have : e2 = .attributeError := by
          cases y <;> simp only [getAttr] at hg
          all_goals first
            | (simp at hg; exact hg.symm)
            | (split at hg
               · simp at hg
               · split at hg <;> simp at hg; exact hg.symm)
        subst this
        simp at h1

/-! ## post -/

theorem getIdx_append_other {α : Type} (xs : List α) (z : α) {j : Int} (hj : 0 ≤ j) (hne : j ≠ xs.length) :
    getIdx (xs ++ [z]) j = getIdx xs j := by
  obtain ⟨n, rfl⟩ : ∃ n : Nat, j = n := ⟨j.toNat, by omega⟩
  unfold getIdx pyIndex
  by_cases h : n < xs.length
  · have h1 : (n : Int) < ((xs ++ [z]).length : Nat) := by simp; omega
    have h2 : (n : Int) < (xs.length : Nat) := by omega
    simp only [hj, h1, h2, if_true, Option.bind_some, Int.toNat_natCast]
    rw [List.getElem?_append_left h]
  · have h1 : ¬ (n : Int) < ((xs ++ [z]).length : Nat) := by simp; omega
    have h2 : ¬ (n : Int) < (xs.length : Nat) := by omega
    simp only [hj, h1, h2, if_true, if_false, Option.bind_none]

/-- A step of post does not touch other branches. -/
theorem stepPost_other (hE : Honest E) {x : Val} {c d : Comp} (hc : Direct c) (hd : Direct d) (hcd : c ≠ d)
    {kw : Option (Comp × Val)} {x' : Val} {b : Bool} {y : Val} (h : stepPost E x c kw = (x', b, .child y)) :
    step E x' d = step E x d := by
  unfold stepPost at h
  split at h
  · rename_i ht
    cases hg : getItem x c with
    | ok v =>
      simp only [hg, Prod.mk.injEq, Walk.child.injEq] at h
      obtain ⟨rfl, rfl, rfl⟩ := h; rfl
    | error e =>
      rw [hg] at h
      split at h
      · simp_all
      · split at h
        · rename_i hcl
          cases hn : newItem E x kw with
          | error e => simp [hn] at h
          | ok it =>
            simp only [hn] at h
            cases x with
            | lcoll cls xs =>
              simp only [newItem] at hn
              simp only [lenVal] at hcl; subst hcl
              have hco : E.coerceItem cls it = .ok it := by
                rcases callKw_ok hn with ⟨_, h'⟩ | ⟨s, v, _, h'⟩
                · exact hE.item _ _ _ h'
                · exact hE.item _ _ _ h'
              simp only [append, hco] at h
              have hg2 : getItem (.lcoll cls (xs ++ [it])) (.int xs.length) = .ok it := by
                simp only [getItem]; rw [getIdx_append_end]
              rw [hg2] at h
              simp only [Prod.mk.injEq, Walk.child.injEq] at h
              obtain ⟨rfl, rfl, rfl⟩ := h
              cases d with
              | none => simp [Direct] at hd
              | str s => rfl
              | int j =>
                have : j ≠ xs.length := by rintro rfl; exact hcd rfl
                simp only [step, tryIndex, getItem, if_true]
                rw [getIdx_append_other xs it hd this]
            | dcoll cls xs => subst hcl; simp [append] at h
            | atom a => simp [newItem] at hn
            | list xs => simp [newItem] at hn
            | dict xs => simp [newItem] at hn
            | rcd cls sl => simp [newItem] at hn
        · simp at h
      · split at h
        · simp at h
        · split at h <;> simp at h
      · simp at h
  · rename_i ht
    have ht : tryIndex x c = false := by simpa using ht
    cases hg : getAttr E x c with
    | ok v =>
      simp only [hg, Prod.mk.injEq, Walk.child.injEq] at h
      obtain ⟨rfl, rfl, rfl⟩ := h
      rfl
    | error e =>
      rw [hg] at h
      split at h
      · simp_all
      · cases hn : newAttr E x c kw with
        | error e => simp [hn] at h
        | ok v =>
          simp only [hn] at h
          cases x with
          | rcd cls sl =>
            cases c with
            | str nm =>
              have hs := put1_frame (E := E) (c := .str nm) (d := d) (v := v) (x := .rcd cls sl) (by simp) hcd
              cases hsa : setAttr E (.rcd cls sl) (.str nm) v with
              | mk r x1 =>
                simp only [put1, tryIndex, hsa] at hs
                rw [hsa] at h
                cases r with
                | error e => simp at h
                | ok _ =>
                  simp only at h hs
                  have hxx : x' = x1 := by
                    split at h
                    · simp at h
                    · simp at h; exact h.1.symm
                  subst hxx; simpa using hs
            | int i => simp [newAttr] at hn
            | none => simp [newAttr] at hn
          | atom a => simp [newAttr] at hn
          | list xs => simp [newAttr] at hn
          | dict xs => simp [newAttr] at hn
          | lcoll cls xs => simp [newAttr] at hn
          | dcoll cls xs => simp [newAttr] at hn
      · simp at h

theorem noNewKeys_cons {v : Val} {d : Comp} {q : FS} (hq : q ≠ []) {x : Val} (hk : NoNewKeys E v (d :: q) x) :
    (tryIndex x d = true → getItem x d ≠ .error .keyError) ∧
    (∀ x' b y, stepPost E x d (kwarg q v) = (x', b, .child y) → NoNewKeys E v q y) := by
  cases q with
  | nil => exact absurd rfl hq
  | cons e q => cases hk with | cons h1 h2 => exact ⟨h1, h2⟩

theorem post_prefix {v : Val} {p r : FS} (hr : r ≠ []) (hpr : Plain (p ++ r)) {x y : Val} {n : Nat} {x' : Val}
    (hpo : Normalize.post E (p ++ r) v x = (.ok n, x')) (hk : NoNewKeys E v (p ++ r) x)
    (h : Normalize.get E p x = .ok y) :
    Normalize.post E r v y = (.ok n, (Normalize.post E r v y).2) ∧ NoNewKeys E v r y ∧
    Normalize.get E p x' = .ok (Normalize.post E r v y).2 := by
  induction p generalizing x x' with
  | nil =>
    simp only [Normalize.get, Except.ok.injEq] at h; subst h
    simp only [List.nil_append] at hpo hk
    rw [hpo]; exact ⟨rfl, hk, rfl⟩
  | cons c p ih =>
    have hc : c ≠ .none := hpr c (by simp)
    have hpr' : Plain (p ++ r) := fun c hc => hpr c (by simp at hc ⊢; simp [hc])
    rw [get_cons hc] at h
    cases hs : step E x c with
    | error e => simp [hs] at h
    | ok z =>
      simp only [hs] at h
      rw [List.cons_append] at hpo hk
      have hne : p ++ r ≠ [] := by simp [hr]
      rw [post_cons hc hne, stepPost_present _ hs] at hpo
      simp only [Prod.mk.injEq] at hpo
      obtain ⟨_, hk2⟩ := noNewKeys_cons hne hk
      obtain ⟨h1, h2, h3⟩ := ih (x' := (Normalize.post E (p ++ r) v z).2) hpr' (Prod.ext hpo.1 rfl)
        (hk2 _ _ _ (stepPost_present _ hs)) h
      refine ⟨h1, h2, ?_⟩
      rw [get_cons hc, ← hpo.2]
      rcases step_replaceChild_self (Normalize.post E (p ++ r) v z).2 hs with h4 | ⟨⟨a, rfl⟩, _⟩
      · rw [h4]; exact h3
      · obtain ⟨e, he⟩ := post_atom_plain (E := E) hpr' v a
        rw [he] at hpo; simp at hpo

theorem post_moved (hE : Honest E) {fs : FS} (hdir : ∀ c ∈ fs, Direct c) {v x x' : Val} {n : Nat}
    (h : Normalize.post E fs v x = (.ok n, x')) (hk : NoNewKeys E v fs x) : Moved E fs x x' := by
  rintro p c a rfl d hd hcd y hy
  have hpl : Plain (p ++ c :: a) := fun c hc => direct_ne (hdir c hc)
  have hc : Direct c := hdir c (by simp)
  obtain ⟨h1, h2, h3⟩ := post_prefix (r := c :: a) (by simp) hpl h hk hy
  refine ⟨_, h3, ?_⟩
  cases a with
  | nil =>
    simp only [Normalize.post] at h1 ⊢
    have := put1_frame (E := E) (v := v) (direct_ne hc) (apart_of_direct (x := y) hc hd hcd)
    cases hp : put1 E c v y with
    | mk r x1 =>
      rw [hp] at this
      cases r <;> exact this
  | cons e a =>
    rw [post_cons (direct_ne hc) (by simp)] at h1 ⊢
    obtain ⟨hk1, _⟩ := noNewKeys_cons (by simp) h2
    cases hst : stepPost E y c (kwarg (e :: a) v) with
    | mk x1 r =>
      obtain ⟨b, w⟩ := r
      rw [hst] at h1
      cases w with
      | fail e => cases b <;> simp at h1
      | same => exact absurd (stepPost_same hst).2 (hk1 (stepPost_same hst).1)
      | child z =>
        have hoth := stepPost_other hE hc hd hcd hst
        cases b with
        | true => exact hoth
        | false =>
          simp only
          rw [step_replaceChild_other _ (apart_of_direct hc hd hcd)]; exact hoth

theorem stored_keeps (hK : Keeps E) {x : Val} {c : Comp} {v : Val} {s : Option Val} (h : Stored E x c v s) :
    s = some v := by
  cases h with
  | list => rfl
  | dict => rfl
  | lcoll h => rw [hK.item _ _ _ h]
  | dcoll h => rw [hK.item _ _ _ h]
  | plain => rfl
  | attr ha hs => exact hK.assign _ _ _ _ _ _ ha hs

theorem kwarg_str {p : FS} {c : Comp} {v v' : Val} {s : String} (hkw : kwarg (p ++ [c]) v = some (.str s, v')) :
    p = [] ∧ c = .str s ∧ v' = v := by
  cases p with
  | nil => cases c <;> simp [kwarg] at hkw <;> simp [hkw]
  | cons a p => cases p <;> simp [kwarg] at hkw

/-- The value a step of post created holds the value. -/
theorem stepPost_kept (hE : Honest E) (hK : Keeps E) {x : Val} {c : Comp} {s : String} {v : Val}
    {x' : Val} {y : Val} (h : stepPost E x c (some (.str s, v)) = (x', true, .child y)) :
    step E y (.str s) = .ok v := by
  unfold stepPost at h
  split at h
  · rename_i ht
    cases hg : getItem x c with
    | ok v => simp [hg] at h
    | error e =>
      rw [hg] at h
      split at h
      · simp_all
      · split at h
        · rename_i hc
          cases hn : newItem E x (some (.str s, v)) with
          | error e => simp [hn] at h
          | ok it =>
            simp only [hn] at h
            cases x with
            | lcoll cls xs =>
              simp only [newItem, callKw] at hn
              simp only [lenVal] at hc; subst hc
              have hco : E.coerceItem cls it = .ok it := hE.item _ _ _ hn
              simp only [append, hco] at h
              have hg2 : getItem (.lcoll cls (xs ++ [it])) (.int xs.length) = .ok it := by
                simp only [getItem]; rw [getIdx_append_end]
              rw [hg2] at h
              simp only [Prod.mk.injEq, Walk.child.injEq] at h
              obtain ⟨rfl, _, rfl⟩ := h
              exact hK.itemKw _ _ _ _ hn
            | dcoll cls xs => subst hc; simp [append] at h
            | atom a => simp [newItem] at hn
            | list xs => simp [newItem] at hn
            | dict xs => simp [newItem] at hn
            | rcd cls sl => simp [newItem] at hn
        · simp at h
      · split at h
        · simp at h
        · split at h <;> simp at h
      · simp at h
  · rename_i ht
    cases hg : getAttr E x c with
    | ok v => simp [hg] at h
    | error e =>
      rw [hg] at h
      split at h
      · simp_all
      · cases hn : newAttr E x c (some (.str s, v)) with
        | error e => simp [hn] at h
        | ok z =>
          simp only [hn] at h
          cases x with
          | rcd cls sl =>
            cases c with
            | str nm =>
              simp only [newAttr] at hn
              cases ha : E.attr cls nm with
              | none => simp [ha] at hn
              | some a =>
                simp only [ha] at hn
                cases hm : a.make with
                | none => simp [hm] at hn
                | some f =>
                  simp only [hm, callKw] at hn
                  simp only [setAttr, ha] at h
                  cases has : a.assign (alookup sl nm) z with
                  | error e => simp [has] at h
                  | ok s =>
                    have hs : s = some z := hK.assign _ _ _ _ _ _ ha has
                    subst hs
                    simp only [has, setSlot] at h
                    have hg2 : getAttr E (.rcd cls (aset sl nm z)) (.str nm) = .ok z := by
                      simp [getAttr, alookup_aset]
                    rw [hg2] at h
                    simp only [Prod.mk.injEq, Walk.child.injEq] at h
                    obtain ⟨rfl, _, rfl⟩ := h
                    exact hK.attrKw _ _ _ _ _ _ _ ha hm hn
            | int i => simp [newAttr] at hn
            | none => simp [newAttr] at hn
          | atom a => simp [newAttr] at hn
          | list xs => simp [newAttr] at hn
          | dict xs => simp [newAttr] at hn
          | lcoll cls xs => simp [newAttr] at hn
          | dcoll cls xs => simp [newAttr] at hn
      · simp at h

/-- After a successful post the field reads as the value. -/
theorem post_reads (hE : Honest E) (hK : Keeps E) (p : FS) (c : Comp) (hp : Plain (p ++ [c]))
    (v x x' : Val) (n : Nat) (h : Normalize.post E (p ++ [c]) v x = (.ok n, x'))
    (hk : NoNewKeys E v (p ++ [c]) x) :
    Normalize.get E (p ++ [c]) x' = .ok v := by
  induction p generalizing x x' n with
  | nil =>
    have hc : c ≠ .none := hp c (by simp)
    simp only [List.nil_append, Normalize.post] at h
    cases h1 : put1 E c v x with
    | mk r x1 =>
      rw [h1] at h
      cases r with
      | error e => simp at h
      | ok _ =>
        simp at h
        obtain ⟨s, g1, g2, g3⟩ := put1_stored hc h1
        have := stored_keeps hK g1
        subst this
        rw [List.nil_append, get_cons hc, ← h.2, g2 v rfl]; rfl
  | cons d p ih =>
    have hd : d ≠ .none := hp d (by simp)
    have hp' : Plain (p ++ [c]) := fun c hc => hp c (by simp at hc ⊢; simp [hc])
    rw [List.cons_append] at h hk
    rw [post_cons hd (by simp)] at h
    obtain ⟨hk1, hk2⟩ := noNewKeys_cons (by simp) hk
    rw [List.cons_append, get_cons hd]
    split at h
    · simp at h
    · rename_i x1 w hw hs
      simp at h
      obtain ⟨rfl, rfl⟩ := h
      cases w with
      | fail e => exact absurd rfl (hw e)
      | same => exact absurd (stepPost_same hs).2 (hk1 (stepPost_same hs).1)
      | child y =>
        obtain ⟨g1, g2⟩ := stepPost_child hE hs
        obtain ⟨s, v', u, hkw, _⟩ := g2 rfl
        rw [g1]
        obtain ⟨rfl, rfl, rfl⟩ := kwarg_str hkw
        rw [hkw] at hs
        have := stepPost_kept hE hK hs
        simp only [List.nil_append]
        rw [get_cons (by simp), this]; rfl
    · rename_i x1 y hs
      obtain ⟨g1, _⟩ := stepPost_child hE hs
      simp only [Prod.mk.injEq] at h
      have hu := ih hp' y (Normalize.post E (p ++ [c]) v y).2 n (Prod.ext h.1 rfl) (hk2 _ _ _ hs)
      rcases step_replaceChild_self (Normalize.post E (p ++ [c]) v y).2 g1 with h1 | ⟨⟨a, rfl⟩, _⟩
      · rw [← h.2, h1]; exact hu
      · obtain ⟨e, he⟩ := post_atom_plain (E := E) hp' v a
        rw [he] at h; simp at h
    · rename_i x1 hs
      exact absurd (stepPost_same hs).2 (hk1 (stepPost_same hs).1)

/-! ## the selectors of a set part ways -/

theorem diverge_symm {f q : FS} (h : Diverge f q) : Diverge q f := by
  obtain ⟨p, c, a, d, b, rfl, rfl, hcd⟩ := h
  exact ⟨p, d, b, c, a, rfl, rfl, hcd.symm⟩

theorem iter_head {h : Heads} {q : FS} (hq : q ∈ iter h) : ∃ c t r, (c, t) ∈ h ∧ q = c :: r := by
  obtain ⟨c, t, hm, hq⟩ := mem_iter.1 hq
  rcases mem_iterT.1 hq with ⟨rfl, rfl⟩ | ⟨s, x, rfl, hx, rfl⟩
  · exact ⟨c, _, [], hm, rfl⟩
  · exact ⟨c, _, x, hm, rfl⟩

theorem iter_pairwise {h : Heads} (w : WF h) : (iter h).Pairwise Diverge := by
  induction w with
  | mk h nodup single nonempty sub ih =>
    clear single nonempty
    induction h with
    | nil => exact .nil
    | cons e es ih2 =>
      obtain ⟨c, t⟩ := e
      simp only [List.map_cons, List.nodup_cons] at nodup
      simp only [iter]
      rw [List.pairwise_append]
      refine ⟨?_, ih2 nodup.2 (fun c s hm => sub c s (by simp [hm])) (fun c s hm => ih c s (by simp [hm])), ?_⟩
      · cases t with
        | all => simp [iterT]
        | node s =>
          simp only [iterT, List.pairwise_map]
          refine (ih c s (by simp)).imp ?_
          rintro a b ⟨p, d, a', e, b', rfl, rfl, hne⟩
          exact ⟨c :: p, d, a', e, b', rfl, rfl, hne⟩
      · intro f hf g hg
        obtain ⟨d, t', r, hm, rfl⟩ := iter_head hg
        have hcd : c ≠ d := by
          rintro rfl; exact nodup.1 (List.mem_map.2 ⟨_, hm, rfl⟩)
        rcases mem_iterT.1 hf with ⟨rfl, rfl⟩ | ⟨s, x, rfl, hx, rfl⟩
        · exact ⟨[], c, [], d, r, rfl, rfl, hcd⟩
        · exact ⟨[], c, x, d, r, rfl, rfl, hcd⟩

end Normalize.Mfs
