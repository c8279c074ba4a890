import Verif.Lemmas.Access

/-!
# C03–C10: reading and writing through selectors
-/

namespace Normalize

open Spec

/-! ## C03 -/

/-- C03: getting through `a + b` is getting `b` from what `a` gets, exceptions included, when `a` has no
wildcard. -/
theorem C03_get_append (E : Env) (a b : FS) (ha : Plain a) (x : Val) :
    get E (FS.add a b) x = (get E a x).bind (get E b) := by
  unfold FS.add
  rw [get_append ha]
  cases get E a x <;> rfl

/-- C03: the empty selector gets the object itself. -/
theorem C03_get_nil (E : Env) (x : Val) : get E [] x = .ok x := rfl

/-! ## C04 -/

theorem put1_stored {E : Env} {c : Comp} (hc : c ≠ .none) {v x x' : Val}
    (h : put1 E c v x = (.ok (), x')) :
    ∃ s, Stored E x c v s ∧
      (∀ u, s = some u → step E x' c = .ok u) ∧
      (s = none → ∃ cls sl nm a sl', x = .rcd cls sl ∧ c = .str nm ∧ E.attr cls nm = some a ∧
        x' = .rcd cls sl' ∧ alookup sl' nm = none) := by
  have key : (tryIndex x c = true ∧ setItem E x c v = (.ok (), x')) ∨
      (tryIndex x c = false ∧ setAttr E x c v = (.ok (), x')) := by
    cases c with
    | none => exact absurd rfl hc
    | str nm =>
      simp only [put1] at h
      split at h
      · rename_i ht; left; refine ⟨ht, ?_⟩
        split at h
        · simp at h
        · exact h
      · rename_i ht; right; refine ⟨by simpa using ht, ?_⟩
        split at h
        · simp at h
        · exact h
    | int i =>
      simp only [put1] at h
      split at h
      · rename_i ht; left; refine ⟨ht, ?_⟩
        split at h
        · simp at h
        · exact h
      · rename_i ht; right; refine ⟨by simpa using ht, ?_⟩
        split at h
        · simp at h
        · exact h
  rcases key with ⟨ht, h⟩ | ⟨ht, h⟩
  · cases x with
    | atom a => simp [setItem] at h
    | rcd cls sl => simp [setItem] at h
    | list xs =>
      cases c with
      | none => exact absurd rfl hc
      | str nm => simp [setItem] at h
      | int i =>
        simp only [setItem] at h
        split at h
        · rename_i k hk
          simp at h; subst h
          refine ⟨some v, .list, ?_, by simp⟩
          rintro u ⟨⟩
          simp [step, tryIndex, getItem, getIdx_setIdx_self xs i v (by simp [hk])]
        · simp at h
    | lcoll cls xs =>
      cases c with
      | none => exact absurd rfl hc
      | str nm =>
        simp only [setItem] at h
        split at h <;> simp at h
      | int i =>
        simp only [setItem] at h
        split at h
        · simp at h
        · rename_i v' hv'
          split at h
          · rename_i k hk
            simp at h; subst h
            refine ⟨some v', .lcoll hv', ?_, by simp⟩
            rintro u ⟨⟩
            simp [step, tryIndex, getItem, getIdx_setIdx_self xs i v' (by simp [hk])]
          · simp at h
    | dict xs =>
      simp [setItem] at h; subst h
      refine ⟨some v, .dict, ?_, by simp⟩
      rintro u ⟨⟩
      have : tryIndex (.dict (aset xs c v)) c = true := by cases c <;> rfl
      simp [step, this, getItem, alookup_aset]
    | dcoll cls xs =>
      simp only [setItem] at h
      split at h
      · simp at h
      · rename_i v' hv'
        simp at h; subst h
        refine ⟨some v', .dcoll hv', ?_, by simp⟩
        rintro u ⟨⟩
        have : tryIndex (.dcoll cls (aset xs c v')) c = true := by cases c <;> rfl
        simp [step, this, getItem, alookup_aset]
  · cases c with
    | none => exact absurd rfl hc
    | int i => cases x <;> simp [setAttr] at h
    | str nm =>
      cases x with
      | rcd cls sl =>
        simp only [setAttr] at h
        split at h
        · rename_i ha
          simp at h; subst h
          refine ⟨some v, .plain ha, ?_, by simp⟩
          rintro u ⟨⟩
          simp [step, tryIndex, getAttr, alookup_aset]
        · rename_i a ha
          split at h
          · simp at h
          · rename_i s hs
            simp at h; subst h
            refine ⟨s, .attr ha hs, ?_, ?_⟩
            · rintro u rfl
              simp [step, tryIndex, getAttr, alookup_setSlot]
            · rintro rfl
              exact ⟨cls, sl, nm, a, _, rfl, rfl, ha, rfl, by simp [alookup_setSlot]⟩
      | atom a => simp [setAttr] at h
      | list xs => simp [setAttr] at h
      | lcoll cls xs => simp [setAttr] at h
      | dict xs => simp [setAttr] at h
      | dcoll cls xs => simp [setAttr] at h

/-- C04: after a successful put, getting through the same wildcard-free selector finds what assigning the value
to the target makes of it (itself in lists, dicts and untyped slots). -/
theorem C04_put_get (E : Env) (p : FS) (c : Comp) (hp : Plain (p ++ [c])) (v x x' : Val)
    (h : put E (p ++ [c]) v x = (.ok (), x')) :
    ∃ parent s, get E p x = .ok parent ∧ Stored E parent c v s ∧
      ∀ u, s = some u → get E (p ++ [c]) x' = .ok u := by
  induction p generalizing x x' with
  | nil =>
    have hc : c ≠ .none := hp c (by simp)
    obtain ⟨s, h1, h2, _⟩ := put1_stored hc (by simpa [put] using h)
    refine ⟨x, s, rfl, h1, ?_⟩
    intro u hu
    rw [List.nil_append, get_cons hc, h2 u hu]; rfl
  | cons d p ih =>
    have hd : d ≠ .none := hp d (by simp)
    have hp' : Plain (p ++ [c]) := fun c hc => hp c (by simp at hc ⊢; simp [hc])
    rw [List.cons_append, put_cons hd (by simp)] at h
    cases hs : stepPut E x d with
    | error e => simp [hs] at h
    | ok y =>
      simp only [hs, Prod.mk.injEq] at h
      have hst := step_iff_stepPut.2 hs
      obtain ⟨parent, s, g1, g2, g3⟩ := ih hp' y (put E (p ++ [c]) v y).2
        (Prod.ext h.1 rfl)
      refine ⟨parent, s, by rw [get_cons hd, hst]; exact g1, g2, ?_⟩
      intro u hu
      rw [List.cons_append, get_cons hd]
      rcases step_replaceChild_self (put E (p ++ [c]) v y).2 hst with h1 | ⟨⟨a, rfl⟩, _⟩
      · rw [← h.2, h1]; exact g3 u hu
      · obtain ⟨e, he⟩ := put_atom_plain (E := E) hp' v a
        rw [he] at h; simp at h

/-! ## C05 -/

theorem put1_frame {E : Env} {c d : Comp} (hc : c ≠ .none) {v x : Val} (hA : Apart x c d) :
    step E (put1 E c v x).2 d = step E x d := by
  have key : (put1 E c v x).2 = (if tryIndex x c then (setItem E x c v).2 else (setAttr E x c v).2) := by
    cases c with
    | none => exact absurd rfl hc
    | str nm => simp only [put1]; split <;> (split <;> simp [*])
    | int i => simp only [put1]; split <;> (split <;> simp [*])
  rw [key]
  split
  · rename_i ht
    cases x with
    | atom a => rfl
    | rcd cls sl => rfl
    | list xs =>
      cases c with
      | none => exact absurd rfl hc
      | str nm => rfl
      | int i =>
        simp only [setItem]
        split
        · cases d with
          | int j => simp only [step, tryIndex, getItem, getIdx_setIdx_other xs i j v hA, if_true]
          | str nm => rfl
          | none => rfl
        · rfl
    | lcoll cls xs =>
      cases c with
      | none => exact absurd rfl hc
      | str nm => simp only [setItem]; split <;> rfl
      | int i =>
        simp only [setItem]
        split
        · rfl
        · rename_i v' _
          split
          · cases d with
            | int j => simp only [step, tryIndex, getItem, getIdx_setIdx_other xs i j v' hA, if_true]
            | str nm => rfl
            | none => rfl
          · rfl
    | dict xs =>
      have hA : c ≠ d := hA
      have : ∀ ys, tryIndex (.dict ys) d = true := by intro ys; cases d <;> rfl
      simp only [setItem, step, this, getItem, alookup_aset, hA, if_false, if_true]
    | dcoll cls xs =>
      have hA : c ≠ d := hA
      have : ∀ ys, tryIndex (.dcoll cls ys) d = true := by intro ys; cases d <;> rfl
      simp only [setItem]
      split
      · rfl
      · simp only [step, this, getItem, alookup_aset, hA, if_false, if_true]
  · cases x with
    | rcd cls sl =>
      cases c with
      | none => exact absurd rfl hc
      | int i => rfl
      | str nm =>
        have hne : ∀ nm', d = .str nm' → nm ≠ nm' := by rintro nm' rfl rfl; exact hA rfl
        simp only [setAttr]
        split
        · cases d with
          | str nm' => simp only [step, tryIndex, getAttr, alookup_aset, hne nm' rfl, if_false, Bool.false_eq_true]
          | int i => rfl
          | none => rfl
        · split
          · rfl
          · cases d with
            | str nm' => simp only [step, tryIndex, getAttr, alookup_setSlot, hne nm' rfl, if_false, Bool.false_eq_true]
            | int i => rfl
            | none => rfl
    | atom a => cases c <;> rfl
    | list xs => cases c <;> rfl
    | lcoll cls xs => cases c <;> rfl
    | dict xs => cases c <;> rfl
    | dcoll cls xs => cases c <;> rfl

/-- C05: a put, successful or not, changes nothing for selectors that diverge from it: with a common part `p`
leading to `y`, of which `c` and `d` are different parts, everything under `d` reads as before. -/
theorem C05_put_frame (E : Env) (p : FS) (hp : Plain p) (c d : Comp) (hc : c ≠ .none) (hd : d ≠ .none)
    (a b : FS) (v x y : Val) (hy : get E p x = .ok y) (hA : Apart y c d) :
    get E (p ++ d :: b) (put E (p ++ c :: a) v x).2 = get E (p ++ d :: b) x := by
  induction p generalizing x with
  | nil =>
    simp only [get, Except.ok.injEq] at hy; subst hy
    simp only [List.nil_append]
    rw [get_cons hd, get_cons hd]
    have : step E (put E (c :: a) v x).2 d = step E x d := by
      cases a with
      | nil => exact put1_frame hc hA
      | cons d' a =>
        rw [put_cons hc (by simp)]
        split
        · rfl
        · exact step_replaceChild_other _ hA
    rw [this]
  | cons e p ih =>
    have he : e ≠ .none := hp e (by simp)
    rw [get_cons he] at hy
    cases hs : step E x e with
    | error e' => simp [hs] at hy
    | ok z =>
      simp only [hs] at hy
      have ih := ih (fun c hc => hp c (by simp [hc])) z hy
      rw [List.cons_append, List.cons_append, put_cons he (by simp), step_iff_stepPut.1 hs]
      simp only
      rw [get_cons he, get_cons he, hs]
      rcases step_replaceChild_self (put E (p ++ c :: a) v z).2 hs with h1 | ⟨⟨at', rfl⟩, h1⟩
      · rw [h1]; exact ih
      · rw [h1, hs]

/-! ## C06 -/

/-- What an item contributes to the result of a wildcard get. -/
def itemOr (r : Except Exc Val) : Val := match r with | .ok v => v | .error _ => .none

theorem wildGet_good (rs : List (Except Exc Val)) (hrs : ∀ e, .error e ∈ rs → e.isFieldSelector = true)
    (s : AllExc) (acc : List Val) :
    (s = .good ∨ ∃ v, .ok v ∈ rs) → wildGet rs s acc = .ok (.list (acc ++ rs.map itemOr)) := by
  induction rs generalizing s acc with
  | nil =>
    rintro (rfl | ⟨v, hv⟩)
    · simp [wildGet]
    · simp at hv
  | cons r rs ih =>
    intro h
    have hrs' : ∀ e, .error e ∈ rs → e.isFieldSelector = true := fun e he => hrs e (by simp [he])
    cases r with
    | ok v =>
      simp only [wildGet]
      rw [ih hrs' s.success _ (.inl rfl)]
      simp [itemOr]
    | error e =>
      simp only [wildGet, hrs e (by simp), if_true]
      rw [ih hrs']
      · simp [itemOr]
      · rcases h with rfl | ⟨v, hv⟩
        · left; rfl
        · right; exact ⟨v, by simpa using hv⟩

theorem wildGet_fail (rs : List (Except Exc Val)) (e0 : Exc) (acc : List Val)
    (hrs : ∀ r ∈ rs, ∃ e, r = .error e ∧ e.isFieldSelector = true) :
    wildGet rs (.exc e0) acc = .error e0 := by
  induction rs generalizing acc with
  | nil => rfl
  | cons r rs ih =>
    obtain ⟨e, rfl, he⟩ := hrs r (by simp)
    simp only [wildGet, he, if_true, AllExc.failure]
    exact ih _ (fun r hr => hrs r (by simp [hr]))

/-- C06: if no item raises anything but a `FieldSelectorException` and at least one succeeds (or there are no
items), a wildcard get returns one entry per item in order, `None` for those that failed. -/
theorem C06_wildcard_masks (E : Env) (p : FS) (x : Val) (items : List Val) (hi : iterVal x = .ok items)
    (hfs : ∀ r ∈ items, ∀ e, get E p r = .error e → e.isFieldSelector = true)
    (hgood : items = [] ∨ ∃ r ∈ items, ∃ v, get E p r = .ok v) :
    get E (.none :: p) x = .ok (.list (items.map fun r => itemOr (get E p r))) := by
  simp only [get, hi]
  rcases hgood with rfl | ⟨r, hr, v, hv⟩
  · rfl
  · rw [wildGet_good _ _ _ _ (.inr ⟨v, by rw [← hv]; exact List.mem_map.2 ⟨r, hr, rfl⟩⟩)]
    · simp [Function.comp_def]
    · intro e he
      obtain ⟨r, hr, he⟩ := List.mem_map.1 he
      exact hfs r hr e he

/-- C06: if there are items and all of them fail with a `FieldSelectorException`, the first item's is
raised. -/
theorem C06_wildcard_all_fail (E : Env) (p : FS) (x r : Val) (items : List Val)
    (hi : iterVal x = .ok (r :: items)) (e : Exc) (he : get E p r = .error e)
    (hfs : ∀ r' ∈ r :: items, ∃ e, get E p r' = .error e ∧ e.isFieldSelector = true) :
    get E (.none :: p) x = .error e := by
  obtain ⟨e', he', hf⟩ := hfs r (by simp)
  rw [he] at he'; injection he' with he'; subst he'
  simp only [get, hi, List.map_cons, he, wildGet, hf, if_true, AllExc.failure]
  apply wildGet_fail
  intro r' hr'
  obtain ⟨q, hq, rfl⟩ := List.mem_map.1 hr'
  exact hfs q (by simp [hq])

/-- C06: any other exception is raised at once. -/
theorem C06_wildcard_other_exc (E : Env) (p : FS) (x r : Val) (before after : List Val)
    (hi : iterVal x = .ok (before ++ r :: after)) (e : Exc) (he : get E p r = .error e)
    (hne : e.isFieldSelector = false)
    (hb : ∀ q ∈ before, ∀ e, get E p q = .error e → e.isFieldSelector = true) :
    get E (.none :: p) x = .error e := by
  simp only [get, hi, List.map_append, List.map_cons, he]
  have : ∀ (rs : List (Except Exc Val)) s acc, (∀ e, .error e ∈ rs → e.isFieldSelector = true) →
      wildGet (rs ++ .error e :: List.map (get E p) after) s acc = .error e := by
    intro rs
    induction rs with
    | nil => intro s acc _; simp [wildGet, hne]
    | cons q rs ih =>
      intro s acc h
      have h' : ∀ e, .error e ∈ rs → e.isFieldSelector = true := fun e he => h e (by simp [he])
      cases q with
      | ok v => exact ih _ _ h'
      | error e' =>
        simp only [List.cons_append, wildGet, h e' (by simp), if_true]
        exact ih _ _ h'
  apply this
  intro e' he'
  obtain ⟨q, hq, h⟩ := List.mem_map.1 he'
  exact hb q hq e' h

/-! ## C07 -/

/-- The whole property: `get_or_none` never raises. -/
def C07_statement : Prop := ∀ (E : Env) (fs : FS) (x : Val), ∃ v, getOrNone E fs x = .ok v

/-- An empty set of classes. -/
def Env.empty : Env := ⟨fun _ _ => none, fun _ v => .ok v, fun _ _ => .error .typeError⟩

/-- C07 is false of the code: a missing dict key raises `KeyError`. -/
theorem C07_violated : ¬ C07_statement := by
  intro h
  obtain ⟨v, hv⟩ := h .empty [.str "a"] (.dict [])
  have : getOrNone .empty [.str "a"] (.dict []) = .error .keyError := rfl
  rw [this] at hv; simp at hv

/-- C07: `get_or_none` returns what `get` returns, `None` when `get` raises a `FieldSelectorException`, and
raises exactly when `get` raises something else. -/
theorem C07_get_or_none (E : Env) (fs : FS) (x : Val) :
    (∀ v, get E fs x = .ok v → getOrNone E fs x = .ok v) ∧
    (∀ e, get E fs x = .error e → e.isFieldSelector = true → getOrNone E fs x = .ok .none) ∧
    (∀ e, getOrNone E fs x = .error e ↔ get E fs x = .error e ∧ e.isFieldSelector = false) := by
  unfold getOrNone
  cases h : get E fs x with
  | ok v => simp
  | error e =>
    cases hf : e.isFieldSelector with
    | false =>
      refine ⟨by simp, ?_, ?_⟩
      · intro e' h1 h'; cases h1; rw [hf] at h'; cases h'
      · intro e'
        constructor
        · intro h1; simp [hf] at h1; subst h1; exact ⟨rfl, hf⟩
        · rintro ⟨h1, _⟩; cases h1; simp [hf]
    | true =>
      refine ⟨by simp, ?_, ?_⟩
      · intro e' h1 h'; simp [hf]
      · intro e'
        constructor
        · intro h1; simp [hf] at h1
        · rintro ⟨h1, h2⟩; cases h1; rw [hf] at h2; cases h2

/-- The object at the end of each step can be asked for the next component without a python type or key error:
ints go to lists, names go to records or atoms, wildcards to lists. -/
inductive Fits (E : Env) : FS → Val → Prop
  | nil {x} : Fits E [] x
  | list {i p xs} : (∀ y, step E (.list xs) (.int i) = .ok y → Fits E p y) → Fits E (.int i :: p) (.list xs)
  | lcoll {i p cls xs} : (∀ y, step E (.lcoll cls xs) (.int i) = .ok y → Fits E p y) →
      Fits E (.int i :: p) (.lcoll cls xs)
  | rcd {nm p cls sl} : (∀ y, step E (.rcd cls sl) (.str nm) = .ok y → Fits E p y) →
      Fits E (.str nm :: p) (.rcd cls sl)
  | atom {nm p a} : Fits E (.str nm :: p) (.atom a)
  | dict {c p xs y} : c ≠ .none → alookup xs c = some y → Fits E p y → Fits E (c :: p) (.dict xs)
  | dcoll {c p cls xs y} : c ≠ .none → alookup xs c = some y → Fits E p y → Fits E (c :: p) (.dcoll cls xs)
  | wild {p x items} : iterVal x = .ok items → (∀ r ∈ items, Fits E p r) → Fits E (.none :: p) x

theorem fits_fse {E : Env} {p : FS} {x : Val} (h : Fits E p x) :
    ∀ e, get E p x = .error e → e.isFieldSelector = true := by
  have base : ∀ {c : Comp} {p : FS} {x : Val}, c ≠ .none →
      (∀ e, step E x c = .error e → e.isFieldSelector = true) →
      (∀ y, step E x c = .ok y → ∀ e, get E p y = .error e → e.isFieldSelector = true) →
      ∀ e, get E (c :: p) x = .error e → e.isFieldSelector = true := by
    intro c p x hc h1 h2 e he
    rw [get_cons hc] at he
    cases hs : step E x c with
    | error e' => rw [hs] at he; simp only [Except.error.injEq] at he; subst he; exact h1 e' hs
    | ok y => rw [hs] at he; exact h2 y hs e he
  induction h with
  | nil => intro e he; simp [get] at he
  | @list i p xs _ ih =>
    refine base (by simp) ?_ ih
    intro e he
    simp only [step, tryIndex, getItem, if_true] at he
    cases h : getIdx xs i with
    | some v => simp [h] at he
    | none => simp [h] at he; subst he; rfl
  | @lcoll i p cls xs _ ih =>
    refine base (by simp) ?_ ih
    intro e he
    simp only [step, tryIndex, getItem, if_true] at he
    cases h : getIdx xs i with
    | some v => simp [h] at he
    | none => simp [h] at he; subst he; rfl
  | @rcd nm p cls sl _ ih =>
    refine base (by simp) ?_ ih
    intro e he
    simp only [step, tryIndex, getAttr, Bool.false_eq_true, if_false] at he
    cases h : alookup sl nm with
    | some v => simp [h] at he
    | none =>
      cases hu : (E.attr cls nm).bind (·.unset) with
      | some a => simp [h, hu] at he
      | none => simp [h, hu] at he; subst he; rfl
  | @atom nm p a =>
    refine base (by simp) ?_ ?_
    · intro e he
      have : tryIndex (.atom a) (.str nm) = false := by cases a <;> rfl
      simp [step, this, getAttr] at he; subst he; rfl
    · intro y hy
      obtain ⟨e, he⟩ := step_atom (E := E) a (.str nm)
      rw [he] at hy; simp at hy
  | @dict c p xs y hc hl _ ih =>
    have ht : tryIndex (.dict xs) c = true := by cases c <;> rfl
    refine base hc ?_ ?_
    · intro e he; simp [step, ht, getItem, hl] at he
    · intro z hz; simp [step, ht, getItem, hl] at hz; subst hz; exact ih
  | @dcoll c p cls xs y hc hl _ ih =>
    have ht : tryIndex (.dcoll cls xs) c = true := by cases c <;> rfl
    refine base hc ?_ ?_
    · intro e he; simp [step, ht, getItem, hl] at he
    · intro z hz; simp [step, ht, getItem, hl] at hz; subst hz; exact ih
  | @wild p x items hi _ ih =>
    intro e he
    simp only [get, hi] at he
    have : ∀ (rs : List (Except Exc Val)) s acc, (∀ e, .error e ∈ rs → e.isFieldSelector = true) →
        (∀ e, s = .exc e → e.isFieldSelector = true) →
        ∀ e, wildGet rs s acc = .error e → e.isFieldSelector = true := by
      intro rs
      induction rs with
      | nil =>
        intro s acc _ hs e he
        cases s <;> simp [wildGet] at he
        subst he; exact hs _ rfl
      | cons r rs ih2 =>
        intro s acc h hs e he
        have h' : ∀ e, .error e ∈ rs → e.isFieldSelector = true := fun e he => h e (by simp [he])
        cases r with
        | ok v => exact ih2 _ _ h' (by simp [AllExc.success]) e he
        | error e' =>
          simp only [wildGet, h e' (by simp), if_true] at he
          refine ih2 _ _ h' ?_ e he
          intro e2 h2
          cases s with
          | start => simp [AllExc.failure] at h2; subst h2; exact h e' (by simp)
          | good => simp [AllExc.failure] at h2
          | exc e3 => simp [AllExc.failure] at h2; subst h2; exact hs _ rfl
    refine this _ _ _ ?_ (by simp) e he
    intro e' he'
    obtain ⟨r, hr, h⟩ := List.mem_map.1 he'
    exact ih r hr e' h

/-- C07 for paths that do not look up missing dict keys or index the wrong kind of object. -/
theorem C07_never_raises_partial (E : Env) (fs : FS) (x : Val) (h : Fits E fs x) :
    ∃ v, getOrNone E fs x = .ok v := by
  unfold getOrNone
  cases hg : get E fs x with
  | ok v => exact ⟨v, rfl⟩
  | error e => simp [fits_fse h e hg]

/-! ## C08 -/

theorem put1_fail {E : Env} {c : Comp} {v x x' : Val} {e : Exc} (h : put1 E c v x = (.error e, x')) :
    x' = x := by
  have hset : ∀ e, setItem E x c v = (.error e, x') → x' = x := by
    intro e h
    unfold setItem at h
    split at h
    · split at h <;> simp at h; exact h.2.symm
    · split at h
      · simp at h; exact h.2.symm
      · split at h <;> simp at h; exact h.2.symm
    · split at h <;> (simp at h; exact h.2.symm)
    · simp at h
    · split at h
      · simp at h; exact h.2.symm
      · simp at h
    · simp at h; exact h.2.symm
  have hattr : ∀ e, setAttr E x c v = (.error e, x') → x' = x := by
    intro e h
    unfold setAttr at h
    split at h
    · split at h
      · simp at h
      · split at h
        · simp at h; exact h.2.symm
        · simp at h
    · simp at h; exact h.2.symm
    · simp at h; exact h.2.symm
  unfold put1 at h
  split at h
  · unfold setAll at h
    split at h
    · split at h
      · simp at h; exact h.2.symm
      · simp at h
    · split at h
      · simp at h; exact h.2.symm
      · split at h
        · simp at h; exact h.2.symm
        · simp at h
    · split at h <;> (simp at h; exact h.2.symm)
    · simp at h; exact h.2.symm
  · split at h
    · split at h
      · rename_i e1 x1 h1
        simp at h; obtain ⟨_, rfl⟩ := h; exact hset _ h1
      · exact hset _ h
    · split at h
      · rename_i e1 x1 h1
        simp at h; obtain ⟨_, rfl⟩ := h; exact hattr _ h1
      · exact hattr _ h

/-- C08: a put that raises leaves the object exactly as it was, if no component before the last is a
wildcard. -/
theorem C08_failed_put (E : Env) (p : FS) (hp : Plain p) (c : Comp) (v x x' : Val) (e : Exc)
    (h : put E (p ++ [c]) v x = (.error e, x')) : x' = x := by
  induction p generalizing x x' with
  | nil => exact put1_fail (by simpa [put] using h)
  | cons d p ih =>
    have hd : d ≠ .none := hp d (by simp)
    rw [List.cons_append, put_cons hd (by simp)] at h
    cases hs : stepPut E x d with
    | error e' => simp [hs] at h; exact h.2.symm
    | ok y =>
      simp only [hs, Prod.mk.injEq] at h
      have := ih (fun c hc => hp c (by simp [hc])) y (put E (p ++ [c]) v y).2 (Prod.ext h.1 rfl)
      rw [← h.2, this]
      exact replaceChild_same (step_iff_stepPut.2 hs)

/-! ## C09 -/

theorem post_cons {E : Env} {c : Comp} (hc : c ≠ .none) {p : FS} (hp : p ≠ []) (v x : Val) :
    post E (c :: p) v x = match stepPost E x c (kwarg p v) with
    | (x', _, .fail e) => (.error e, x')
    | (x', true, _) => (.ok 1, x')
    | (x', false, .child y) => ((post E p v y).1, replaceChild x' c (post E p v y).2)
    | (x', false, .same) => post E p v x' := by
  cases p with
  | nil => exact absurd rfl hp
  | cons d p =>
    cases c with
    | none => exact absurd rfl hc
    | str s => rfl
    | int i => rfl

theorem stepPost_present {E : Env} {x : Val} {c : Comp} {y : Val} (kw : Option (Comp × Val))
    (h : step E x c = .ok y) : stepPost E x c kw = (x, false, .child y) := by
  unfold step at h
  unfold stepPost
  split
  · rename_i ht
    simp only [ht, if_true] at h
    cases hg : getItem x c with
    | ok v => simp [hg] at h; simp [h]
    | error e => cases e <;> simp [hg] at h
  · rename_i ht
    simp only [ht] at h
    cases hg : getAttr E x c with
    | ok v => simp [hg] at h; simp [h]
    | error e => cases e <;> simp [hg] at h

/-- C09: where the path to the target exists, post does exactly what put does, and returns 1. -/
theorem C09_post_is_put (E : Env) (p : FS) (hp : Plain p) (c : Comp) (v x y : Val)
    (hy : get E p x = .ok y) :
    (post E (p ++ [c]) v x).2 = (put E (p ++ [c]) v x).2 ∧
    (post E (p ++ [c]) v x).1 = (put E (p ++ [c]) v x).1.map (fun _ => 1) := by
  induction p generalizing x with
  | nil =>
    simp only [List.nil_append, post, put]
    cases h : put1 E c v x with
    | mk r x' => cases r <;> exact ⟨rfl, rfl⟩
  | cons d p ih =>
    have hd : d ≠ .none := hp d (by simp)
    rw [get_cons hd] at hy
    cases hs : step E x d with
    | error e => simp [hs] at hy
    | ok z =>
      simp only [hs] at hy
      have ih := ih (fun c hc => hp c (by simp [hc])) z hy
      rw [List.cons_append, post_cons hd (by simp), put_cons hd (by simp),
        stepPost_present _ hs, step_iff_stepPut.1 hs]
      simp only
      exact ⟨by rw [ih.1], ih.2⟩

/-- C09: creating an item of a list anywhere but at its end raises `ValueError` and changes nothing. -/
theorem C09_out_of_order (E : Env) (p : FS) (hp : Plain p) (i : Int) (q : FS) (hq : q ≠ [])
    (v x y : Val) (xs : List Val) (hy : get E p x = .ok y)
    (hxs : y = .list xs ∨ ∃ cls, y = .lcoll cls xs)
    (hout : pyIndex xs.length i = none) (hne : i ≠ xs.length) :
    post E (p ++ .int i :: q) v x = (.error .valueError, x) := by
  induction p generalizing x with
  | nil =>
    simp only [get, Except.ok.injEq] at hy; subst hy
    rw [List.nil_append, post_cons (by simp) hq]
    have hg : getIdx xs i = none := by simp [getIdx, hout]
    have : ∀ kw, stepPost E x (.int i) kw = (x, false, .fail .valueError) := by
      intro kw
      rcases hxs with rfl | ⟨cls, rfl⟩
      · simp [stepPost, tryIndex, getItem, hg, lenVal, hne]
      · simp [stepPost, tryIndex, getItem, hg, lenVal, hne]
    rw [this]
  | cons d p ih =>
    have hd : d ≠ .none := hp d (by simp)
    rw [get_cons hd] at hy
    cases hs : step E x d with
    | error e => simp [hs] at hy
    | ok z =>
      simp only [hs] at hy
      have ih := ih (fun c hc => hp c (by simp [hc])) z hy
      rw [List.cons_append, post_cons hd (by simp), stepPost_present _ hs]
      simp only [ih]
      rw [replaceChild_same hs]

/-- The whole last part: after a successful post along a wildcard-free path, possibly creating records on the
way, the field can be found. -/
def C09_statement : Prop :=
  ∀ (E : Env), Honest E → ∀ (p : FS) (c : Comp), Plain (p ++ [c]) → ∀ (v x x' : Val) (n : Nat),
    post E (p ++ [c]) v x = (.ok n, x') →
    (∀ cls nm a old v, E.attr cls nm = some a → ∀ s, a.assign old v = .ok s → s ≠ none) →
    ∃ u, get E (p ++ [c]) x' = .ok u

/-- While posting `v` along the path, no key is missing from a dict or dict collection. -/
inductive NoNewKeys (E : Env) (v : Val) : FS → Val → Prop
  | one {c x} : NoNewKeys E v [c] x
  | cons {c d p x} : (tryIndex x c = true → getItem x c ≠ .error .keyError) →
      (∀ x' b y, stepPost E x c (kwarg (d :: p) v) = (x', b, .child y) → NoNewKeys E v (d :: p) y) →
      NoNewKeys E v (c :: d :: p) x

theorem step_of_getItem {E : Env} {x : Val} {c : Comp} {y : Val} (ht : tryIndex x c = true)
    (h : getItem x c = .ok y) : step E x c = .ok y := by simp [step, ht, h]

theorem step_of_getAttr {E : Env} {x : Val} {c : Comp} {y : Val} (ht : tryIndex x c = false)
    (h : getAttr E x c = .ok y) : step E x c = .ok y := by simp [step, ht, h]

theorem getIdx_append_end {α : Type} (xs : List α) (z : α) : getIdx (xs ++ [z]) xs.length = some z := by
  have : ((xs.length : Int) < (xs.length : Int) + 1) := by omega
  simp [getIdx, pyIndex, this]

theorem callKw_ok {f : Option (String × Val) → Except Exc Val} {kw : Option (Comp × Val)} {z : Val}
    (h : callKw f kw = .ok z) :
    (kw = none ∧ f none = .ok z) ∨ ∃ s v, kw = some (.str s, v) ∧ f (some (s, v)) = .ok z := by
  unfold callKw at h
  split at h
  · exact .inl ⟨rfl, h⟩
  · exact .inr ⟨_, _, rfl, h⟩
  · simp at h

/-- Where a step of post leads, when it goes on with a part. -/
theorem stepPost_child {E : Env} (hE : Honest E) {x : Val} {c : Comp} {kw : Option (Comp × Val)}
    {x' : Val} {b : Bool} {y : Val} (h : stepPost E x c kw = (x', b, .child y)) :
    step E x' c = .ok y ∧ (b = true → ∃ s v u, kw = some (.str s, v) ∧ step E y (.str s) = .ok u) := by
  unfold stepPost at h
  split at h
  · rename_i ht
    cases hg : getItem x c with
    | ok v =>
      simp only [hg, Prod.mk.injEq, Walk.child.injEq] at h
      obtain ⟨rfl, rfl, rfl⟩ := h
      exact ⟨step_of_getItem ht hg, by simp⟩
    | error e =>
      rw [hg] at h
      split at h
      · simp_all
      · split at h
        · rename_i hc
          cases hn : newItem E x kw with
          | error e => simp [hn] at h
          | ok it =>
            simp only [hn] at h
            cases x with
            | lcoll cls xs =>
              simp only [newItem] at hn
              simp only [lenVal] at hc; subst hc
              have hco : E.coerceItem cls it = .ok it := by
                rcases callKw_ok hn with ⟨_, h'⟩ | ⟨s, v, _, h'⟩
                · exact hE.item _ _ _ h'
                · exact hE.item _ _ _ h'
              simp only [append, hco] at h
              have hg2 : getItem (.lcoll cls (xs ++ [it])) (.int xs.length) = .ok it := by
                simp only [getItem]; rw [getIdx_append_end]
              rw [hg2] at h
              simp only [Prod.mk.injEq, Walk.child.injEq] at h
              obtain ⟨rfl, rfl, rfl⟩ := h
              refine ⟨step_of_getItem rfl hg2, ?_⟩
              intro hb
              rcases callKw_ok hn with ⟨rfl, _⟩ | ⟨s, v, rfl, h'⟩
              · simp at hb
              · obtain ⟨u, hu⟩ := hE.itemKw _ _ _ _ h'
                exact ⟨s, v, u, rfl, hu⟩
            | dcoll cls xs => subst hc; simp [append] at h
            | atom a => simp [newItem] at hn
            | list xs => simp [newItem] at hn
            | dict xs => simp [newItem] at hn
            | rcd cls sl => simp [newItem] at hn
        · simp at h
      · split at h
        · simp at h
        · split at h <;> simp at h
      · simp at h
  · rename_i ht
    have ht : tryIndex x c = false := by simpa using ht
    cases hg : getAttr E x c with
    | ok v =>
      simp only [hg, Prod.mk.injEq, Walk.child.injEq] at h
      obtain ⟨rfl, rfl, rfl⟩ := h
      exact ⟨step_of_getAttr ht hg, by simp⟩
    | error e =>
      rw [hg] at h
      split at h
      · simp_all
      · cases hn : newAttr E x c kw with
        | error e => simp [hn] at h
        | ok v =>
          simp only [hn] at h
          cases x with
          | rcd cls sl =>
            cases c with
            | str nm =>
              simp only [newAttr] at hn
              cases ha : E.attr cls nm with
              | none => simp [ha] at hn
              | some a =>
                simp only [ha] at hn
                cases hm : a.make with
                | none => simp [hm] at hn
                | some f =>
                  simp only [hm] at hn
                  simp only [setAttr, ha] at h
                  cases has : a.assign (alookup sl nm) v with
                  | error e => simp [has] at h
                  | ok s =>
                    have hs : s = some v := by
                      rcases callKw_ok hn with ⟨_, h'⟩ | ⟨s', v', _, h'⟩
                      · exact hE.attr _ _ _ _ _ _ ha hm h' _ _ has
                      · exact hE.attr _ _ _ _ _ _ ha hm h' _ _ has
                    subst hs
                    simp only [has, setSlot] at h
                    have hg2 : getAttr E (.rcd cls (aset sl nm v)) (.str nm) = .ok v := by
                      simp [getAttr, alookup_aset]
                    rw [hg2] at h
                    simp only [Prod.mk.injEq, Walk.child.injEq] at h
                    obtain ⟨rfl, rfl, rfl⟩ := h
                    refine ⟨step_of_getAttr rfl hg2, ?_⟩
                    intro hb
                    rcases callKw_ok hn with ⟨rfl, _⟩ | ⟨s', v', rfl, h'⟩
                    · simp at hb
                    · obtain ⟨u, hu⟩ := hE.attrKw _ _ _ _ _ _ _ ha hm h'
                      exact ⟨s', v', u, rfl, hu⟩
            | int i => simp [newAttr] at hn
            | none => simp [newAttr] at hn
          | atom a => simp [newAttr] at hn
          | list xs => simp [newAttr] at hn
          | dict xs => simp [newAttr] at hn
          | lcoll cls xs => simp [newAttr] at hn
          | dcoll cls xs => simp [newAttr] at hn
      · simp at h

theorem stepPost_same {E : Env} {x : Val} {c : Comp} {kw : Option (Comp × Val)} {x' : Val} {b : Bool}
    (h : stepPost E x c kw = (x', b, .same)) : tryIndex x c = true ∧ getItem x c = .error .keyError := by
  unfold stepPost at h
  split at h
  · rename_i ht
    refine ⟨ht, ?_⟩
    split at h
    · simp at h
    · split at h
      · split at h
        · simp at h
        · split at h
          · simp at h
          · split at h <;> simp at h
      · simp at h
    · assumption
    · simp at h
  · split at h
    · simp at h
    · split at h
      · simp at h
      · split at h
        · simp at h
        · split at h <;> simp at h
    · simp at h

theorem post_atom_plain {E : Env} {p : FS} (hp : Plain p) (v : Val) (a : Atom) :
    ∃ e, (post E p v (.atom a)).1 = .error e := by
  cases p with
  | nil => exact ⟨_, rfl⟩
  | cons c p =>
    cases p with
    | nil => obtain ⟨e, h⟩ := put1_atom (E := E) c v a; exact ⟨e, by simp [post, h]⟩
    | cons d p =>
      rw [post_cons (hp c (by simp)) (by simp)]
      have : ∀ kw, ∃ e, stepPost E (.atom a) c kw = (.atom a, false, .fail e) := by
        intro kw
        unfold stepPost
        split
        · cases c <;> exact ⟨_, rfl⟩
        · cases c <;> exact ⟨_, rfl⟩
      obtain ⟨e, he⟩ := this (kwarg (d :: p) v)
      exact ⟨e, by rw [he]⟩

/-- C09: after a successful post the field is found, if no dict collection lacked a key on the way (for those
the code goes on with the wrong object, see `C09_violated`). -/
theorem C09_post_found_partial (E : Env) (hE : Honest E) (p : FS) (c : Comp) (hp : Plain (p ++ [c]))
    (v x x' : Val) (n : Nat) (h : post E (p ++ [c]) v x = (.ok n, x'))
    (hset : ∀ cls nm a old v, E.attr cls nm = some a → ∀ s, a.assign old v = .ok s → s ≠ none)
    (hk : NoNewKeys E v (p ++ [c]) x) :
    ∃ u, get E (p ++ [c]) x' = .ok u := by
  induction p generalizing x x' n with
  | nil =>
    have hc : c ≠ .none := hp c (by simp)
    simp only [List.nil_append, post] at h
    cases h1 : put1 E c v x with
    | mk r x1 =>
      rw [h1] at h
      cases r with
      | error e => simp at h
      | ok _ =>
        simp at h
        obtain ⟨s, g1, g2, g3⟩ := put1_stored hc h1
        cases s with
        | none =>
          obtain ⟨cls, sl, nm, a, sl', rfl, rfl, ha, _⟩ := g3 rfl
          cases g1 with
          | attr ha' hs => exact absurd rfl (hset _ _ _ _ _ ha' _ hs)
        | some u => exact ⟨u, by rw [List.nil_append, get_cons hc, ← h.2, g2 u rfl]; rfl⟩
  | cons d p ih =>
    have hd : d ≠ .none := hp d (by simp)
    have hp' : Plain (p ++ [c]) := fun c hc => hp c (by simp at hc ⊢; simp [hc])
    rw [List.cons_append, post_cons hd (by simp)] at h
    obtain ⟨hk1, hk2⟩ : (tryIndex x d = true → getItem x d ≠ .error .keyError) ∧
        (∀ x' b y, stepPost E x d (kwarg (p ++ [c]) v) = (x', b, .child y) → NoNewKeys E v (p ++ [c]) y) := by
      rw [List.cons_append] at hk
      generalize hq : p ++ [c] = q at hk
      cases q with
      | nil => simp at hq
      | cons e q => cases hk with | cons h1 h2 => exact ⟨h1, h2⟩
    rw [List.cons_append, get_cons hd]
    split at h
    · simp at h
    · rename_i x1 w hw hs
      simp at h
      obtain ⟨rfl, rfl⟩ := h
      cases w with
      | fail e => exact absurd rfl (hw e)
      | same => exact absurd (stepPost_same hs).2 (hk1 (stepPost_same hs).1)
      | child y =>
        obtain ⟨g1, g2⟩ := stepPost_child hE hs
        obtain ⟨s, v', u, hkw, hu⟩ := g2 rfl
        rw [g1]
        have : p = [] ∧ c = .str s := by
          cases p with
          | nil => cases c <;> simp [kwarg] at hkw <;> simp [hkw]
          | cons a p =>
            cases p <;> simp [kwarg] at hkw
        obtain ⟨rfl, rfl⟩ := this
        exact ⟨u, by simp only [List.nil_append]; rw [get_cons (by simp), hu]; rfl⟩
    · rename_i x1 y hs
      obtain ⟨g1, _⟩ := stepPost_child hE hs
      simp only [Prod.mk.injEq] at h
      obtain ⟨u, hu⟩ := ih hp' y (post E (p ++ [c]) v y).2 n (Prod.ext h.1 rfl) (hk2 _ _ _ hs)
      rcases step_replaceChild_self (post E (p ++ [c]) v y).2 g1 with h1 | ⟨⟨a, rfl⟩, _⟩
      · rw [← h.2, h1]; exact ⟨u, hu⟩
      · obtain ⟨e, he⟩ := post_atom_plain (E := E) hp' v a
        rw [he] at h; simp at h
    · rename_i x1 hs
      exact absurd (stepPost_same hs).2 (hk1 (stepPost_same hs).1)

/-! ## C10 -/

/-- C10: after deleting an attribute or key, it cannot be got any more (unless it is an attribute that reads as
something when unset). -/
theorem C10_delete_gone (E : Env) (p : FS) (c : Comp) (hp : Plain (p ++ [c])) (x x' parent : Val)
    (h : delete E (p ++ [c]) x = (.ok (), x')) (hy : get E p x = .ok parent)
    (hkeyed : Keyed parent)
    (hunset : ∀ cls sl nm a, parent = .rcd cls sl → c = .str nm → E.attr cls nm = some a → a.unset = none) :
    ∃ e, get E (p ++ [c]) x' = .error e := by
  induction p generalizing x x' with
  | nil =>
    have hc : c ≠ .none := hp c (by simp)
    simp only [get, Except.ok.injEq] at hy; subst hy
    simp only [List.nil_append, delete, delete1] at h
    rw [List.nil_append, get_cons hc]
    have hstep : ∃ e, step E x' c = .error e := by
      split at h
      · rename_i ht
        cases c with
        | none => exact absurd rfl hc
        | str nm =>
          cases x with
          | dict xs =>
            simp only [delItem] at h
            split at h
            · simp at h; subst h; exact ⟨.keyError, by simp [step, tryIndex, getItem, alookup_aerase]⟩
            · simp at h
          | dcoll cls xs =>
            simp only [delItem] at h
            split at h
            · simp at h; subst h; exact ⟨.keyError, by simp [step, tryIndex, getItem, alookup_aerase]⟩
            · simp at h
          | list xs => exact hkeyed.elim
          | lcoll cls xs => exact hkeyed.elim
          | atom a => simp [delItem] at h
          | rcd cls sl => simp [delItem] at h
        | int i =>
          cases x with
          | dict xs =>
            simp only [delItem] at h
            split at h
            · simp at h; subst h; exact ⟨.keyError, by simp [step, tryIndex, getItem, alookup_aerase]⟩
            · simp at h
          | dcoll cls xs =>
            simp only [delItem] at h
            split at h
            · simp at h; subst h; exact ⟨.keyError, by simp [step, tryIndex, getItem, alookup_aerase]⟩
            · simp at h
          | list xs => exact hkeyed.elim
          | lcoll cls xs => exact hkeyed.elim
          | atom a => simp [delItem] at h
          | rcd cls sl => simp [delItem] at h
      · rename_i ht
        cases c with
        | none => exact absurd rfl hc
        | int i => simp at h
        | str nm =>
          simp only at h
          cases hg : getAttr E x (.str nm) with
          | error e =>
            rw [hg] at h
            have : x' = x := by
              split at h
              · simp_all
              · simp at h; exact h.symm
              · simp at h
            subst this
            refine ⟨?_, ?_⟩
            · exact match (step E x' (.str nm)) with | .error e => e | .ok _ => .typeError
            · cases hs : step E x' (.str nm) with
              | error e => rfl
              | ok v =>
                simp only [step, ht, hg] at hs
                cases e <;> simp at hs
          | ok v =>
            simp only [hg] at h
            cases x with
            | rcd cls sl =>
              simp only [delAttr] at h
              split at h
              · rename_i ha
                simp at h; subst h
                exact ⟨_, by simp [step, tryIndex, getAttr, alookup_aerase, ha]; rfl⟩
              · rename_i a ha
                split at h
                · simp at h
                · simp at h; subst h
                  have hu := hunset cls sl nm a rfl rfl ha
                  exact ⟨_, by simp [step, tryIndex, getAttr, alookup_aerase, ha, hu]; rfl⟩
            | atom a => simp [getAttr] at hg
            | list xs => simp [getAttr] at hg
            | lcoll cls xs => simp [getAttr] at hg
            | dict xs => simp [getAttr] at hg
            | dcoll cls xs => simp [getAttr] at hg
    obtain ⟨e, he⟩ := hstep
    exact ⟨e, by rw [he]⟩
  | cons d p ih =>
    have hd : d ≠ .none := hp d (by simp)
    have hp' : Plain (p ++ [c]) := fun c hc => hp c (by simp at hc ⊢; simp [hc])
    rw [List.cons_append, delete_cons hd (by simp)] at h
    rw [get_cons hd] at hy
    cases hs : step E x d with
    | error e => simp [hs] at hy
    | ok y =>
      simp only [hs, Prod.mk.injEq] at h hy
      obtain ⟨e, he⟩ := ih hp' y (delete E (p ++ [c]) y).2 (Prod.ext h.1 rfl) hy
      rw [List.cons_append, get_cons hd]
      rcases step_replaceChild_self (delete E (p ++ [c]) y).2 hs with h1 | ⟨⟨a, rfl⟩, h1⟩
      · rw [← h.2, h1]; exact ⟨e, he⟩
      · rw [← h.2, h1, hs]
        cases p with
        | nil =>
          obtain ⟨e', he'⟩ := step_atom (E := E) a c
          exact ⟨e', by simp only [List.nil_append]; rw [get_cons (hp' c (by simp)), he']⟩
        | cons b p =>
          obtain ⟨e', he'⟩ := step_atom (E := E) a b
          exact ⟨e', by simp only [List.cons_append]; rw [get_cons (hp' b (by simp)), he']⟩

theorem delete1_frame {E : Env} {c d : Comp} (hc : c ≠ .none) {x : Val} (hA : Apart x c d) (hk : Keyed x) :
    step E (delete1 E c x).2 d = step E x d := by
  unfold delete1
  split
  · cases c with
    | none => exact absurd rfl hc
    | str nm =>
      cases x with
      | dict xs =>
        have hA : Comp.str nm ≠ d := hA
        have : ∀ ys, tryIndex (.dict ys) d = true := by intro ys; cases d <;> rfl
        simp only [delItem]
        split
        · simp only [step, this, getItem, alookup_aerase, hA, if_false, if_true]
        · rfl
      | dcoll cls xs =>
        have hA : Comp.str nm ≠ d := hA
        have : ∀ ys, tryIndex (.dcoll cls ys) d = true := by intro ys; cases d <;> rfl
        simp only [delItem]
        split
        · simp only [step, this, getItem, alookup_aerase, hA, if_false, if_true]
        · rfl
      | list xs => exact hk.elim
      | lcoll cls xs => exact hk.elim
      | atom a => rfl
      | rcd cls sl => rfl
    | int i =>
      cases x with
      | dict xs =>
        have hA : Comp.int i ≠ d := hA
        have : ∀ ys, tryIndex (.dict ys) d = true := by intro ys; cases d <;> rfl
        simp only [delItem]
        split
        · simp only [step, this, getItem, alookup_aerase, hA, if_false, if_true]
        · rfl
      | dcoll cls xs =>
        have hA : Comp.int i ≠ d := hA
        have : ∀ ys, tryIndex (.dcoll cls ys) d = true := by intro ys; cases d <;> rfl
        simp only [delItem]
        split
        · simp only [step, this, getItem, alookup_aerase, hA, if_false, if_true]
        · rfl
      | list xs => exact hk.elim
      | lcoll cls xs => exact hk.elim
      | atom a => rfl
      | rcd cls sl => rfl
  · cases c with
    | none => exact absurd rfl hc
    | int i => rfl
    | str nm =>
      simp only
      split
      · cases x with
        | rcd cls sl =>
          have hne : ∀ nm', d = .str nm' → nm ≠ nm' := by rintro nm' rfl rfl; exact hA rfl
          have : ∀ sl', (∀ nm', nm ≠ nm' → alookup sl' nm' = alookup sl nm') →
              step E (.rcd cls sl') d = step E (.rcd cls sl) d := by
            intro sl' h
            cases d with
            | str nm' => simp only [step, tryIndex, getAttr, h nm' (hne nm' rfl)]; rfl
            | int i => rfl
            | none => rfl
          simp only [delAttr]
          split
          · exact this _ (fun nm' h => by simp [alookup_aerase, h])
          · split
            · rfl
            · exact this _ (fun nm' h => by simp [alookup_aerase, h])
        | atom a => rfl
        | list xs => rfl
        | lcoll cls xs => rfl
        | dict xs => rfl
        | dcoll cls xs => rfl
      · rfl
      · rfl

theorem delete_atom_state {E : Env} (p : FS) (a : Atom) : (delete E p (.atom a)).2 = .atom a := by
  cases p with
  | nil => rfl
  | cons c p =>
    cases p with
    | nil =>
      simp only [delete, delete1]
      split
      · cases c <;> rfl
      · cases c <;> rfl
    | cons d p =>
      by_cases hc : c = .none
      · subst hc
        simp only [delete]
        cases h : iterVal (.atom a) with
        | error e => rfl
        | ok items => rfl
      · rw [delete_cons hc (by simp)]
        cases h : step E (.atom a) c with
        | error e => rfl
        | ok y => rfl

/-- C10: a delete, successful or not, changes nothing for selectors that diverge from it (in a list, whose items
move up, only if the deletion happens deeper down). -/
theorem C10_delete_frame (E : Env) (p : FS) (hp : Plain p) (c d : Comp) (hc : c ≠ .none) (hd : d ≠ .none)
    (a b : FS) (x y : Val) (hy : get E p x = .ok y) (hA : Apart y c d) (hk : a = [] → Keyed y) :
    get E (p ++ d :: b) (delete E (p ++ c :: a) x).2 = get E (p ++ d :: b) x := by
  induction p generalizing x with
  | nil =>
    simp only [get, Except.ok.injEq] at hy; subst hy
    simp only [List.nil_append]
    rw [get_cons hd, get_cons hd]
    have : step E (delete E (c :: a) x).2 d = step E x d := by
      cases a with
      | nil => exact delete1_frame hc hA (hk rfl)
      | cons d' a =>
        rw [delete_cons hc (by simp)]
        split
        · rfl
        · exact step_replaceChild_other _ hA
    rw [this]
  | cons e p ih =>
    have he : e ≠ .none := hp e (by simp)
    rw [get_cons he] at hy
    cases hs : step E x e with
    | error e' => simp [hs] at hy
    | ok z =>
      simp only [hs] at hy
      have ih := ih (fun c hc => hp c (by simp [hc])) z hy
      rw [List.cons_append, List.cons_append, delete_cons he (by simp), hs]
      simp only
      rw [get_cons he, get_cons he, hs]
      rcases step_replaceChild_self (delete E (p ++ c :: a) z).2 hs with h1 | ⟨⟨at', rfl⟩, h1⟩
      · rw [h1]; exact ih
      · rw [h1, hs]

/-- C10: deleting an item of a list or list collection removes exactly it, the later ones moving up. -/
theorem C10_delete_index (E : Env) (xs : List Val) (i : Int) (k : Nat) (hk : pyIndex xs.length i = some k) :
    delete E [.int i] (.list xs) = (.ok (), .list (xs.eraseIdx k)) ∧
    ∀ cls, delete E [.int i] (.lcoll cls xs) = (.ok (), .lcoll cls (xs.eraseIdx k)) := by
  simp [delete, delete1, tryIndex, delItem, hk]

theorem delete1_fail {E : Env} {c : Comp} {x x' : Val} {e : Exc} (h : delete1 E c x = (.error e, x')) :
    x' = x := by
  unfold delete1 at h
  split at h
  · split at h
    · simp at h
    · unfold delItem at h
      split at h
      · split at h
        · simp at h
        · simp at h; exact h.2.symm
      · split at h
        · simp at h
        · simp at h; exact h.2.symm
      · split at h
        · simp at h
        · simp at h; exact h.2.symm
      · split at h
        · simp at h
        · simp at h; exact h.2.symm
      · simp at h; exact h.2.symm
  · split at h
    · split at h
      · unfold delAttr at h
        split at h
        · split at h
          · simp at h
          · split at h
            · simp at h; exact h.2.symm
            · simp at h
        · simp at h; exact h.2.symm
      · simp at h
      · simp at h; exact h.2.symm
    · simp at h; exact h.2.symm

/-- C10: a delete that raises leaves the object exactly as it was, if no component before the last is a
wildcard. -/
theorem C10_failed_delete (E : Env) (p : FS) (hp : Plain p) (c : Comp) (x x' : Val) (e : Exc)
    (h : delete E (p ++ [c]) x = (.error e, x')) : x' = x := by
  induction p generalizing x x' with
  | nil => exact delete1_fail (by simpa [delete] using h)
  | cons d p ih =>
    have hd : d ≠ .none := hp d (by simp)
    rw [List.cons_append, delete_cons hd (by simp)] at h
    cases hs : step E x d with
    | error e' => simp [hs] at h; exact h.2.symm
    | ok y =>
      simp only [hs, Prod.mk.injEq] at h
      have := ih (fun c hc => hp c (by simp [hc])) y (delete E (p ++ [c]) y).2 (Prod.ext h.1 rfl)
      rw [← h.2, this]
      exact replaceChild_same hs

/-- C10: deleting an attribute that cannot be read is a silent no-op. -/
theorem C10_delete_unset (E : Env) (cls : String) (sl : List (String × Val)) (nm : String)
    (h : get E [.str nm] (.rcd cls sl) = .error (.fsAttribute nm)) :
    delete E [.str nm] (.rcd cls sl) = (.ok (), .rcd cls sl) := by
  simp only [get, step, tryIndex, Bool.false_eq_true, if_false] at h
  simp only [delete, delete1, tryIndex, Bool.false_eq_true, if_false]
  cases hg : getAttr E (.rcd cls sl) (.str nm) with
  | ok v => simp [hg] at h
  | error e =>
    cases e <;> simp only [hg] at h ⊢
    all_goals simp [getAttr] at hg
    all_goals
      split at hg
      · simp at hg
      · split at hg <;> simp at hg

/-! ## C61, C62: wildcards when writing -/

/-- The object is a list or list collection with these items. -/
inductive HasItems : Val → List Val → (List Val → Val) → Prop
  | list {xs} : HasItems (.list xs) xs .list
  | lcoll {cls xs} : HasItems (.lcoll cls xs) xs (.lcoll cls)

/-- C61: a wildcard put that works for every item changes exactly each item. -/
theorem C61_wildcard_put (E : Env) (p : FS) (hp : p ≠ []) (v x : Val) (xs : List Val) (mk : List Val → Val)
    (hx : HasItems x xs mk) (hok : ∀ r ∈ xs, (put E p v r).1 = .ok ()) :
    put E (.none :: p) v x = (.ok (), mk (xs.map (fun r => (put E p v r).2))) := by
  have key : forItems (put E p v) xs = (.ok (), xs.map (fun r => (put E p v r).2)) := by
    clear hx
    induction xs with
    | nil => rfl
    | cons r xs ih =>
      have h1 := hok r (by simp)
      cases h : put E p v r with
      | mk a r' =>
        rw [h] at h1; simp at h1; subst h1
        simp [forItems, h, ih (fun q hq => hok q (by simp [hq]))]
  cases p with
  | nil => exact absurd rfl hp
  | cons c p => cases hx <;> simp [put, iterVal, key, withItems]

/-- C61: a wildcard put stops at the first item that fails: the items before it are changed, those after it are
not. -/
theorem C61_wildcard_put_stops (E : Env) (p : FS) (hp : p ≠ []) (v x r : Val) (before after : List Val)
    (mk : List Val → Val) (hx : HasItems x (before ++ r :: after) mk)
    (hok : ∀ q ∈ before, (put E p v q).1 = .ok ()) (e : Exc) (he : (put E p v r).1 = .error e) :
    put E (.none :: p) v x =
      (.error e, mk (before.map (fun q => (put E p v q).2) ++ (put E p v r).2 :: after)) := by
  have key : forItems (put E p v) (before ++ r :: after) =
      (.error e, before.map (fun q => (put E p v q).2) ++ (put E p v r).2 :: after) := by
    clear hx
    induction before with
    | nil =>
      cases h : put E p v r with
      | mk a r' => rw [h] at he; simp at he; subst he; simp [forItems, h]
    | cons q xs ih =>
      have h1 := hok q (by simp)
      cases h : put E p v q with
      | mk a q' =>
        rw [h] at h1; simp at h1; subst h1
        simp [forItems, h, ih (fun q hq => hok q (by simp [hq]))]
  cases p with
  | nil => exact absurd rfl hp
  | cons c p => cases hx <;> simp [put, iterVal, key, withItems]

theorem wildDelete_states (f : Val → Eff Unit) (xs : List Val) :
    ∀ s, (∀ r ∈ xs, ∀ e, (f r).1 = .error e → e.isFieldSelector = true) →
      (wildDelete f xs s).2 = xs.map (fun r => (f r).2) ∧
      (s = .good ∨ (∃ r ∈ xs, (f r).1 = .ok ()) ∨ (xs = [] ∧ s = .start) → (wildDelete f xs s).1 = .ok ()) ∧
      (∀ e, s = .exc e → (∀ r ∈ xs, (f r).1 ≠ .ok ()) → (wildDelete f xs s).1 = .error e) ∧
      (s = .start → ∀ r rest e, xs = r :: rest → (f r).1 = .error e → (∀ q ∈ xs, (f q).1 ≠ .ok ()) →
        (wildDelete f xs s).1 = .error e) := by
  induction xs with
  | nil =>
    intro s _
    refine ⟨by cases s <;> rfl, ?_, ?_, by simp⟩
    · rintro (rfl | ⟨r, hr, _⟩ | ⟨_, rfl⟩)
      · rfl
      · simp at hr
      · rfl
    · rintro e rfl _; rfl
  | cons q xs ih =>
    intro s hs
    have hs' : ∀ r ∈ xs, ∀ e, (f r).1 = .error e → e.isFieldSelector = true :=
      fun r hr => hs r (by simp [hr])
    cases hq : f q with
    | mk a q' =>
      cases a with
      | ok u =>
        cases u
        obtain ⟨h1, h2, h3, _⟩ := ih s.success hs'
        refine ⟨by simp [wildDelete, hq, h1], ?_, ?_, ?_⟩
        · intro _; simp only [wildDelete, hq]; exact h2 (.inl rfl)
        · intro e _ hall; exact absurd (by simp [hq]) (hall q (by simp))
        · intro _ r rest e _ _ hall; exact absurd (by simp [hq]) (hall q (by simp))
      | error e =>
        have hf := hs q (by simp) e (by simp [hq])
        obtain ⟨h1, h2, h3, _⟩ := ih (s.failure e) hs'
        refine ⟨by simp [wildDelete, hq, hf, h1], ?_, ?_, ?_⟩
        · rintro (rfl | ⟨r, hr, hr'⟩ | ⟨h, _⟩)
          · simp only [wildDelete, hq, hf, if_true]; exact h2 (.inl rfl)
          · simp at hr
            rcases hr with rfl | hr
            · rw [hq] at hr'; simp at hr'
            · simp only [wildDelete, hq, hf, if_true]; exact h2 (.inr (.inl ⟨r, hr, hr'⟩))
          · simp at h
        · rintro e' rfl hall
          simp only [wildDelete, hq, hf, if_true]
          exact h3 e' rfl (fun r hr => hall r (by simp [hr]))
        · rintro rfl r rest e' hl he' hall
          simp at hl
          obtain ⟨rfl, rfl⟩ := hl
          rw [hq] at he'; simp at he'; subst he'
          simp only [wildDelete, hq, hf, if_true]
          exact h3 e rfl (fun r hr => hall r (by simp [hr]))

/-- C62: a wildcard delete is done in every item, items where the path is missing being passed over; it raises
the first item's exception only when there are items and it fails in all of them. -/
theorem C62_wildcard_delete (E : Env) (p : FS) (hp : p ≠ []) (x : Val) (xs : List Val) (mk : List Val → Val)
    (hx : HasItems x xs mk)
    (hfs : ∀ r ∈ xs, ∀ e, (delete E p r).1 = .error e → e.isFieldSelector = true) :
    (delete E (.none :: p) x).2 = mk (xs.map (fun r => (delete E p r).2)) ∧
    ((xs = [] ∨ ∃ r ∈ xs, (delete E p r).1 = .ok ()) → (delete E (.none :: p) x).1 = .ok ()) ∧
    (∀ r rest e, xs = r :: rest → (delete E p r).1 = .error e → (∀ q ∈ xs, (delete E p q).1 ≠ .ok ()) →
      (delete E (.none :: p) x).1 = .error e) := by
  obtain ⟨h1, h2, h3, h4⟩ := wildDelete_states (delete E p) xs .start hfs
  have hd : delete E (.none :: p) x =
      ((wildDelete (delete E p) xs .start).1, mk (wildDelete (delete E p) xs .start).2) := by
    cases p with
    | nil => exact absurd rfl hp
    | cons c p => cases hx <;> simp [delete, iterVal, withItems]
  rw [hd, h1]
  refine ⟨rfl, ?_, h4 rfl⟩
  rintro (h | h)
  · exact h2 (.inr (.inr ⟨h, rfl⟩))
  · exact h2 (.inr (.inl h))

/-- C62: any other exception stops a wildcard delete at once, later items being left alone. -/
theorem C62_wildcard_delete_stops (E : Env) (p : FS) (hp : p ≠ []) (x r : Val) (before after : List Val)
    (mk : List Val → Val) (hx : HasItems x (before ++ r :: after) mk)
    (hb : ∀ q ∈ before, ∀ e, (delete E p q).1 = .error e → e.isFieldSelector = true)
    (e : Exc) (he : (delete E p r).1 = .error e) (hne : e.isFieldSelector = false) :
    delete E (.none :: p) x =
      (.error e, mk (before.map (fun q => (delete E p q).2) ++ (delete E p r).2 :: after)) := by
  have key : ∀ s, wildDelete (delete E p) (before ++ r :: after) s =
      (.error e, before.map (fun q => (delete E p q).2) ++ (delete E p r).2 :: after) := by
    clear hx
    induction before with
    | nil =>
      intro s
      cases h : delete E p r with
      | mk a r' => rw [h] at he; simp at he; subst he; simp [wildDelete, h, hne]
    | cons q xs ih =>
      intro s
      have ih := ih (fun q hq => hb q (by simp [hq]))
      cases h : delete E p q with
      | mk a q' =>
        cases a with
        | ok u => simp [wildDelete, h, ih]
        | error e' => simp [wildDelete, h, ih, hb q (by simp) e' (by simp [h])]
  cases p with
  | nil => exact absurd rfl hp
  | cons c p => cases hx <;> simp [delete, iterVal, key, withItems]

/-- C62: a delete ending in a wildcard empties the collection. -/
theorem C62_clear (E : Env) (xs : List Val) (ys : List (Comp × Val)) (cls : String) :
    delete E [.none] (.list xs) = (.ok (), .list []) ∧ delete E [.none] (.lcoll cls xs) = (.ok (), .lcoll cls []) ∧
    delete E [.none] (.dict ys) = (.ok (), .dict []) ∧ delete E [.none] (.dcoll cls ys) = (.ok (), .dcoll cls []) :=
  ⟨rfl, rfl, rfl, rfl⟩

/-! ## A set of classes

`Person` has a `name` (a string), a `boss` (a `Person`), `kids` (a list collection of people), `byKey` (a dict
collection of people) and an old-style (`V1Property`) `age`. -/

namespace Demo

/-- `Person(**kw)` -/
def mkPerson : Option (String × Val) → Except Exc Val
  | none => .ok (.rcd "Person" [])
  | some ("name", .atom (.str s)) => .ok (.rcd "Person" [("name", .str s)])
  | some _ => .error .coerceError

/-- The classes. -/
def isPerson : Val → Bool
  | .rcd "Person" _ => true
  | _ => false

/-- A plain typed attribute. -/
def typed (ok : Val → Bool) (make : Option (Option (String × Val) → Except Exc Val)) : Attr where
  assign _ v := if ok v then .ok (some v) else .error .coerceError
  remove _ := .ok ()
  unset := none
  make := make

/-- The attributes of `Person`. -/
def personAttr : String → Option Attr
  | "name" => some (typed (fun v => match v with | .atom (.str _) => true | _ => false) none)
  | "boss" => some (typed isPerson (some mkPerson))
  | "kids" => some (typed (fun v => match v with | .lcoll "People" _ => true | _ => false)
      (some (fun kw => if kw.isNone then .ok (.lcoll "People" []) else .error .typeError)))
  | "byKey" => some (typed (fun v => match v with | .dcoll "Index" _ => true | _ => false)
      (some (fun kw => if kw.isNone then .ok (.dcoll "Index" []) else .error .typeError)))
  | _ => none

/-- The classes. -/
def env : Env where
  attr cls nm := match cls with
    | "Person" => personAttr nm
    | "Old" => if nm = "age" then some
        { assign := fun _ v => .ok (if v = .none then none else some v)
          remove := fun old => if old.isSome then .ok () else .error .keyError
          unset := some .none, make := none } else none
    | _ => none
  coerceItem _ v := if isPerson v then .ok v else .error .collectionItemCoerce
  makeItem _ kw := mkPerson kw

theorem mkPerson_isPerson {kw : Option (String × Val)} {z : Val} (h : mkPerson kw = .ok z) : isPerson z = true := by
  unfold mkPerson at h
  split at h <;> simp at h <;> subst h <;> rfl

theorem mkPerson_kw {s : String} {v z : Val} (h : mkPerson (some (s, v)) = .ok z) :
    ∃ u, step env z (.str s) = .ok u := by
  unfold mkPerson at h
  split at h
  · simp_all
  · rename_i s' heq
    simp only [Option.some.injEq, Prod.mk.injEq] at heq
    obtain ⟨rfl, rfl⟩ := heq
    simp at h; subst h
    exact ⟨.str s', rfl⟩
  · simp at h

theorem attr_make {cls nm : String} {a : Attr} {f : Option (String × Val) → Except Exc Val}
    (ha : env.attr cls nm = some a) (hm : a.make = some f) :
    f = mkPerson ∨ ∃ z, f = (fun kw => if kw.isNone then .ok z else .error .typeError) := by
  simp only [env] at ha
  split at ha
  · unfold personAttr at ha
    split at ha <;> simp only [Option.some.injEq, reduceCtorEq] at ha
    · subst ha; simp [typed] at hm
    · subst ha; simp [typed] at hm; exact .inl hm.symm
    · subst ha; simp only [typed, Option.some.injEq] at hm; exact .inr ⟨_, hm.symm⟩
    · subst ha; simp only [typed, Option.some.injEq] at hm; exact .inr ⟨_, hm.symm⟩
  · split at ha
    · simp at ha; subst ha; simp at hm
    · simp at ha
  · simp at ha

/-- They keep their promises. -/
theorem honest : Honest env where
  item cls kw z h := by
    have := mkPerson_isPerson (show mkPerson kw = .ok z from h)
    show (if isPerson z then Except.ok z else Except.error Exc.collectionItemCoerce) = _
    simp [this]
  attr cls nm a f kw z ha hm h old s hs := by
    simp only [env] at ha
    split at ha
    · unfold personAttr at ha
      split at ha <;> simp only [Option.some.injEq, reduceCtorEq] at ha <;> subst ha <;>
        · simp only [typed] at hs
          split at hs <;> simp at hs
          exact hs.symm
    · split at ha
      · simp at ha; subst ha; simp at hm
      · simp at ha
    · simp at ha
  itemKw cls s v z h := mkPerson_kw h
  attrKw cls nm a f s v z ha hm h := by
    rcases attr_make ha hm with rfl | ⟨_, rfl⟩
    · exact mkPerson_kw h
    · simp at h

/-- Ann, whose boss is Bob; they have one kid. -/
def ann : Val := .rcd "Person" [("name", .str "Ann"), ("boss", .rcd "Person" [("name", .str "Bob")]),
  ("kids", .lcoll "People" [.rcd "Person" [("name", .str "Cy")], .rcd "Person" []]),
  ("byKey", .dcoll "Index" [(.str "d", .rcd "Person" [("name", .str "Di")])])]

/-! C03–C05 -/
example : get env (FS.add [.str "kids"] [.int (-2), .str "name"]) ann = .ok (.str "Cy") := by decide +kernel
example : (put env [.str "boss", .str "name"] (.str "Eve") ann).1 = .ok () ∧
    get env [.str "boss", .str "name"] (put env [.str "boss", .str "name"] (.str "Eve") ann).2 = .ok (.str "Eve") := by
  decide +kernel
example : Apart (.lcoll "People" [.rcd "Person" [], .rcd "Person" []]) (.int 0) (.int (-1)) := by
  simp [Apart, pyIndex]
example : ¬ Apart (.lcoll "People" [.rcd "Person" [], .rcd "Person" []]) (.int 0) (.int (-2)) := by
  simp [Apart, pyIndex]

/-! C06: the second kid has no name, which shows as `None`; when none has, the first exception is raised. -/
example : get env [.str "kids", .none, .str "name"] ann = .ok (.list [.str "Cy", .none]) := by decide +kernel
example : get env [.str "kids", .none, .str "age"] ann = .error (.fsAttribute "age") := by decide +kernel
example : get env [.none, .str "age"] (.lcoll "People" []) = .ok (.list []) := by decide +kernel

/-! C07 -/
example : getOrNone env [.str "kids", .int 7, .str "name"] ann = .ok .none := by decide +kernel
example : Fits env [.str "kids", .int 7, .str "name"] ann := by
  refine .rcd ?_
  intro y hy
  have : y = .lcoll "People" [.rcd "Person" [("name", .str "Cy")], .rcd "Person" []] := by
    have h : step env ann (.str "kids") =
      .ok (.lcoll "People" [.rcd "Person" [("name", .str "Cy")], .rcd "Person" []]) := rfl
    exact (Except.ok.inj (h.symm.trans hy)).symm
  subst this
  refine .lcoll ?_
  intro z hz
  have h : step env (.lcoll "People" [.rcd "Person" [("name", .str "Cy")], .rcd "Person" []]) (.int 7) =
    .error (.fsKey (.int 7)) := by decide +kernel
  exact absurd (h.symm.trans hz) (by simp)

/-! C08: a rejected value at the end of a path. -/
example : put env [.str "boss", .str "name"] (.int 3) ann = (.error .coerceError, ann) := by decide +kernel

/-! C09: `post` makes the missing boss of a boss, or the next kid. -/
example : post env [.str "boss", .str "boss", .str "name"] (.str "Zoe") ann =
    (.ok 1, (put env [.str "boss"]
      (.rcd "Person" [("name", .str "Bob"), ("boss", .rcd "Person" [("name", .str "Zoe")])]) ann).2) := by
  decide +kernel
example : get env [.str "kids", .int 2, .str "boss", .str "name"]
    (post env [.str "kids", .int 2, .str "boss", .str "name"] (.str "Zoe") ann).2 = .ok (.str "Zoe") := by
  decide +kernel
example : NoNewKeys env (.str "Zoe") [.str "boss", .str "boss", .str "name"] ann := by
  have nk : ∀ p x, tryIndex x (.str p) = false → (tryIndex x (.str p) = true → getItem x (.str p) ≠ .error .keyError) := by
    intro p x h h'; rw [h] at h'; cases h'
  refine .cons (nk _ _ rfl) ?_
  intro x' b y hy
  have h : stepPost env ann (.str "boss") (kwarg [.str "boss", .str "name"] (.str "Zoe")) =
    (ann, false, .child (.rcd "Person" [("name", .str "Bob")])) := rfl
  have : y = .rcd "Person" [("name", .str "Bob")] := by
    rw [h] at hy; simp at hy; exact hy.2.2.symm
  subst this
  exact .cons (nk _ _ rfl) (fun _ _ _ _ => .one)
example : post env [.str "kids", .int 5, .str "name"] (.str "Zoe") ann = (.error .valueError, ann) := by
  decide +kernel

/-! C10 -/
example : delete env [.str "boss", .str "name"] ann =
    (.ok (), (put env [.str "boss"] (.rcd "Person" []) ann).2) := by decide +kernel
example : delete env [.str "byKey", .str "d"] ann =
    (.ok (), (put env [.str "byKey"] (.dcoll "Index" []) ann).2) := by decide +kernel
example : delete env [.str "byKey", .str "e"] ann = (.error .keyError, ann) := by decide +kernel
example : delete env [.str "boss", .str "kids"] ann = (.ok (), ann) := by decide +kernel
/-! An old-style property goes on reading as its `v1_none`; deleting it again is a `KeyError`. -/
example : delete env [.str "age"] (.rcd "Old" [("age", .int 3)]) = (.ok (), .rcd "Old" []) ∧
    get env [.str "age"] (.rcd "Old" []) = .ok .none ∧
    delete env [.str "age"] (.rcd "Old" []) = (.error .keyError, .rcd "Old" []) := by decide +kernel

/-! C61, C62 -/
example : (put env [.str "kids", .none, .str "name"] (.str "Q") ann).1 = .ok () ∧
    get env [.str "kids", .none, .str "name"] (put env [.str "kids", .none, .str "name"] (.str "Q") ann).2 =
      .ok (.list [.str "Q", .str "Q"]) := by decide +kernel
example : put env [.none, .str "name"] (.str "Q") (.list [.rcd "Person" [], .atom .none, .rcd "Person" []]) =
    (.error .fsException, .list [.rcd "Person" [("name", .str "Q")], .atom .none, .rcd "Person" []]) := by
  decide +kernel
example : delete env [.none, .str "boss", .str "name"] (.list [.rcd "Person" [], ann]) =
    (.ok (), .list [.rcd "Person" [], (delete env [.str "boss", .str "name"] ann).2]) := by decide +kernel
example : delete env [.none, .str "boss", .str "name"] (.list [.rcd "Person" [], .rcd "Person" []]) =
    (.error (.fsAttribute "boss"), .list [.rcd "Person" [], .rcd "Person" []]) := by decide +kernel

/-- C09 fails when a dict collection lacks a key: the item is made, but the rest of the path is then followed
from the collection itself. -/
theorem C09_violated_lemma :
    post env [.str "k", .str "boss", .str "name"] (.str "X") (.dcoll "Index" []) =
      (.ok 1, .dcoll "Index" [(.str "k", .rcd "Person" []), (.str "boss", .rcd "Person" [("name", .str "X")])]) := by
  decide +kernel

/-- `Person` without the old-style class. -/
theorem assign_sets (cls nm : String) (a : Attr) (old : Option Val) (v : Val)
    (h : env.attr cls nm = some a) (hc : cls ≠ "Old") (s : Option Val) (hs : a.assign old v = .ok s) : s ≠ none := by
  simp only [env] at h
  split at h
  · unfold personAttr at h
    split at h <;> simp only [Option.some.injEq, reduceCtorEq] at h <;> subst h <;>
      · simp only [typed] at hs
        split at hs <;> simp at hs
        simp [← hs]
  · exact absurd rfl hc
  · simp at h

/-- The classes without the old-style one. -/
def env' : Env := { env with attr := fun cls nm => if cls = "Old" then none else env.attr cls nm }

theorem step_env' (z : Val) (c : Comp) (hz : ∀ sl, z ≠ .rcd "Old" sl) : step env' z c = step env z c := by
  have : getAttr env' z c = getAttr env z c := by
    cases z with
    | rcd cls sl =>
      cases c with
      | str nm =>
        have : cls ≠ "Old" := by rintro rfl; exact hz sl rfl
        simp [getAttr, env', this]
      | _ => rfl
    | _ => cases c <;> rfl
  simp only [step, this]

theorem honest' : Honest env' where
  item := honest.item
  attr cls nm a f kw z ha := by
    simp only [env'] at ha
    split at ha
    · simp at ha
    · exact honest.attr cls nm a f kw z ha
  itemKw cls s v z h := by
    obtain ⟨u, hu⟩ := honest.itemKw cls s v z h
    refine ⟨u, ?_⟩
    rw [step_env' _ _ ?_, hu]
    intro sl hz
    have := mkPerson_isPerson (show mkPerson _ = .ok z from h)
    rw [hz] at this; simp [isPerson] at this
  attrKw cls nm a f s v z ha hm h := by
    simp only [env'] at ha
    split at ha
    · simp at ha
    · rcases attr_make ha hm with rfl | ⟨_, rfl⟩
      · obtain ⟨u, hu⟩ := mkPerson_kw h
        refine ⟨u, ?_⟩
        rw [step_env' _ _ ?_, hu]
        intro sl hz
        have := mkPerson_isPerson h
        rw [hz] at this; simp [isPerson] at this
      · simp at h

end Demo

/-- C09's last part is false of the code: see `Demo.C09_violated_lemma`. -/
theorem C09_violated : ¬ C09_statement := by
  intro h
  have hp : post Demo.env' [.str "k", .str "boss", .str "name"] (.str "X") (.dcoll "Index" []) =
    (.ok 1, .dcoll "Index" [(.str "k", .rcd "Person" []), (.str "boss", .rcd "Person" [("name", .str "X")])]) := by
    decide +kernel
  obtain ⟨u, hu⟩ := h Demo.env' Demo.honest' [.str "k", .str "boss"] (.str "name") (by simp [Plain]) _ _ _ _ hp (by
    intro cls nm a old v ha s hs
    simp only [Demo.env'] at ha
    split at ha
    · simp at ha
    · rename_i hc; exact Demo.assign_sets cls nm a old v ha hc s hs)
  have hg : get Demo.env' [.str "k", .str "boss", .str "name"] (.dcoll "Index" [(.str "k", .rcd "Person" []),
      (.str "boss", .rcd "Person" [("name", .str "X")])]) = .error (.fsAttribute "boss") := by decide +kernel
  exact absurd (hg.symm.trans hu) (by simp)

end Normalize
