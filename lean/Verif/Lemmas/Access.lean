import Verif.Spec.Access

/-! Lemmas about object access. -/

namespace Normalize

open Spec

section Assoc
variable {κ α : Type} [DecidableEq κ]

theorem alookup_aset (d : List (κ × α)) (k k' : κ) (v : α) :
    alookup (aset d k v) k' = if k = k' then some v else alookup d k' := by
  induction d with
  | nil => simp [aset, alookup]
  | cons x d ih =>
    obtain ⟨a, b⟩ := x
    simp only [aset]
    split
    · rename_i h; subst h; simp only [alookup]; split <;> rfl
    · rename_i h
      simp only [alookup, ih]
      split
      · rename_i h2; subst h2; rw [if_neg (fun e => h e.symm)]
      · rfl

theorem alookup_aerase (d : List (κ × α)) (k k' : κ) :
    alookup (aerase d k) k' = if k = k' then none else alookup d k' := by
  induction d with
  | nil => simp [aerase, alookup]
  | cons x d ih =>
    obtain ⟨a, b⟩ := x
    simp only [aerase]
    split
    · rename_i h; subst h; simp only [alookup, ih]; split <;> rfl
    · rename_i h
      simp only [alookup, ih]
      split
      · rename_i h2; subst h2; rw [if_neg (fun e => h e.symm)]
      · rfl

theorem alookup_setSlot (d : List (String × Val)) (k k' : String) (s : Option Val) :
    alookup (setSlot d k s) k' = if k = k' then s else alookup d k' := by
  cases s with
  | none => exact alookup_aerase d k k'
  | some v => exact alookup_aset d k k' v

end Assoc

theorem pyIndex_lt {n : Nat} {i : Int} {k : Nat} (h : pyIndex n i = some k) : k < n := by
  unfold pyIndex at h
  split at h
  · split at h
    · simp at h; omega
    · simp at h
  · split at h
    · simp at h; omega
    · simp at h

theorem getIdx_setIdx_self {α : Type} (xs : List α) (i : Int) (z : α) (h : (pyIndex xs.length i).isSome = true) :
    getIdx (setIdx xs i z) i = some z := by
  unfold getIdx setIdx
  cases hk : pyIndex xs.length i with
  | none => simp [hk] at h
  | some k => simp [hk, pyIndex_lt hk]

theorem length_setIdx {α : Type} (xs : List α) (i : Int) (z : α) : (setIdx xs i z).length = xs.length := by
  unfold setIdx; split <;> simp

theorem getIdx_setIdx_other {α : Type} (xs : List α) (i j : Int) (z : α)
    (h : ∀ k, pyIndex xs.length i = some k → pyIndex xs.length j ≠ some k) :
    getIdx (setIdx xs i z) j = getIdx xs j := by
  unfold getIdx
  rw [length_setIdx]
  unfold setIdx
  cases hk : pyIndex xs.length i with
  | none => rfl
  | some k =>
    cases hj : pyIndex xs.length j with
    | none => rfl
    | some k' =>
      simp only [Option.bind_some]
      have : k ≠ k' := by rintro rfl; exact h k hk hj
      rw [List.getElem?_set]; simp [this]

theorem getIdx_isSome {α : Type} (xs : List α) (i : Int) : (getIdx xs i).isSome = (pyIndex xs.length i).isSome := by
  unfold getIdx
  cases hk : pyIndex xs.length i with
  | none => rfl
  | some k => simp [pyIndex_lt hk]

theorem setIdx_same {α : Type} (xs : List α) (i : Int) (y : α) (h : getIdx xs i = some y) :
    setIdx xs i y = xs := by
  unfold getIdx at h
  unfold setIdx
  cases hk : pyIndex xs.length i with
  | none => rfl
  | some k =>
    simp only [hk, Option.bind_some] at h
    have hlt := pyIndex_lt hk
    rw [List.getElem?_eq_getElem hlt] at h
    injection h with h
    simp only
    rw [← h, List.set_getElem_self]

theorem alookup_areplace {κ α : Type} [DecidableEq κ] (d : List (κ × α)) (k k' : κ) (v : α) :
    alookup (areplace d k v) k' = if k = k' then (alookup d k).map (fun _ => v) else alookup d k' := by
  unfold areplace
  split
  · rename_i h
    rw [alookup_aset]
    split
    · cases hh : alookup d k with
      | none => simp [hh] at h
      | some v => rfl
    · rfl
  · rename_i h
    split
    · rename_i e; subst e
      cases hh : alookup d k with
      | none => rfl
      | some v => simp [hh] at h
    · rfl

theorem aset_same {κ α : Type} [DecidableEq κ] (d : List (κ × α)) (k : κ) (y : α) (h : alookup d k = some y) :
    aset d k y = d := by
  induction d with
  | nil => simp [alookup] at h
  | cons a xs ih =>
    obtain ⟨k', v⟩ := a
    simp only [alookup] at h
    simp only [aset]
    split at h
    · simp at h; subst h; simp [*]
    · simp [*]

theorem areplace_same {κ α : Type} [DecidableEq κ] (d : List (κ × α)) (k : κ) (y : α)
    (h : alookup d k = none ∨ alookup d k = some y) : areplace d k y = d := by
  unfold areplace
  rcases h with h | h
  · simp [h]
  · simp [h, aset_same d k y h]

theorem step_iff_stepPut {E : Env} {x : Val} {c : Comp} {y : Val} :
    step E x c = .ok y ↔ stepPut E x c = .ok y := by
  unfold step stepPut
  split
  · cases getItem x c with
    | ok v => simp
    | error e => cases e <;> simp
  · cases getAttr E x c with
    | ok v => simp
    | error e => cases e <;> simp

theorem stepPut_error {E : Env} {x : Val} {c : Comp} (h : ∀ y, step E x c ≠ .ok y) :
    ∃ e, stepPut E x c = .error e := by
  cases hs : stepPut E x c with
  | error e => exact ⟨e, rfl⟩
  | ok y => exact absurd (step_iff_stepPut.2 hs) (h y)

theorem tryIndex_replaceChild (x : Val) (c d : Comp) (z : Val) :
    tryIndex (replaceChild x c z) d = tryIndex x d := by
  cases x <;> cases c <;> simp only [replaceChild] <;> cases d <;> rfl

/-- Reading the changed part back; or the part was the none-value of an unset attribute and nothing was
changed. -/
theorem step_replaceChild_self {E : Env} {x : Val} {c : Comp} {y : Val} (z : Val)
    (h : step E x c = .ok y) :
    step E (replaceChild x c z) c = .ok z ∨ ((∃ a, y = .atom a) ∧ replaceChild x c z = x) := by
  unfold step at h ⊢
  rw [tryIndex_replaceChild]
  split
  · rename_i ht
    simp only [ht, if_true] at h
    left
    cases x with
    | atom a => cases c <;> simp [getItem] at h
    | rcd cls sl => cases c <;> simp [getItem] at h
    | list xs =>
      cases c with
      | int i =>
        simp only [getItem, replaceChild] at h ⊢
        rw [getIdx_setIdx_self]
        rw [← getIdx_isSome]
        cases hh : getIdx xs i with
        | none => simp [hh] at h
        | some v => rfl
      | str s => simp [getItem] at h
      | none => simp [getItem] at h
    | lcoll cls xs =>
      cases c with
      | int i =>
        simp only [getItem, replaceChild] at h ⊢
        rw [getIdx_setIdx_self]
        rw [← getIdx_isSome]
        cases hh : getIdx xs i with
        | none => simp [hh] at h
        | some v => rfl
      | str s => simp [getItem] at h
      | none => simp [getItem] at h
    | dict xs =>
      simp only [getItem, replaceChild, alookup_areplace] at h ⊢
      cases hh : alookup xs c with
      | none => simp [hh] at h
      | some v => simp
    | dcoll cls xs =>
      simp only [getItem, replaceChild, alookup_areplace] at h ⊢
      cases hh : alookup xs c with
      | none => simp [hh] at h
      | some v => simp
  · rename_i ht
    simp only [ht] at h
    cases x with
    | rcd cls sl =>
      cases c with
      | str nm =>
        simp only [getAttr, replaceChild, Bool.false_eq_true, if_false, alookup_areplace] at h ⊢
        cases hh : alookup sl nm with
        | some v => left; simp
        | none =>
          right
          simp only [hh] at h
          refine ⟨?_, by rw [areplace_same _ _ _ (.inl hh)]⟩
          cases hu : (E.attr cls nm).bind (·.unset) with
          | some a => simp [hu] at h; exact ⟨a, h.symm⟩
          | none => simp [hu] at h
      | int i => simp [getAttr] at h
      | none => simp [getAttr] at h
    | atom a => cases c <;> simp [getAttr] at h
    | list xs => cases c <;> simp [getAttr] at h
    | lcoll cls xs => cases c <;> simp [getAttr] at h
    | dict xs => cases c <;> simp [getAttr] at h
    | dcoll cls xs => cases c <;> simp [getAttr] at h

theorem step_replaceChild_other {E : Env} {x : Val} {c d : Comp} (z : Val) (h : Apart x c d) :
    step E (replaceChild x c z) d = step E x d := by
  have hi : getItem (replaceChild x c z) d = getItem x d := by
    cases x with
    | atom a => rfl
    | rcd cls sl => cases c <;> cases d <;> rfl
    | list xs =>
      cases c <;> cases d <;> first | rfl | skip
      simp only [replaceChild, getItem]
      rw [getIdx_setIdx_other _ _ _ _ h]
    | lcoll cls xs =>
      cases c <;> cases d <;> first | rfl | skip
      simp only [replaceChild, getItem]
      rw [getIdx_setIdx_other _ _ _ _ h]
    | dict xs =>
      have h : c ≠ d := h
      simp only [replaceChild, getItem, alookup_areplace, h, if_false]
    | dcoll cls xs =>
      have h : c ≠ d := h
      simp only [replaceChild, getItem, alookup_areplace, h, if_false]
  have ha : getAttr E (replaceChild x c z) d = getAttr E x d := by
    cases x with
    | rcd cls sl =>
      cases c <;> cases d <;> first | rfl | skip
      rename_i s s'
      have : s ≠ s' := by rintro rfl; exact h rfl
      simp only [replaceChild, getAttr, alookup_areplace, this, if_false]
    | atom a => rfl
    | list xs => cases c <;> cases d <;> rfl
    | lcoll cls xs => cases c <;> cases d <;> rfl
    | dict xs => cases c <;> cases d <;> rfl
    | dcoll cls xs => cases c <;> cases d <;> rfl
  unfold step
  rw [tryIndex_replaceChild, hi, ha]

/-- Putting the part that is already there changes nothing. -/
theorem replaceChild_same {E : Env} {x : Val} {c : Comp} {y : Val} (h : step E x c = .ok y)  :
    replaceChild x c y = x := by
  unfold step at h
  split at h
  · cases x with
    | atom a => rfl
    | rcd cls sl => cases c <;> first | rfl | (simp [getItem] at h)
    | list xs =>
      cases c <;> first | rfl | skip
      rename_i i _
      simp only [getItem] at h
      simp only [replaceChild]
      cases hh : getIdx xs i with
      | none => simp [hh] at h
      | some v => simp [hh] at h; subst h; rw [setIdx_same _ _ _ hh]
    | lcoll cls xs =>
      cases c <;> first | rfl | skip
      rename_i i _
      simp only [getItem] at h
      simp only [replaceChild]
      cases hh : getIdx xs i with
      | none => simp [hh] at h
      | some v => simp [hh] at h; subst h; rw [setIdx_same _ _ _ hh]
    | dict xs =>
      simp only [getItem] at h
      simp only [replaceChild]
      rw [areplace_same]
      cases hh : alookup xs c with
      | none => simp
      | some v => simp [hh] at h; simp [h]
    | dcoll cls xs =>
      simp only [getItem] at h
      simp only [replaceChild]
      rw [areplace_same]
      cases hh : alookup xs c with
      | none => simp
      | some v => simp [hh] at h; simp [h]
  · cases x with
    | rcd cls sl =>
      cases c <;> first | rfl | skip
      rename_i nm _
      simp only [getAttr] at h
      simp only [replaceChild]
      rw [areplace_same]
      cases hh : alookup sl nm with
      | none => simp
      | some v => simp [hh] at h; simp [h]
    | atom a => rfl
    | list xs => cases c <;> first | rfl | (simp [getAttr] at h)
    | lcoll cls xs => cases c <;> first | rfl | (simp [getAttr] at h)
    | dict xs => cases c <;> simp [getAttr] at h
    | dcoll cls xs => cases c <;> simp [getAttr] at h

theorem get_cons {E : Env} {c : Comp} (hc : c ≠ .none) (p : FS) (x : Val) :
    get E (c :: p) x = match step E x c with | .error e => .error e | .ok y => get E p y := by
  cases c with
  | none => exact absurd rfl hc
  | str s => rfl
  | int i => rfl

theorem put_cons {E : Env} {c : Comp} (hc : c ≠ .none) {p : FS} (hp : p ≠ []) (v x : Val) :
    put E (c :: p) v x = match stepPut E x c with
      | .error e => (.error e, x)
      | .ok y => ((put E p v y).1, replaceChild x c (put E p v y).2) := by
  cases p with
  | nil => exact absurd rfl hp
  | cons d p =>
    cases c with
    | none => exact absurd rfl hc
    | str s => rfl
    | int i => rfl

theorem delete_cons {E : Env} {c : Comp} (hc : c ≠ .none) {p : FS} (hp : p ≠ []) (x : Val) :
    delete E (c :: p) x = match step E x c with
      | .error e => (.error e, x)
      | .ok y => ((delete E p y).1, replaceChild x c (delete E p y).2) := by
  cases p with
  | nil => exact absurd rfl hp
  | cons d p =>
    cases c with
    | none => exact absurd rfl hc
    | str s => rfl
    | int i => rfl

theorem get_append {E : Env} {a : FS} (ha : Plain a) (b : FS) (x : Val) :
    get E (a ++ b) x = match get E a x with | .error e => .error e | .ok y => get E b y := by
  induction a generalizing x with
  | nil => rfl
  | cons c a ih =>
    have hc : c ≠ .none := ha c (by simp)
    rw [List.cons_append, get_cons hc, get_cons hc]
    cases step E x c with
    | error e => rfl
    | ok y => exact ih (fun c hc => ha c (by simp [hc])) y

theorem forItems_atoms (f : Val → Eff Unit) : ∀ l : List Val,
    (∀ x ∈ l, (f x).2 = x) → (forItems f l).2 = l := by
  intro l
  induction l with
  | nil => intro _; rfl
  | cons x l ih =>
    intro h
    simp only [forItems]
    have hx := h x (by simp)
    split
    · rename_i e x' he; rw [he] at hx; simp at hx; subst hx; rfl
    · rename_i x' he; rw [he] at hx; simp at hx; subst hx
      simp [ih (fun x hx => h x (by simp [hx]))]

theorem put1_atom {E : Env} (c : Comp) (v : Val) (a : Atom) :
    ∃ e, put1 E c v (.atom a) = (.error e, .atom a) := by
  cases c <;> simp only [put1, setAll]
  · cases h : tryIndex (.atom a) (.str _) with
    | true => simp [setItem]
    | false => simp [setAttr]
  · cases h : tryIndex (.atom a) (.int _) with
    | true => simp [setItem]
    | false => simp [setAttr]
  · exact ⟨_, rfl⟩

theorem iterVal_atom_items {a : Atom} {items : List Val} (h : iterVal (.atom a) = .ok items) :
    ∀ x ∈ items, ∃ b, x = .atom b := by
  cases a <;> simp [iterVal] at h
  subst h
  intro x hx
  simp at hx
  obtain ⟨c, _, rfl⟩ := hx
  exact ⟨_, rfl⟩

/-- Nothing can be changed inside an object without parts. -/
theorem put_atom_state {E : Env} (p : FS) (v : Val) : ∀ a : Atom, (put E p v (.atom a)).2 = .atom a := by
  induction p with
  | nil => intro a; rfl
  | cons c p ih =>
    intro a
    cases p with
    | nil => obtain ⟨e, h⟩ := put1_atom (E := E) c v a; simp [put, h]
    | cons d p =>
      by_cases hc : c = .none
      · subst hc
        simp only [put]
        cases h : iterVal (.atom a) with
        | error e => rfl
        | ok items => rfl
      · rw [put_cons hc (by simp)]
        cases h : stepPut E (.atom a) c with
        | error e => rfl
        | ok y => rfl

theorem step_atom {E : Env} (a : Atom) (c : Comp) : ∃ e, step E (.atom a) c = .error e := by
  unfold step
  split
  · cases c <;> exact ⟨_, rfl⟩
  · cases c <;> exact ⟨_, rfl⟩

theorem put_atom_plain {E : Env} {p : FS} (hp : Plain p) (v : Val) (a : Atom) :
    ∃ e, (put E p v (.atom a)).1 = .error e := by
  cases p with
  | nil => exact ⟨_, rfl⟩
  | cons c p =>
    cases p with
    | nil => obtain ⟨e, h⟩ := put1_atom (E := E) c v a; exact ⟨e, by simp [put, h]⟩
    | cons d p =>
      rw [put_cons (hp c (by simp)) (by simp)]
      obtain ⟨e, he⟩ := step_atom (E := E) a c
      obtain ⟨e', he'⟩ := stepPut_error (E := E) (x := .atom a) (c := c) (by simp [he])
      exact ⟨e', by simp [he']⟩

end Normalize
