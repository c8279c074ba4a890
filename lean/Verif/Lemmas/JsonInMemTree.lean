import Verif.Lemmas.JsonInMem
import Verif.Lemmas.JsonMemTree

/-! JSON input does the same on objects in memory as on trees. -/

namespace Normalize.JsonInMem

open Normalize.Mem Normalize.Spec
open Ident (IProp Ty ItemTy CollKind)
open Json (JErr)

theorem looks_grown {m m' : Mem} {t : Val} {r : Ref} (hg : Grown m m') (h : Looks m t r) : Looks m' t r :=
  looks_onlyNew h hg.2

/-- Entries or arguments that look alike. -/
def Ent {κ : Type} (m : Mem) (a : κ × Val) (b : κ × Ref) : Prop := a.1 = b.1 ∧ Looks m a.2 b.2

def Ents {κ : Type} (m : Mem) (ts : List (κ × Val)) (rs : List (κ × Ref)) : Prop := List.Forall₂ (Ent m) ts rs

def Items (m : Mem) (ts : List Val) (rs : List Ref) : Prop := List.Forall₂ (Looks m) ts rs

theorem ents_grown {κ : Type} {m m' : Mem} {ts : List (κ × Val)} {rs : List (κ × Ref)} (hg : Grown m m')
    (h : Ents m ts rs) : Ents m' ts rs := h.imp (fun _ _ h => ⟨h.1, looks_grown hg h.2⟩)

theorem items_grown {m m' : Mem} {ts : List Val} {rs : List Ref} (hg : Grown m m') (h : Items m ts rs) :
    Items m' ts rs := h.imp (fun _ _ h => looks_grown hg h)

theorem ents_iff {κ : Type} {m : Mem} {ts : List (κ × Val)} {rs : List (κ × Ref)} :
    Ents m ts rs ↔ rs.map (·.1) = ts.map (·.1) ∧ Items m (ts.map (·.2)) (rs.map (·.2)) := by
  unfold Ents Items
  induction ts generalizing rs with
  | nil =>
    constructor
    · intro h; cases h; exact ⟨rfl, .nil⟩
    · rintro ⟨h1, _⟩
      cases rs with
      | nil => exact .nil
      | cons r rs => cases h1
  | cons t ts ih =>
    constructor
    · intro h
      cases h with
      | cons h1 h2 =>
        have h3 := ih.mp h2
        exact ⟨by simp only [List.map_cons, h3.1, h1.1], .cons h1.2 h3.2⟩
    · rintro ⟨h1, h2⟩
      cases rs with
      | nil => cases h1
      | cons r rs =>
        simp only [List.map_cons, List.cons.injEq] at h1
        simp only [List.map_cons, List.forall₂_cons] at h2
        exact .cons ⟨h1.1.symm, h2.1⟩ (ih.mpr ⟨h1.2, h2.2⟩)

theorem ents_aset {κ : Type} [DecidableEq κ] {m : Mem} {ts : List (κ × Val)} {rs : List (κ × Ref)} {k : κ} {t : Val}
    {r : Ref} (h : Ents m ts rs) (ht : Looks m t r) : Ents m (aset ts k t) (aset rs k r) := by
  unfold Ents at h ⊢
  induction h with
  | nil => exact .cons ⟨rfl, ht⟩ .nil
  | @cons a b as bs h1 h2 ih =>
    obtain ⟨k1, a⟩ := a
    obtain ⟨k2, b⟩ := b
    obtain ⟨hk, hl⟩ := h1
    simp only at hk
    subst hk
    simp only [aset]
    split
    · exact .cons ⟨rfl, ht⟩ h2
    · exact .cons ⟨rfl, hl⟩ ih

theorem ents_lookup {κ : Type} [DecidableEq κ] {m : Mem} {ts : List (κ × Val)} {rs : List (κ × Ref)} (k : κ)
    (h : Ents m ts rs) : LooksO m (alookup ts k) (alookup rs k) := by
  unfold Ents at h
  induction h with
  | nil => trivial
  | @cons a b as bs h1 h2 ih =>
    obtain ⟨k1, a⟩ := a
    obtain ⟨k2, b⟩ := b
    obtain ⟨hk, hl⟩ := h1
    simp only at hk
    subst hk
    simp only [alookup]
    split
    · exact hl
    · exact ih

theorem ents_isSome {κ : Type} [DecidableEq κ] {m : Mem} {ts : List (κ × Val)} {rs : List (κ × Ref)} (k : κ)
    (h : Ents m ts rs) : (alookup rs k).isSome = (alookup ts k).isSome := by
  have h1 := ents_lookup k h
  cases ha : alookup ts k <;> cases hb : alookup rs k <;> rw [ha, hb] at h1 <;> first | rfl | exact h1.elim

theorem ents_append {κ : Type} {m : Mem} {ts ts' : List (κ × Val)} {rs rs' : List (κ × Ref)} (h : Ents m ts rs)
    (h' : Ents m ts' rs') : Ents m (ts ++ ts') (rs ++ rs') := List.rel_append h h'

theorem ents_filter {κ : Type} {m : Mem} {ts : List (κ × Val)} {rs : List (κ × Ref)} (P : κ → Bool)
    (h : Ents m ts rs) : Ents m (ts.filter (fun e => P e.1)) (rs.filter (fun e => P e.1)) := by
  unfold Ents at h ⊢
  induction h with
  | nil => exact .nil
  | @cons a b as bs h1 h2 ih =>
    simp only [List.filter_cons, h1.1]
    split
    · exact .cons h1 ih
    · exact ih

theorem ents_keys {κ : Type} {m : Mem} {ts : List (κ × Val)} {rs : List (κ × Ref)} (h : Ents m ts rs) :
    rs.map (·.1) = ts.map (·.1) := (ents_iff.mp h).1

theorem ents_all {κ : Type} {m : Mem} {ts : List (κ × Val)} {rs : List (κ × Ref)} (P : κ → Bool) (h : Ents m ts rs) :
    rs.all (fun e => P e.1) = ts.all (fun e => P e.1) := by
  have h1 : (rs.map (·.1)).all P = (ts.map (·.1)).all P := by rw [ents_keys h]
  rw [List.all_map, List.all_map] at h1
  exact h1

theorem ents_insert {κ : Type} {m : Mem} (le : κ → κ → Bool) {a : κ × Val} {b : κ × Ref} (hab : Ent m a b)
    {ts : List (κ × Val)} {rs : List (κ × Ref)} (h : Ents m ts rs) :
    Ents m (ts.orderedInsert (fun x y => le x.1 y.1) a) (rs.orderedInsert (fun x y => le x.1 y.1) b) := by
  unfold Ents at h ⊢
  induction h with
  | nil => exact .cons hab .nil
  | @cons c d cs ds h1 h2 ih =>
    simp only [List.orderedInsert, hab.1, h1.1]
    split
    · exact .cons hab (.cons h1 h2)
    · exact .cons h1 ih

theorem ents_sort {κ : Type} {m : Mem} (le : κ → κ → Bool) {ts : List (κ × Val)} {rs : List (κ × Ref)}
    (h : Ents m ts rs) : Ents m (ts.insertionSort (fun x y => le x.1 y.1)) (rs.insertionSort (fun x y => le x.1 y.1)) := by
  unfold Ents at h
  induction h with
  | nil => exact .nil
  | cons h1 h2 ih => exact ents_insert le h1 ih

/-! ### What an object looks like -/

/-- The object referred to. -/
def DLooks (m : Mem) : Val → Obj → Prop
  | .atom a, o => o = .atom a
  | .list ts, o => ∃ rs, o = .list rs ∧ Items m ts rs
  | .lcoll c ts, o => ∃ rs, o = .lcoll c rs ∧ Items m ts rs
  | .dict ts, o => ∃ rs, o = .dict rs ∧ Ents m ts rs
  | .dcoll c ts, o => ∃ rs, o = .dcoll c rs ∧ Ents m ts rs
  | .rcd c ts, o => ∃ rs, o = .rcd c rs ∧ Ents m ts rs

theorem objLooks_dlooks {m : Mem} {t : Val} {o : Obj} {ls : List Nat} (h : ObjLooks m t o ls) : DLooks m t o := by
  cases h with
  | list h => exact ⟨_, rfl, ownsL_forall2.mp ⟨_, h⟩⟩
  | lcoll h => exact ⟨_, rfl, ownsL_forall2.mp ⟨_, h⟩⟩
  | dict hk h => exact ⟨_, rfl, ents_iff.mpr ⟨hk, ownsL_forall2.mp ⟨_, h⟩⟩⟩
  | dcoll hk h => exact ⟨_, rfl, ents_iff.mpr ⟨hk, ownsL_forall2.mp ⟨_, h⟩⟩⟩
  | rcd hk h => exact ⟨_, rfl, ents_iff.mpr ⟨hk, ownsL_forall2.mp ⟨_, h⟩⟩⟩

theorem looks_deref {m : Mem} {t : Val} {r : Ref} (h : Looks m t r) : DLooks m t (deref m r) := by
  obtain ⟨ls, h⟩ := h
  rcases owns_iff.mp h with ⟨a, rfl, rfl, _⟩ | ⟨l, o, ls', rfl, h2, h3, _⟩
  · rfl
  · simp only [deref, h2, Option.getD_some]
    exact objLooks_dlooks h3

theorem looks_atom {m : Mem} (a : Atom) : Looks m (.atom a) (.atom a) := ⟨[], owns_iff.mpr (Or.inl ⟨a, rfl, rfl, rfl⟩)⟩

theorem looks_atom_iff {m : Mem} {t : Val} {r : Ref} (h : Looks m t r) (a : Atom) : r = .atom a ↔ t = .atom a := by
  obtain ⟨ls, h⟩ := h
  rcases owns_iff.mp h with ⟨b, rfl, rfl, _⟩ | ⟨l, o, ls', rfl, h2, h3, _⟩
  · constructor
    · intro h; cases h; rfl
    · intro h; cases h; rfl
  · constructor
    · intro h; cases h
    · intro h; subst h; cases h3

theorem objLooks_alloc {m : Mem} {t : Val} {o : Obj} {ls : List Nat} (h : ObjLooks (alloc m o).1 t o ls) :
    Looks (alloc m o).1 t (alloc m o).2 := by
  refine ⟨m.length :: ls, owns_iff.mpr (Or.inr ⟨m.length, o, ls, rfl, ?_, h, rfl⟩)⟩
  simp [alloc]

theorem items_owns {m : Mem} {ts : List Val} {rs : List Ref} (h : Items m ts rs) : ∃ ls, OwnsL m ts rs ls :=
  ownsL_forall2.mpr h

theorem looks_lcoll {m : Mem} {ts : List Val} {rs : List Ref} (c : String) (h : Items m ts rs) :
    Looks (alloc m (.lcoll c rs)).1 (.lcoll c ts) (alloc m (.lcoll c rs)).2 := by
  obtain ⟨ls, h⟩ := items_owns (items_grown (grown_alloc m (.lcoll c rs)) h)
  exact objLooks_alloc (.lcoll h)

theorem looks_dcoll {m : Mem} {ts : List (Comp × Val)} {rs : List (Comp × Ref)} (c : String) (h : Ents m ts rs) :
    Looks (alloc m (.dcoll c rs)).1 (.dcoll c ts) (alloc m (.dcoll c rs)).2 := by
  have h1 := ents_iff.mp (ents_grown (grown_alloc m (.dcoll c rs)) h)
  obtain ⟨ls, h2⟩ := items_owns h1.2
  exact objLooks_alloc (.dcoll h1.1 h2)

theorem looks_dict {m : Mem} {ts : List (Comp × Val)} {rs : List (Comp × Ref)} (h : Ents m ts rs) :
    Looks (alloc m (.dict rs)).1 (.dict ts) (alloc m (.dict rs)).2 := by
  have h1 := ents_iff.mp (ents_grown (grown_alloc m (.dict rs)) h)
  obtain ⟨ls, h2⟩ := items_owns h1.2
  exact objLooks_alloc (.dict h1.1 h2)

theorem looks_rcd {m : Mem} {ts : List (String × Val)} {rs : List (String × Ref)} (c : String) (h : Ents m ts rs) :
    Looks (alloc m (.rcd c rs)).1 (.rcd c ts) (alloc m (.rcd c rs)).2 := by
  have h1 := ents_iff.mp (ents_grown (grown_alloc m (.rcd c rs)) h)
  obtain ⟨ls, h2⟩ := items_owns h1.2
  exact objLooks_alloc (.rcd h1.1 h2)

/-! ### A deep copy looks the same -/

theorem shift_get {m : Mem} {l : Nat} {o : Obj} (h : m[l]? = some o) :
    (m ++ m.map (shiftObj m.length))[m.length + l]? = some (shiftObj m.length o) := by
  rw [List.getElem?_append_right (Nat.le_add_right _ _), Nat.add_sub_cancel_left, List.getElem?_map, h]
  rfl

theorem shift_keys {κ : Type} (n : Nat) (rs : List (κ × Ref)) :
    (rs.map (fun e => (e.1, shiftRef n e.2))).map (·.1) = rs.map (·.1) := by
  rw [List.map_map]; rfl

theorem shift_vals {κ : Type} (n : Nat) (rs : List (κ × Ref)) :
    (rs.map (fun e => (e.1, shiftRef n e.2))).map (·.2) = (rs.map (·.2)).map (shiftRef n) := by
  rw [List.map_map, List.map_map]; rfl

theorem deepcopy_looks {m : Mem} (t : Val) : ∀ r, Looks m t r →
    Looks (m ++ m.map (shiftObj m.length)) t (shiftRef m.length r) := by
  induction t using val_ind with
  | h t ih =>
    rintro r ⟨ls, h⟩
    rcases owns_iff.mp h with ⟨a, rfl, rfl, _⟩ | ⟨l, o, ls', rfl, h2, h3, _⟩
    · exact looks_atom a
    · have hk : Items (m ++ m.map (shiftObj m.length)) (subs t) ((kids o).map (shiftRef m.length)) := by
        have h4 : Items m (subs t) (kids o) := ownsL_forall2.mp ⟨_, objLooks_kids h3⟩
        unfold Items at h4 ⊢
        rw [List.forall₂_map_right_iff]
        clear h h2 h3
        generalize subs t = ts at ih h4
        generalize kids o = rs at h4
        induction h4 with
        | nil => exact .nil
        | cons h1 h2 ih2 =>
          exact .cons (ih _ (by simp) _ h1) (ih2 (fun s hs => ih s (by simp [hs])))
      obtain ⟨ls2, h5⟩ := items_owns hk
      refine ⟨(m.length + l) :: ls2, owns_iff.mpr (Or.inr ⟨m.length + l, shiftObj m.length o, ls2, ?_, shift_get h2, ?_, rfl⟩)⟩
      · simp only [shiftRef, Nat.add_comm]
      · cases h3 with
        | list h => exact .list h5
        | lcoll h => exact .lcoll h5
        | dict hq h => exact .dict (by rw [shift_keys]; exact hq) (by rw [shift_vals]; exact h5)
        | dcoll hq h => exact .dcoll (by rw [shift_keys]; exact hq) (by rw [shift_vals]; exact h5)
        | rcd hq h => exact .rcd (by rw [shift_keys]; exact hq) (by rw [shift_vals]; exact h5)

theorem copyAll_same {ts : List (Comp × Val)} : ∀ {m : Mem} {rs : List (Comp × Ref)}, Ents m ts rs →
    Grown m (copyAll rs m).1 ∧ Ents (copyAll rs m).1 ts (copyAll rs m).2 := by
  induction ts with
  | nil =>
    intro m rs h
    cases h
    exact ⟨grown_refl m, .nil⟩
  | cons t ts ih =>
    intro m rs h
    cases h with
    | @cons _ b _ bs h1 h2 =>
      obtain ⟨k, b⟩ := b
      have hg := grown_copy (looks_exist h1.2)
      have h3 := ih (ents_grown hg h2)
      simp only [copyAll]
      exact ⟨grown_trans hg h3.1, .cons ⟨h1.1, looks_grown h3.1 (deepcopy_looks _ _ h1.2)⟩ h3.2⟩

end Normalize.JsonInMem
