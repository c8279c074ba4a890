import Verif.Lemmas.MemTree

/-! The operations on memory follow those on trees. -/

namespace Normalize.Mem

open Normalize.Spec

/-! ## Lists and dicts whose members are related -/

section Rel
variable {α β κ : Type} [DecidableEq κ] {R : α → β → Prop}

/-- The same keys, and related values. -/
def Pairs (R : α → β → Prop) (ts : List (κ × α)) (rs : List (κ × β)) : Prop :=
  List.Forall₂ (fun e f => f.1 = e.1 ∧ R e.2 f.2) ts rs

/-- Both absent, or both there and related. -/
def Opt (R : α → β → Prop) : Option α → Option β → Prop
  | some a, some b => R a b
  | none, none => True
  | _, _ => False

theorem pairs_iff {ts : List (κ × α)} {rs : List (κ × β)} :
    Pairs R ts rs ↔ rs.map (·.1) = ts.map (·.1) ∧ List.Forall₂ R (ts.map (·.2)) (rs.map (·.2)) := by
  constructor
  · intro h
    induction h with
    | nil => simp
    | cons h _ ih => exact ⟨by simp [h.1, ih.1], .cons h.2 ih.2⟩
  · rintro ⟨h1, h2⟩
    induction ts generalizing rs with
    | nil =>
      cases rs with
      | nil => exact .nil
      | cons r rs => simp at h1
    | cons t ts ih =>
      cases rs with
      | nil => simp at h1
      | cons r rs =>
        simp only [List.map_cons, List.cons.injEq] at h1
        cases h2 with
        | cons h3 h4 => exact .cons ⟨h1.1, h3⟩ (ih h1.2 h4)

theorem pairs_lookup {ts : List (κ × α)} {rs : List (κ × β)} (h : Pairs R ts rs) (k : κ) :
    Opt R (alookup ts k) (alookup rs k) := by
  induction h with
  | nil => simp [alookup, Opt]
  | @cons e f ts rs h _ ih =>
    obtain ⟨a, b⟩ := e
    obtain ⟨c, d⟩ := f
    obtain ⟨h1, h2⟩ := h
    simp only at h1; subst h1
    simp only [alookup]
    split
    · exact h2
    · exact ih

theorem pairs_aset {ts : List (κ × α)} {rs : List (κ × β)} (h : Pairs R ts rs) (k : κ) {a : α} {b : β} (hab : R a b) :
    Pairs R (aset ts k a) (aset rs k b) := by
  induction h with
  | nil => exact .cons ⟨rfl, hab⟩ .nil
  | @cons e f ts rs h hr ih =>
    obtain ⟨x, y⟩ := e
    obtain ⟨c, d⟩ := f
    obtain ⟨h1, h2⟩ := h
    simp only at h1; subst h1
    simp only [aset]
    split
    · exact .cons ⟨rfl, hab⟩ hr
    · exact .cons ⟨rfl, h2⟩ ih

theorem pairs_aerase {ts : List (κ × α)} {rs : List (κ × β)} (h : Pairs R ts rs) (k : κ) :
    Pairs R (aerase ts k) (aerase rs k) := by
  induction h with
  | nil => exact .nil
  | @cons e f ts rs h hr ih =>
    obtain ⟨x, y⟩ := e
    obtain ⟨c, d⟩ := f
    obtain ⟨h1, h2⟩ := h
    simp only at h1; subst h1
    simp only [aerase]
    split
    · exact ih
    · exact .cons ⟨rfl, h2⟩ ih

theorem forall2_get {ts : List α} {rs : List β} (h : List.Forall₂ R ts rs) (k : Nat) : Opt R ts[k]? rs[k]? := by
  induction h generalizing k with
  | nil => simp [Opt]
  | cons h _ ih =>
    cases k with
    | zero => exact h
    | succ k => exact ih k

theorem forall2_getIdx {ts : List α} {rs : List β} (h : List.Forall₂ R ts rs) (i : Int) :
    Opt R (getIdx ts i) (getIdx rs i) := by
  unfold getIdx
  rw [h.length_eq]
  cases pyIndex rs.length i with
  | none => trivial
  | some k => exact forall2_get h k

theorem forall2_set {ts : List α} {rs : List β} (h : List.Forall₂ R ts rs) (k : Nat) {a : α} {b : β} (hab : R a b) :
    List.Forall₂ R (ts.set k a) (rs.set k b) := by
  induction h generalizing k with
  | nil => exact .nil
  | cons h hr ih =>
    cases k with
    | zero => exact .cons hab hr
    | succ k => exact .cons h (ih k)

theorem forall2_setIdx {ts : List α} {rs : List β} (h : List.Forall₂ R ts rs) (i : Int) {a : α} {b : β} (hab : R a b) :
    List.Forall₂ R (setIdx ts i a) (setIdx rs i b) := by
  unfold setIdx
  rw [h.length_eq]
  cases pyIndex rs.length i with
  | none => exact h
  | some k => exact forall2_set h k hab

theorem forall2_eraseIdx {ts : List α} {rs : List β} (h : List.Forall₂ R ts rs) (k : Nat) :
    List.Forall₂ R (ts.eraseIdx k) (rs.eraseIdx k) := by
  induction h generalizing k with
  | nil => exact .nil
  | cons h hr ih =>
    cases k with
    | zero => exact hr
    | succ k => exact .cons h (ih k)

theorem forall2_imp_mem {S : α → β → Prop} {ts : List α} {rs : List β} (h : List.Forall₂ R ts rs)
    (hi : ∀ a b, b ∈ rs → R a b → S a b) : List.Forall₂ S ts rs := by
  induction h with
  | nil => exact .nil
  | cons h _ ih => exact .cons (hi _ _ (by simp) h) (ih (fun a b hb => hi a b (by simp [hb])))

end Rel

/-! ## One object -/

/-- What an object looks like, given a relation for its parts. -/
inductive ObjR (R : Val → Ref → Prop) : Val → Obj → Prop
  | atom {a} : ObjR R (.atom a) (.atom a)
  | list {ts rs} : List.Forall₂ R ts rs → ObjR R (.list ts) (.list rs)
  | lcoll {cls ts rs} : List.Forall₂ R ts rs → ObjR R (.lcoll cls ts) (.lcoll cls rs)
  | dict {ts rs} : Pairs R ts rs → ObjR R (.dict ts) (.dict rs)
  | dcoll {cls ts rs} : Pairs R ts rs → ObjR R (.dcoll cls ts) (.dcoll cls rs)
  | rcd {cls ts rs} : Pairs R ts rs → ObjR R (.rcd cls ts) (.rcd cls rs)

theorem objLooks_R {m : Mem} {t : Val} {o : Obj} {ls : List Nat} (h : ObjLooks m t o ls) : ObjR (Looks m) t o := by
  cases h with
  | list h => exact .list (ownsL_forall2.mp ⟨_, h⟩)
  | lcoll h => exact .lcoll (ownsL_forall2.mp ⟨_, h⟩)
  | dict hk h => exact .dict (pairs_iff.mpr ⟨hk, ownsL_forall2.mp ⟨_, h⟩⟩)
  | dcoll hk h => exact .dcoll (pairs_iff.mpr ⟨hk, ownsL_forall2.mp ⟨_, h⟩⟩)
  | rcd hk h => exact .rcd (pairs_iff.mpr ⟨hk, ownsL_forall2.mp ⟨_, h⟩⟩)

theorem looks_deref {m : Mem} {t : Val} {r : Ref} (h : Looks m t r) : ObjR (Looks m) t (deref m r) := by
  obtain ⟨ls, h⟩ := h
  rcases owns_iff.mp h with ⟨a, rfl, rfl, rfl⟩ | ⟨l, o, ls', rfl, h2, h3, rfl⟩
  · exact .atom
  · simp only [deref, h2, Option.getD_some]
    exact objLooks_R h3

theorem looks_atom (m : Mem) (a : Atom) : Looks m (.atom a) (.atom a) := ⟨[], by rw [Owns]; exact ⟨rfl, rfl⟩⟩

/-- An object in memory, not an atom. -/
theorem looks_ptr {m : Mem} {t : Val} {l : Nat} {o : Obj} (hm : m[l]? = some o) (ho : ObjR (Looks m) t o)
    (hn : ∀ a, o ≠ .atom a) : Looks m t (.ptr l) := by
  have key : ∃ ls, ObjLooks m t o ls := by
    cases ho with
    | atom => exact absurd rfl (hn _)
    | list h => obtain ⟨ls, h⟩ := ownsL_forall2.mpr h; exact ⟨ls, .list h⟩
    | lcoll h => obtain ⟨ls, h⟩ := ownsL_forall2.mpr h; exact ⟨ls, .lcoll h⟩
    | dict h => obtain ⟨hk, h⟩ := pairs_iff.mp h; obtain ⟨ls, h⟩ := ownsL_forall2.mpr h; exact ⟨ls, .dict hk h⟩
    | dcoll h => obtain ⟨hk, h⟩ := pairs_iff.mp h; obtain ⟨ls, h⟩ := ownsL_forall2.mpr h; exact ⟨ls, .dcoll hk h⟩
    | rcd h => obtain ⟨hk, h⟩ := pairs_iff.mp h; obtain ⟨ls, h⟩ := ownsL_forall2.mpr h; exact ⟨ls, .rcd hk h⟩
  obtain ⟨ls, hl⟩ := key
  exact ⟨l :: ls, owns_iff.mpr (Or.inr ⟨l, o, ls, rfl, hm, hl, rfl⟩)⟩

/-! ## Reading -/

/-- The same exception, or related values. -/
def AlikeR (R : Val → Ref → Prop) : Except Exc Val → Except Exc Ref → Prop
  | .error e, q => q = .error e
  | .ok t, q => ∃ r, q = .ok r ∧ R t r

theorem tryIndex_sim {R : Val → Ref → Prop} {t : Val} {o : Obj} (h : ObjR R t o) (c : Comp) :
    Normalize.tryIndex t c = tryIndex o c := by
  cases h with
  | atom => rename_i a; cases a <;> cases c <;> rfl
  | list h => cases c <;> rfl
  | lcoll h => cases c <;> rfl
  | dict h => cases c <;> rfl
  | dcoll h => cases c <;> rfl
  | rcd h => cases c <;> rfl

theorem getItem_sim {R : Val → Ref → Prop} {t : Val} {o : Obj} (h : ObjR R t o) (c : Comp) :
    AlikeR R (Normalize.getItem t c) (getItem o c) := by
  cases h with
  | atom => cases c <;> rfl
  | list h =>
    cases c with
    | none => rfl
    | str s => rfl
    | int i =>
      have hl := forall2_getIdx h i
      simp only [Normalize.getItem, getItem]
      revert hl
      cases getIdx _ i <;> cases getIdx _ i <;> intro hl
      · rfl
      · exact hl.elim
      · exact hl.elim
      · exact ⟨_, rfl, hl⟩
  | lcoll h =>
    cases c with
    | none => rfl
    | str s => rfl
    | int i =>
      have hl := forall2_getIdx h i
      simp only [Normalize.getItem, getItem]
      revert hl
      cases getIdx _ i <;> cases getIdx _ i <;> intro hl
      · rfl
      · exact hl.elim
      · exact hl.elim
      · exact ⟨_, rfl, hl⟩
  | dict h =>
    have hl := pairs_lookup h c
    simp only [Normalize.getItem, getItem]
    revert hl
    cases alookup _ c <;> cases alookup _ c <;> intro hl
    · rfl
    · exact hl.elim
    · exact hl.elim
    · exact ⟨_, rfl, hl⟩
  | dcoll h =>
    have hl := pairs_lookup h c
    simp only [Normalize.getItem, getItem]
    revert hl
    cases alookup _ c <;> cases alookup _ c <;> intro hl
    · rfl
    · exact hl.elim
    · exact hl.elim
    · exact ⟨_, rfl, hl⟩
  | rcd h => cases c <;> rfl

theorem unset_sim {E : Normalize.Env} {F : Env} (hF : Follows E F) (cls nm : String) :
    (E.attr cls nm).bind (·.unset) = (F.attr cls nm).bind (·.unset) := by
  have h := hF.attr cls nm
  cases he : E.attr cls nm with
  | none =>
    cases hf : F.attr cls nm with
    | none => rfl
    | some b => rw [he, hf] at h; cases h
  | some a =>
    cases hf : F.attr cls nm with
    | none => rw [he, hf] at h; cases h
    | some b => exact hF.unset cls nm a b he hf

theorem getAttr_sim {R : Val → Ref → Prop} (hR : ∀ a, R (.atom a) (.atom a)) {E : Normalize.Env} {F : Env}
    (hF : Follows E F) {t : Val} {o : Obj} (h : ObjR R t o) (c : Comp) :
    AlikeR R (Normalize.getAttr E t c) (getAttr F o c) := by
  cases h with
  | atom => cases c <;> rfl
  | list h => cases c <;> rfl
  | lcoll h => cases c <;> rfl
  | dict h => cases c <;> rfl
  | dcoll h => cases c <;> rfl
  | @rcd cls ts rs h =>
    cases c with
    | none => rfl
    | int i => rfl
    | str nm =>
      have hl := pairs_lookup h nm
      simp only [Normalize.getAttr, getAttr, unset_sim hF]
      cases ha : alookup ts nm with
      | none =>
        cases hb : alookup rs nm with
        | none =>
          simp only
          cases (F.attr cls nm).bind (·.unset) with
          | none => rfl
          | some v => exact ⟨_, rfl, hR v⟩
        | some b => rw [ha, hb] at hl; exact hl.elim
      | some a =>
        cases hb : alookup rs nm with
        | none => rw [ha, hb] at hl; exact hl.elim
        | some b => rw [ha, hb] at hl; exact ⟨b, rfl, hl⟩

theorem step_sim {R : Val → Ref → Prop} (hR : ∀ a, R (.atom a) (.atom a)) {E : Normalize.Env} {F : Env}
    (hF : Follows E F) {t : Val} {o : Obj} (h : ObjR R t o) (c : Comp) :
    AlikeR R (Normalize.step E t c) (step F o c) := by
  unfold Normalize.step step
  rw [tryIndex_sim h c]
  cases tryIndex o c with
  | true =>
    have hg := getItem_sim h c
    simp only [if_true]
    cases ht : Normalize.getItem t c with
    | ok v =>
      rw [ht] at hg
      obtain ⟨r, hr, hl⟩ := hg
      rw [hr]; exact ⟨r, rfl, hl⟩
    | error e =>
      rw [ht] at hg
      rw [show getItem o c = .error e from hg]
      cases e <;> rfl
  | false =>
    have hg := getAttr_sim hR hF h c
    simp only [Bool.false_eq_true, if_false]
    cases ht : Normalize.getAttr E t c with
    | ok v =>
      rw [ht] at hg
      obtain ⟨r, hr, hl⟩ := hg
      rw [hr]; exact ⟨r, rfl, hl⟩
    | error e =>
      rw [ht] at hg
      rw [show getAttr F o c = .error e from hg]
      cases e <;> rfl

theorem stepPut_sim {R : Val → Ref → Prop} (hR : ∀ a, R (.atom a) (.atom a)) {E : Normalize.Env} {F : Env}
    (hF : Follows E F) {t : Val} {o : Obj} (h : ObjR R t o) (c : Comp) :
    AlikeR R (Normalize.stepPut E t c) (stepPut F o c) := by
  unfold Normalize.stepPut stepPut
  rw [tryIndex_sim h c]
  cases tryIndex o c with
  | true =>
    have hg := getItem_sim h c
    simp only [if_true]
    cases ht : Normalize.getItem t c with
    | ok v =>
      rw [ht] at hg
      obtain ⟨r, hr, hl⟩ := hg
      rw [hr]; exact ⟨r, rfl, hl⟩
    | error e =>
      rw [ht] at hg
      rw [show getItem o c = .error e from hg]
      rfl
  | false =>
    have hg := getAttr_sim hR hF h c
    simp only [Bool.false_eq_true, if_false]
    cases ht : Normalize.getAttr E t c with
    | ok v =>
      rw [ht] at hg
      obtain ⟨r, hr, hl⟩ := hg
      rw [hr]; exact ⟨r, rfl, hl⟩
    | error e =>
      rw [ht] at hg
      rw [show getAttr F o c = .error e from hg]
      rfl

/-- The same exception, or related lists. -/
def AlikeL (R : Val → Ref → Prop) : Except Exc (List Val) → Except Exc (List Ref) → Prop
  | .error e, q => q = .error e
  | .ok t, q => ∃ r, q = .ok r ∧ List.Forall₂ R t r

theorem forall2_map {α : Type} {R : Val → Ref → Prop} (xs : List α) (f : α → Val) (g : α → Ref)
    (h : ∀ x, R (f x) (g x)) : List.Forall₂ R (xs.map f) (xs.map g) := by
  induction xs with
  | nil => exact .nil
  | cons x xs ih => exact .cons (h x) ih

theorem iter_sim {R : Val → Ref → Prop} (hR : ∀ a, R (.atom a) (.atom a)) {t : Val} {o : Obj} (h : ObjR R t o) :
    AlikeL R (iterVal t) (iterObj o) := by
  have hk : ∀ {ts : List (Comp × Val)} {rs : List (Comp × Ref)}, Pairs R ts rs →
      List.Forall₂ R (ts.map (fun x => Normalize.ofComp x.1)) (rs.map (fun x => ofComp x.1)) := by
    intro ts rs h
    induction h with
    | nil => exact .nil
    | @cons e f ts rs h _ ih =>
      refine .cons ?_ ih
      show R (Normalize.ofComp e.1) (ofComp f.1)
      rw [h.1]
      cases e.1 with
      | none => exact hR _
      | int i => exact hR _
      | str s => exact hR _
  cases h with
  | @atom a =>
    cases a with
    | str s => exact ⟨_, rfl, forall2_map _ _ _ (fun c => hR _)⟩
    | none => rfl
    | bool b => rfl
    | int i => rfl
    | opq n => rfl
  | list h => exact ⟨_, rfl, h⟩
  | lcoll h => exact ⟨_, rfl, h⟩
  | dict h => exact ⟨_, rfl, hk h⟩
  | dcoll h => exact ⟨_, rfl, hk h⟩
  | rcd h => rfl

theorem alloc_looks {m : Mem} {t : Val} {o : Obj} (ho : ObjR (Looks m) t o) (hn : ∀ a, o ≠ .atom a) :
    Looks (alloc m o).1 t (alloc m o).2 := by
  have hon : OnlyNew m (alloc m o).1 := fun l hl => by simp [alloc, List.getElem?_append_left hl]
  have hL : ∀ t r, Looks m t r → Looks (alloc m o).1 t r := fun t r h => looks_onlyNew h hon
  refine looks_ptr (o := o) (by simp [alloc]) ?_ hn
  cases ho with
  | atom => exact .atom
  | list h => exact .list (h.imp hL)
  | lcoll h => exact .lcoll (h.imp hL)
  | dict h => exact .dict (h.imp (fun a b h => ⟨h.1, hL _ _ h.2⟩))
  | dcoll h => exact .dcoll (h.imp (fun a b h => ⟨h.1, hL _ _ h.2⟩))
  | rcd h => exact .rcd (h.imp (fun a b h => ⟨h.1, hL _ _ h.2⟩))

/-- `get` follows the tree. -/
def ReadSim (f : Val → Except Exc Val) (g : Ref → Mem → Except Exc (Mem × Ref)) : Prop :=
  ∀ t x m, Looks m t x → Alike (f t) (g x m)

theorem wildGet_sim {f : Val → Except Exc Val} {g : Ref → Mem → Except Exc (Mem × Ref)} (hf : ReadSim f g)
    (hg : Yields g) : ∀ (ts : List Val) (xs : List Ref) (s : AllExc) (tv : List Val) (rv : List Ref) (m : Mem),
      List.Forall₂ (Looks m) ts xs → List.Forall₂ (Looks m) tv rv →
      Alike (Normalize.wildGet (ts.map f) s tv) (wildGet g xs s rv m) := by
  intro ts
  induction ts with
  | nil =>
    intro xs s tv rv m h hv
    cases h
    have : Looks (alloc m (.list rv)).1 (.list tv) (alloc m (.list rv)).2 :=
      alloc_looks (.list hv) (fun a h => nomatch h)
    cases s with
    | exc e => rfl
    | start => exact ⟨_, _, rfl, this⟩
    | good => exact ⟨_, _, rfl, this⟩
  | cons t ts ih =>
    intro xs s tv rv m h hv
    cases h with
    | @cons _ x _ xs hx hxs =>
    have h1 := hf t x m hx
    simp only [List.map_cons]
    cases hft : f t with
    | ok v =>
      rw [hft] at h1
      obtain ⟨m', r, hr, hl⟩ := h1
      obtain ⟨G, hs, _⟩ := hg x m m' r _ (reg_part (looks_exist hx)) (in_part x) hr
      have hon : OnlyNew m m' := fun l hl => hs.frame l hl (fun h => h)
      simp only [Normalize.wildGet, wildGet, hr]
      exact ih xs _ _ _ m' (hxs.imp (fun _ _ h => looks_onlyNew h hon))
        (List.rel_append (hv.imp (fun _ _ h => looks_onlyNew h hon)) (.cons hl .nil))
    | error e =>
      rw [hft] at h1
      simp only [Normalize.wildGet, wildGet, show g x m = .error e from h1]
      split
      · exact ih xs _ _ _ m hxs (List.rel_append hv (.cons (looks_atom m .none) .nil))
      · rfl

theorem get_sim {E : Normalize.Env} {F : Env} (hF : Follows E F) (p : FS) : ReadSim (Normalize.get E p) (get F p) := by
  induction p with
  | nil => intro t x m h; exact ⟨m, x, rfl, h⟩
  | cons c p ih =>
    intro t x m h
    have hd := looks_deref h
    cases c with
    | none =>
      have hi := iter_sim (looks_atom m) hd
      simp only [Normalize.get, get]
      cases ht : iterVal t with
      | error e => rw [ht] at hi; rw [show iterObj (deref m x) = .error e from hi]; rfl
      | ok ts =>
        rw [ht] at hi
        obtain ⟨rs, hr, hl⟩ := hi
        rw [hr]
        exact wildGet_sim ih (get_steps F p) ts rs .start [] [] m hl .nil
    | int i =>
      have hi := step_sim (looks_atom m) hF hd (.int i)
      simp only [Normalize.get, get]
      cases ht : Normalize.step E t (.int i) with
      | error e => rw [ht] at hi; rw [show step F (deref m x) (.int i) = .error e from hi]; rfl
      | ok ts =>
        rw [ht] at hi
        obtain ⟨rs, hr, hl⟩ := hi
        rw [hr]
        exact ih ts rs m hl
    | str i =>
      have hi := step_sim (looks_atom m) hF hd (.str i)
      simp only [Normalize.get, get]
      cases ht : Normalize.step E t (.str i) with
      | error e => rw [ht] at hi; rw [show step F (deref m x) (.str i) = .error e from hi]; rfl
      | ok ts =>
        rw [ht] at hi
        obtain ⟨rs, hr, hl⟩ := hi
        rw [hr]
        exact ih ts rs m hl

end Normalize.Mem
