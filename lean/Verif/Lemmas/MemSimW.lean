import Verif.Lemmas.MemSim

/-! Writes to memory follow writes to trees, as long as nothing is shared. -/

namespace Normalize.Mem

open Normalize.Spec

/-! ## Changing one object -/

/-- The object looks like the tree and does not contain the one at `l`. -/
def Good (m : Mem) (l : Nat) (t : Val) (k : Ref) : Prop := Looks m t k ∧ ¬ PartOf m k l

theorem good_atom (m : Mem) (l : Nat) (a : Atom) : Good m l (.atom a) (.atom a) :=
  ⟨looks_atom m a, fun h => nomatch h⟩

theorem Good.mono {m m' : Mem} {l : Nat} (hon : OnlyNew m m') {t : Val} {k : Ref} (h : Good m l t k) : Good m' l t k :=
  ⟨looks_onlyNew h.1 hon, fun hp => h.2 ((part_onlyNew hon (looks_exist h.1)).mp hp)⟩

theorem ObjR.imp {R S : Val → Ref → Prop} (hi : ∀ t r, R t r → S t r) {t : Val} {o : Obj} (h : ObjR R t o) :
    ObjR S t o := by
  cases h with
  | atom => exact .atom
  | list h => exact .list (h.imp hi)
  | lcoll h => exact .lcoll (h.imp hi)
  | dict h => exact .dict (h.imp (fun a b h => ⟨h.1, hi _ _ h.2⟩))
  | dcoll h => exact .dcoll (h.imp (fun a b h => ⟨h.1, hi _ _ h.2⟩))
  | rcd h => exact .rcd (h.imp (fun a b h => ⟨h.1, hi _ _ h.2⟩))

theorem ObjR.imp_mem {R S : Val → Ref → Prop} {t : Val} {o : Obj} (h : ObjR R t o)
    (hi : ∀ t r, r ∈ kids o → R t r → S t r) : ObjR S t o := by
  cases h with
  | atom => exact .atom
  | list h => exact .list (forall2_imp_mem h hi)
  | lcoll h => exact .lcoll (forall2_imp_mem h hi)
  | dict h =>
    exact .dict (forall2_imp_mem h (fun a b hb h => ⟨h.1, hi _ _ (List.mem_map_of_mem (f := (·.2)) hb) h.2⟩))
  | dcoll h =>
    exact .dcoll (forall2_imp_mem h (fun a b hb h => ⟨h.1, hi _ _ (List.mem_map_of_mem (f := (·.2)) hb) h.2⟩))
  | rcd h =>
    exact .rcd (forall2_imp_mem h (fun a b hb h => ⟨h.1, hi _ _ (List.mem_map_of_mem (f := (·.2)) hb) h.2⟩))

/-- What is stored is what is seen. -/
theorem store_looks {m : Mem} {l : Nat} (hl : l < m.length) {t : Val} {o : Obj} (h : ObjR (Good m l) t o)
    (hn : ∀ a, o ≠ .atom a) : Looks (store m (.ptr l) o) t (.ptr l) := by
  refine looks_ptr (o := o) (by simp [store, hl]) (h.imp (fun t r hg => ?_)) hn
  refine looks_intact hg.1 (fun l' hp => ?_)
  have : l ≠ l' := fun e => hg.2 (e ▸ hp)
  simp [store, List.getElem?_set_ne this]

/-- The parts of an object that shares nothing do not contain it. -/
theorem kids_good {m : Mem} {t : Val} {l : Nat} {ls : List Nat} (h : Owns m t (.ptr l) ls) (hn : ls.Nodup) :
    l < m.length ∧ ObjR (Good m l) t (deref m (.ptr l)) := by
  refine ⟨owns_lt t _ ls h l ((owns_part t _ ls h l).mp .self), ?_⟩
  refine (looks_deref ⟨ls, h⟩).imp_mem (fun t' r hr hL => ⟨hL, fun hp => ?_⟩)
  rcases owns_iff.mp h with ⟨a, _, h2, _⟩ | ⟨l0, o, ls', e, h2, h3, rfl⟩
  · cases h2
  · cases e
    simp only [deref, h2, Option.getD_some] at hr
    obtain ⟨t1, _, l1, ho, hsub⟩ := (ownsL_mem (objLooks_kids h3)).1 r hr
    exact (List.nodup_cons.mp hn).1 (hsub l ((owns_part t1 r l1 ho l).mp hp))

/-- The same outcome; nothing changed, and the result does not contain the object at `l`. -/
def AlikeG (m : Mem) (l : Nat) : Except Exc Val → Except Exc (Mem × Ref) → Prop
  | .error e, q => q = .error e
  | .ok t, q => ∃ m' r, q = .ok (m', r) ∧ m.length ≤ m'.length ∧ OnlyNew m m' ∧ Good m' l t r

theorem coerce_good {E : Normalize.Env} {F : Env} (hF : Follows E F) (hP : Polite F) {m : Mem} {l : Nat}
    (hl : l < m.length) {t : Val} {v : Ref} (h : Good m l t v) (cls : String) :
    AlikeG m l (E.coerceItem cls t) (F.coerceItem cls m v) := by
  have ha := hF.coerceItem cls m t v h.1
  cases ht : E.coerceItem cls t with
  | error e => rw [ht] at ha; exact ha
  | ok t' =>
    rw [ht] at ha
    obtain ⟨m', r, hr, hL⟩ := ha
    obtain ⟨h1, h2, h3⟩ := hP.coerceItem cls m v m' r (looks_exist h.1) hr
    refine ⟨m', r, hr, h1, h2, hL, fun hp => ?_⟩
    rcases h3 r (by simp) l hp with h4 | ⟨a, ha, h4⟩
    · omega
    · simp only [List.mem_singleton] at ha; subst ha; exact h.2 h4

theorem mapM_good {E : Normalize.Env} {F : Env} (hF : Follows E F) (hP : Polite F) {l : Nat} (cls : String) :
    ∀ (ts : List Val) (rs : List Ref) (m : Mem), l < m.length → List.Forall₂ (Good m l) ts rs →
      match mapE (E.coerceItem cls) ts with
      | .error e => mapM (F.coerceItem cls) rs m = .error e
      | .ok ts' => ∃ m' rs', mapM (F.coerceItem cls) rs m = .ok (m', rs') ∧ m.length ≤ m'.length ∧ OnlyNew m m' ∧
          List.Forall₂ (Good m' l) ts' rs' := by
  intro ts
  induction ts with
  | nil =>
    intro rs m _ h
    cases h
    exact ⟨m, [], rfl, Nat.le_refl _, fun _ _ => rfl, .nil⟩
  | cons t ts ih =>
    intro rs m hl h
    cases h with
    | @cons _ r _ rs h hs =>
    have hc := coerce_good hF hP hl h cls
    simp only [mapE, mapM]
    cases ht : E.coerceItem cls t with
    | error e => rw [ht] at hc; rw [show F.coerceItem cls m r = .error e from hc]
    | ok t' =>
      rw [ht] at hc
      obtain ⟨m', r', hr, h1, h2, hg⟩ := hc
      have := ih rs m' (by omega) (hs.imp (fun _ _ h => h.mono h2))
      rw [hr]
      simp only
      cases hts : mapE (E.coerceItem cls) ts with
      | error e => rw [hts] at this; simp only at this; rw [this]
      | ok ts' =>
        rw [hts] at this
        obtain ⟨m'', rs', hrs, h3, h4, hgs⟩ := this
        rw [hrs]
        exact ⟨m'', _, rfl, by omega, fun i hi => by rw [h4 i (by omega), h2 i hi], .cons (hg.mono h4) hgs⟩

/-- The same outcome, and the object looks like the tree afterwards. -/
def Sh (r : Ref) (te : Normalize.Eff Unit) (me : Eff Unit) : Prop := me.1 = te.1 ∧ Looks me.2 te.2 r

theorem pyIndex_len {ts : List Val} {rs : List Ref} {R : Val → Ref → Prop} (h : List.Forall₂ R ts rs) (i : Int) :
    pyIndex ts.length i = pyIndex rs.length i := by rw [h.length_eq]

theorem setItem_sim {E : Normalize.Env} {F : Env} (hF : Follows E F) (hP : Polite F) {m : Mem} {l : Nat}
    (hl : l < m.length) {t tv : Val} {v : Ref} (hL : Looks m t (.ptr l)) (h : ObjR (Good m l) t (deref m (.ptr l)))
    (hv : Good m l tv v) (c : Comp) : Sh (.ptr l) (Normalize.setItem E t c tv) (setItem F (.ptr l) c v m) := by
  have hst : ∀ {m' : Mem} {t' : Val} {o : Obj}, m.length ≤ m'.length → ObjR (Good m' l) t' o → (∀ a, o ≠ .atom a) →
      Looks (store m' (.ptr l) o) t' (.ptr l) := fun hm h1 h2 => store_looks (by omega) h1 h2
  unfold setItem
  revert h
  cases hd : deref m (.ptr l) with
  | atom a => intro h; cases h; cases c <;> exact ⟨rfl, hL⟩
  | rcd cls sl => intro h; cases h; cases c <;> exact ⟨rfl, hL⟩
  | list rs =>
    intro h
    cases h with
    | @list ts _ h =>
    cases c with
    | none => exact ⟨rfl, hL⟩
    | str s => exact ⟨rfl, hL⟩
    | int i =>
      simp only [Normalize.setItem, pyIndex_len h]
      cases pyIndex rs.length i with
      | none => exact ⟨rfl, hL⟩
      | some k => exact ⟨rfl, hst (Nat.le_refl _) (.list (forall2_setIdx h i hv)) (fun a h => nomatch h)⟩
  | dict rs =>
    intro h
    cases h with
    | @dict ts _ h =>
    exact ⟨rfl, hst (Nat.le_refl _) (.dict (pairs_aset h c hv)) (fun a h => nomatch h)⟩
  | lcoll cls rs =>
    intro h
    cases h with
    | @lcoll _ ts _ h =>
    have hc := coerce_good hF hP hl hv cls
    cases ht : E.coerceItem cls tv with
    | error e =>
      rw [ht] at hc
      cases c <;> simp only [Normalize.setItem, ht, show F.coerceItem cls m v = .error e from hc] <;> exact ⟨rfl, hL⟩
    | ok t' =>
      rw [ht] at hc
      obtain ⟨m', r', hr, h1, h2, hg⟩ := hc
      cases c with
      | none => simp only [Normalize.setItem, ht, hr]; exact ⟨rfl, hL⟩
      | str s => simp only [Normalize.setItem, ht, hr]; exact ⟨rfl, hL⟩
      | int i =>
        simp only [Normalize.setItem, ht, hr, pyIndex_len h]
        cases pyIndex rs.length i with
        | none => exact ⟨rfl, hL⟩
        | some k =>
          exact ⟨rfl, hst h1 (.lcoll (forall2_setIdx (h.imp (fun _ _ h => h.mono h2)) i hg)) (fun a h => nomatch h)⟩
  | dcoll cls rs =>
    intro h
    cases h with
    | @dcoll _ ts _ h =>
    have hc := coerce_good hF hP hl hv cls
    cases ht : E.coerceItem cls tv with
    | error e =>
      rw [ht] at hc
      simp only [Normalize.setItem, ht, show F.coerceItem cls m v = .error e from hc]; exact ⟨rfl, hL⟩
    | ok t' =>
      rw [ht] at hc
      obtain ⟨m', r', hr, h1, h2, hg⟩ := hc
      simp only [Normalize.setItem, ht, hr]
      exact ⟨rfl, hst h1 (.dcoll (pairs_aset (h.imp (fun _ _ h => ⟨h.1, h.2.mono h2⟩)) c hg)) (fun a h => nomatch h)⟩

theorem attr_cases {E : Normalize.Env} {F : Env} (hF : Follows E F) (cls nm : String) :
    (E.attr cls nm = none ∧ F.attr cls nm = none) ∨ ∃ a b, E.attr cls nm = some a ∧ F.attr cls nm = some b := by
  have h := hF.attr cls nm
  cases he : E.attr cls nm with
  | none =>
    cases hf : F.attr cls nm with
    | none => exact Or.inl ⟨rfl, rfl⟩
    | some b => rw [he, hf] at h; cases h
  | some a =>
    cases hf : F.attr cls nm with
    | none => rw [he, hf] at h; cases h
    | some b => exact Or.inr ⟨a, b, rfl, rfl⟩

theorem opt_looksO {m : Mem} {l : Nat} {a : Option Val} {b : Option Ref} (h : Opt (Good m l) a b) : LooksO m a b := by
  cases a <;> cases b
  · trivial
  · exact h.elim
  · exact h.elim
  · exact h.1

theorem setAttr_sim {E : Normalize.Env} {F : Env} (hF : Follows E F) (hP : Polite F) {m : Mem} {l : Nat}
    (hl : l < m.length) {t tv : Val} {v : Ref} (hL : Looks m t (.ptr l)) (h : ObjR (Good m l) t (deref m (.ptr l)))
    (hv : Good m l tv v) (c : Comp) : Sh (.ptr l) (Normalize.setAttr E t c tv) (setAttr F (.ptr l) c v m) := by
  have hst : ∀ {m' : Mem} {t' : Val} {o : Obj}, m.length ≤ m'.length → ObjR (Good m' l) t' o → (∀ a, o ≠ .atom a) →
      Looks (store m' (.ptr l) o) t' (.ptr l) := fun hm h1 h2 => store_looks (by omega) h1 h2
  unfold setAttr
  revert h
  cases hd : deref m (.ptr l) with
  | atom a => intro h; cases h; cases c <;> exact ⟨rfl, hL⟩
  | list rs => intro h; cases h; cases c <;> exact ⟨rfl, hL⟩
  | dict rs => intro h; cases h; cases c <;> exact ⟨rfl, hL⟩
  | lcoll cls rs => intro h; cases h; cases c <;> exact ⟨rfl, hL⟩
  | dcoll cls rs => intro h; cases h; cases c <;> exact ⟨rfl, hL⟩
  | rcd cls rs =>
    intro h
    cases h with
    | @rcd _ ts _ h =>
    cases c with
    | none => exact ⟨rfl, hL⟩
    | int i => exact ⟨rfl, hL⟩
    | str nm =>
      simp only [Normalize.setAttr]
      rcases attr_cases hF cls nm with ⟨he, hf⟩ | ⟨a, b, he, hf⟩
      · rw [he, hf]
        exact ⟨rfl, hst (Nat.le_refl _) (.rcd (pairs_aset h nm hv)) (fun a h => nomatch h)⟩
      · rw [he, hf]
        have hlk := pairs_lookup h nm
        have ha := hF.assign cls nm a b he hf m _ _ tv v (opt_looksO hlk) hv.1
        simp only
        cases hs : a.assign (alookup ts nm) tv with
        | error e =>
          rw [hs] at ha
          rw [show b.assign m (alookup rs nm) v = .error e from ha]
          exact ⟨rfl, hL⟩
        | ok s =>
          rw [hs] at ha
          obtain ⟨m', s', hr, hLO⟩ := ha
          have hb : ∀ r ∈ alookup rs nm, Exist m r ∧ ¬ PartOf m r l := by
            intro r hr
            rw [Option.mem_def.mp hr] at hlk
            cases hat : alookup ts nm with
            | none => rw [hat] at hlk; exact hlk.elim
            | some a => rw [hat] at hlk; exact ⟨looks_exist hlk.1, hlk.2⟩
          obtain ⟨h1, h2, h3⟩ := hP.assign cls nm b m _ v m' s' hf (fun r hr => (hb r hr).1) (looks_exist hv.1) hr
          rw [hr]
          have hold : Pairs (Good m' l) ts rs := h.imp (fun _ _ h => ⟨h.1, h.2.mono h2⟩)
          refine ⟨rfl, hst h1 (.rcd ?_) (fun a h => nomatch h)⟩
          cases s with
          | none =>
            cases s' with
            | none => exact pairs_aerase hold nm
            | some r => exact hLO.elim
          | some s =>
            cases s' with
            | none => exact hLO.elim
            | some r =>
              refine pairs_aset hold nm ⟨hLO, fun hp => ?_⟩
              rcases h3 r (by simp) l hp with h4 | ⟨a, ha, h4⟩
              · omega
              · rcases List.mem_cons.mp ha with rfl | ha
                · exact hv.2 h4
                · exact (hb a (by simpa using ha)).2 h4

theorem setAll_sim {E : Normalize.Env} {F : Env} (hF : Follows E F) (hP : Polite F) {m : Mem} {l : Nat}
    (hl : l < m.length) {t tv : Val} {v : Ref} (hL : Looks m t (.ptr l)) (h : ObjR (Good m l) t (deref m (.ptr l)))
    (hv : Good m l tv v) : Sh (.ptr l) (Normalize.setAll E t tv) (setAll F (.ptr l) v m) := by
  have hst : ∀ {m' : Mem} {t' : Val} {o : Obj}, m.length ≤ m'.length → ObjR (Good m' l) t' o → (∀ a, o ≠ .atom a) →
      Looks (store m' (.ptr l) o) t' (.ptr l) := fun hm h1 h2 => store_looks (by omega) h1 h2
  have hvo : ObjR (Good m l) tv (deref m v) := by
    refine (looks_deref hv.1).imp_mem (fun t' r hr hL => ⟨hL, fun hp => hv.2 ?_⟩)
    cases v with
    | atom a => cases hr
    | ptr lv =>
      have hlt : lv < m.length := looks_exist hv.1 lv .self
      have he : m[lv]? = some (deref m (.ptr lv)) := by simp [deref, hlt]
      exact .kid he hr hp
  have hit := iter_sim (good_atom m l) hvo
  unfold setAll
  revert h
  cases hd : deref m (.ptr l) with
  | atom a => intro h; cases h; exact ⟨rfl, hL⟩
  | dict rs => intro h; cases h; exact ⟨rfl, hL⟩
  | rcd cls rs => intro h; cases h; exact ⟨rfl, hL⟩
  | list rs =>
    intro h
    cases h with
    | @list ts _ h =>
    simp only [Normalize.setAll]
    cases hi : iterVal tv with
    | error e => rw [hi] at hit; rw [show iterObj (deref m v) = .error e from hit]; exact ⟨rfl, hL⟩
    | ok ts' =>
      rw [hi] at hit
      obtain ⟨rs', hr, hg⟩ := hit
      rw [hr]
      exact ⟨rfl, hst (Nat.le_refl _) (.list hg) (fun a h => nomatch h)⟩
  | lcoll cls rs =>
    intro h
    cases h with
    | @lcoll _ ts _ h =>
    simp only [Normalize.setAll]
    cases hi : iterVal tv with
    | error e => rw [hi] at hit; rw [show iterObj (deref m v) = .error e from hit]; exact ⟨rfl, hL⟩
    | ok ts' =>
      rw [hi] at hit
      obtain ⟨rs', hr, hg⟩ := hit
      rw [hr]
      have hm := mapM_good hF hP cls ts' rs' m hl hg
      simp only
      cases hts : mapE (E.coerceItem cls) ts' with
      | error e => rw [hts] at hm; simp only at hm; rw [hm]; exact ⟨rfl, hL⟩
      | ok ts'' =>
        rw [hts] at hm
        obtain ⟨m', rs'', hrs, h1, h2, hgs⟩ := hm
        rw [hrs]
        exact ⟨rfl, hst h1 (.lcoll hgs) (fun a h => nomatch h)⟩
  | dcoll cls rs =>
    intro h
    cases h with
    | @dcoll _ ts _ h =>
    have hc := coerce_good hF hP hl hv cls
    simp only [Normalize.setAll]
    cases ht : E.coerceItem cls tv with
    | error e => rw [ht] at hc; rw [show F.coerceItem cls m v = .error e from hc]; exact ⟨rfl, hL⟩
    | ok t' =>
      rw [ht] at hc
      obtain ⟨m', r', hr, _, _, _⟩ := hc
      rw [hr]; exact ⟨rfl, hL⟩

theorem put1_sim {E : Normalize.Env} {F : Env} (hF : Follows E F) (hP : Polite F) {m : Mem} {l : Nat}
    (hl : l < m.length) {t tv : Val} {v : Ref} (hL : Looks m t (.ptr l)) (h : ObjR (Good m l) t (deref m (.ptr l)))
    (hv : Good m l tv v) (c : Comp) : Sh (.ptr l) (Normalize.put1 E c tv t) (put1 F c v (.ptr l) m) := by
  have key : ∀ c, c ≠ .none → Sh (.ptr l) (Normalize.put1 E c tv t) (put1 F c v (.ptr l) m) := by
    intro c hc
    have e1 : Normalize.put1 E c tv t = if Normalize.tryIndex t c then
      match Normalize.setItem E t c tv with
      | (.error e, x') => (.error (if e.isLookup then .fsException else e), x')
      | r => r
    else
      match Normalize.setAttr E t c tv with
      | (.error e, x') => (.error (if e.isAttribute then .fsException else e), x')
      | r => r := by
      cases c with
      | none => exact absurd rfl hc
      | int i => rfl
      | str s => rfl
    have e2 : put1 F c v (.ptr l) m = if tryIndex (deref m (.ptr l)) c then
      match setItem F (.ptr l) c v m with
      | (.error e, m') => (.error (if e.isLookup then .fsException else e), m')
      | q => q
    else
      match setAttr F (.ptr l) c v m with
      | (.error e, m') => (.error (if e.isAttribute then .fsException else e), m')
      | q => q := by
      cases c with
      | none => exact absurd rfl hc
      | int i => rfl
      | str s => rfl
    rw [e1, e2, tryIndex_sim h c]
    cases tryIndex (deref m (.ptr l)) c with
    | true =>
      have := setItem_sim hF hP hl hL h hv c
      simp only [if_true]
      revert this
      cases Normalize.setItem E t c tv with
      | mk a b =>
        cases setItem F (.ptr l) c v m with
        | mk a' b' =>
          rintro ⟨h1, h2⟩
          simp only at h1 h2
          subst h1
          cases a' <;> exact ⟨rfl, h2⟩
    | false =>
      have := setAttr_sim hF hP hl hL h hv c
      simp only [Bool.false_eq_true, if_false]
      revert this
      cases Normalize.setAttr E t c tv with
      | mk a b =>
        cases setAttr F (.ptr l) c v m with
        | mk a' b' =>
          rintro ⟨h1, h2⟩
          simp only at h1 h2
          subst h1
          cases a' <;> exact ⟨rfl, h2⟩
  cases c with
  | none => exact setAll_sim hF hP hl hL h hv
  | int i => exact key _ (fun h => nomatch h)
  | str s => exact key _ (fun h => nomatch h)

theorem delItem_sim {m : Mem} {l : Nat}
    (hl : l < m.length) {t : Val} (hL : Looks m t (.ptr l)) (h : ObjR (Good m l) t (deref m (.ptr l)))
    (c : Comp) : Sh (.ptr l) (Normalize.delItem t c) (delItem (.ptr l) c m) := by
  have hst : ∀ {t' : Val} {o : Obj}, ObjR (Good m l) t' o → (∀ a, o ≠ .atom a) →
      Looks (store m (.ptr l) o) t' (.ptr l) := fun h1 h2 => store_looks hl h1 h2
  have hsome : ∀ {ts : List (Comp × Val)} {rs : List (Comp × Ref)}, Pairs (Good m l) ts rs →
      (alookup ts c).isSome = (alookup rs c).isSome := by
    intro ts rs h
    have := pairs_lookup h c
    revert this
    cases alookup ts c <;> cases alookup rs c <;> intro h
    · rfl
    · exact h.elim
    · exact h.elim
    · rfl
  unfold delItem
  revert h
  cases hd : deref m (.ptr l) with
  | atom a => intro h; cases h; cases c <;> exact ⟨rfl, hL⟩
  | rcd cls sl => intro h; cases h; cases c <;> exact ⟨rfl, hL⟩
  | list rs =>
    intro h
    cases h with
    | @list ts _ h =>
    cases c with
    | none => exact ⟨rfl, hL⟩
    | str s => exact ⟨rfl, hL⟩
    | int i =>
      simp only [Normalize.delItem, pyIndex_len h]
      cases pyIndex rs.length i with
      | none => exact ⟨rfl, hL⟩
      | some k => exact ⟨rfl, hst (.list (forall2_eraseIdx h k)) (fun a h => nomatch h)⟩
  | lcoll cls rs =>
    intro h
    cases h with
    | @lcoll _ ts _ h =>
    cases c with
    | none => exact ⟨rfl, hL⟩
    | str s => exact ⟨rfl, hL⟩
    | int i =>
      simp only [Normalize.delItem, pyIndex_len h]
      cases pyIndex rs.length i with
      | none => exact ⟨rfl, hL⟩
      | some k => exact ⟨rfl, hst (.lcoll (forall2_eraseIdx h k)) (fun a h => nomatch h)⟩
  | dict rs =>
    intro h
    cases h with
    | @dict ts _ h =>
    simp only [Normalize.delItem, hsome h]
    cases (alookup rs c).isSome with
    | true => exact ⟨rfl, hst (.dict (pairs_aerase h c)) (fun a h => nomatch h)⟩
    | false => exact ⟨rfl, hL⟩
  | dcoll cls rs =>
    intro h
    cases h with
    | @dcoll _ ts _ h =>
    simp only [Normalize.delItem, hsome h]
    cases (alookup rs c).isSome with
    | true => exact ⟨rfl, hst (.dcoll (pairs_aerase h c)) (fun a h => nomatch h)⟩
    | false => exact ⟨rfl, hL⟩

theorem delAttr_sim {E : Normalize.Env} {F : Env} (hF : Follows E F) {m : Mem} {l : Nat}
    (hl : l < m.length) {t : Val} (hL : Looks m t (.ptr l)) (h : ObjR (Good m l) t (deref m (.ptr l)))
    (nm : String) : Sh (.ptr l) (Normalize.delAttr E t nm) (delAttr F (.ptr l) nm m) := by
  unfold delAttr
  revert h
  cases hd : deref m (.ptr l) with
  | atom a => intro h; cases h; exact ⟨rfl, hL⟩
  | list rs => intro h; cases h; exact ⟨rfl, hL⟩
  | dict rs => intro h; cases h; exact ⟨rfl, hL⟩
  | lcoll cls rs => intro h; cases h; exact ⟨rfl, hL⟩
  | dcoll cls rs => intro h; cases h; exact ⟨rfl, hL⟩
  | rcd cls rs =>
    intro h
    cases h with
    | @rcd _ ts _ h =>
    have hs : Looks (store m (.ptr l) (.rcd cls (aerase rs nm))) (.rcd cls (aerase ts nm)) (.ptr l) :=
      store_looks hl (.rcd (pairs_aerase h nm)) (fun a h => nomatch h)
    simp only [Normalize.delAttr]
    rcases attr_cases hF cls nm with ⟨he, hf⟩ | ⟨a, b, he, hf⟩
    · rw [he, hf]; exact ⟨rfl, hs⟩
    · rw [he, hf]
      simp only [hF.remove cls nm a b he hf m _ _ (opt_looksO (pairs_lookup h nm))]
      cases b.remove m (alookup rs nm) with
      | error e => exact ⟨rfl, hL⟩
      | ok u => exact ⟨rfl, hs⟩

theorem delete1_sim {E : Normalize.Env} {F : Env} (hF : Follows E F) {m : Mem} {l : Nat}
    (hl : l < m.length) {t : Val} (hL : Looks m t (.ptr l)) (h : ObjR (Good m l) t (deref m (.ptr l)))
    (c : Comp) : Sh (.ptr l) (Normalize.delete1 E c t) (delete1 F c (.ptr l) m) := by
  unfold Normalize.delete1 delete1
  rw [tryIndex_sim h c]
  cases ht : tryIndex (deref m (.ptr l)) c with
  | true =>
    simp only [if_true]
    cases c with
    | int i => exact delItem_sim hl hL h _
    | str s => exact delItem_sim hl hL h _
    | none =>
      revert h ht
      cases hd : deref m (.ptr l) with
      | atom a => intro h ht; cases a <;> cases ht
      | rcd cls rs => intro h ht; cases ht
      | list rs => intro h ht; cases h; exact ⟨rfl, store_looks hl (.list .nil) (fun a h => nomatch h)⟩
      | lcoll cls rs => intro h ht; cases h; exact ⟨rfl, store_looks hl (.lcoll .nil) (fun a h => nomatch h)⟩
      | dict rs => intro h ht; cases h; exact ⟨rfl, store_looks hl (.dict .nil) (fun a h => nomatch h)⟩
      | dcoll cls rs => intro h ht; cases h; exact ⟨rfl, store_looks hl (.dcoll .nil) (fun a h => nomatch h)⟩
  | false =>
    simp only [Bool.false_eq_true, if_false]
    cases c with
    | none => exact ⟨rfl, hL⟩
    | int i => exact ⟨rfl, hL⟩
    | str nm =>
      have hg := getAttr_sim (good_atom m l) hF h (.str nm)
      simp only
      cases hgt : Normalize.getAttr E t (.str nm) with
      | ok v =>
        rw [hgt] at hg
        obtain ⟨r, hr, _⟩ := hg
        rw [hr]
        exact delAttr_sim hF hl hL h nm
      | error e =>
        rw [hgt] at hg
        rw [show getAttr F (deref m (.ptr l)) (.str nm) = .error e from hg]
        cases e <;> exact ⟨rfl, hL⟩

end Normalize.Mem
