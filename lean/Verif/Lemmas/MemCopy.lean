import Verif.Lemmas.MemOps

/-! What filtering makes. -/

namespace Normalize.Mem

open Normalize.Spec

/-- Nothing that existed was changed, and all of these are new. -/
def Fresh (m m' : Mem) (res : List Ref) : Prop :=
  m.length ≤ m'.length ∧ OnlyNew m m' ∧ ∀ r ∈ res, AllNew m m' r

theorem OnlyNew.trans {m m1 m2 : Mem} (h : OnlyNew m m1) (hl : m.length ≤ m1.length) (h' : OnlyNew m1 m2) :
    OnlyNew m m2 := fun l hlt => by rw [h' l (Nat.lt_of_lt_of_le hlt hl), h l hlt]

theorem allNew_exist {m m' : Mem} {r : Ref} (h : AllNew m m' r) : Exist m' r := fun l hl => (h l hl).2

theorem allNew_later {m m1 m2 : Mem} {r : Ref} (h : AllNew m m1 r) (hl : m1.length ≤ m2.length)
    (hn : OnlyNew m1 m2) : AllNew m m2 r := by
  intro l hp
  have := h l ((part_onlyNew hn (allNew_exist h)).mp hp)
  omega

theorem allNew_earlier {m m1 m2 : Mem} {r : Ref} (h : AllNew m1 m2 r) (hl : m.length ≤ m1.length) : AllNew m m2 r := by
  intro l hp
  have := h l hp
  omega

theorem fresh_nil (m : Mem) : Fresh m m [] := ⟨Nat.le_refl _, fun _ _ => rfl, fun _ h => nomatch h⟩

theorem Fresh.trans {m m1 m2 : Mem} {rs ss : List Ref} (h1 : Fresh m m1 rs) (h2 : Fresh m1 m2 ss) :
    Fresh m m2 (rs ++ ss) := by
  refine ⟨Nat.le_trans h1.1 h2.1, OnlyNew.trans h1.2.1 h1.1 h2.2.1, ?_⟩
  intro r hr
  rcases List.mem_append.mp hr with hr | hr
  · exact allNew_later (h1.2.2 r hr) h2.1 h2.2.1
  · exact allNew_earlier (h2.2.2 r hr) h1.1

theorem Fresh.sub {m m' : Mem} {rs ss : List Ref} (h : Fresh m m' rs) (hs : ∀ r ∈ ss, r ∈ rs) : Fresh m m' ss :=
  ⟨h.1, h.2.1, fun r hr => h.2.2 r (hs r hr)⟩

/-- What is made from new things is new. -/
theorem Fresh.makes {m m1 m2 : Mem} {rs ss : List Ref} (h1 : Fresh m m1 rs) (h2 : Makes m1 rs m2 ss) :
    Fresh m m2 ss := by
  refine ⟨Nat.le_trans h1.1 h2.1, OnlyNew.trans h1.2.1 h1.1 h2.2.1, ?_⟩
  intro r hr l hp
  have hl1 := h1.1
  have hl2 := h2.1
  rcases h2.2.2 r hr l hp with h | ⟨a, ha, hp'⟩
  · omega
  · have := h1.2.2 a ha l hp'
    omega

theorem makes_alloc {m : Mem} {o : Obj} (h : ∀ k ∈ kids o, Exist m k) :
    Makes m (kids o) (alloc m o).1 [(alloc m o).2] := by
  refine steps_makes h ?_
  intro A hA hk
  obtain ⟨G, hs, hr⟩ := alloc_steps hA hk
  exact ⟨G, hs, by simpa using hr⟩

theorem Fresh.alloc {m m' : Mem} {rs : List Ref} {o : Obj} (h : Fresh m m' rs) (ho : ∀ k ∈ kids o, k ∈ rs) :
    Fresh m (alloc m' o).1 [(alloc m' o).2] := by
  have h' := h.sub ho
  exact h'.makes (makes_alloc (fun k hk => allNew_exist (h'.2.2 k hk)))

theorem makes_mapM {E : Env} (hE : Polite E) {cls : String} {xs ys : List Ref} {m m' : Mem}
    (hx : ∀ x ∈ xs, Exist m x) (h : mapM (E.coerceItem cls) xs m = .ok (m', ys)) : Makes m xs m' ys :=
  steps_makes hx (fun A hA hk => mapM_steps hE xs m m' ys A hA hk h)

theorem fresh_deepcopy {m : Mem} {r : Ref} (h : Exist m r) :
    Fresh m (deepcopy m r).1 [(deepcopy m r).2] := by
  obtain ⟨h1, h2, h3⟩ := deepcopy_new h
  refine ⟨h1, h2, ?_⟩
  intro x hx l hp
  rw [List.mem_singleton.mp hx] at hp
  exact ⟨(h3 l hp).1, (h3 l hp).2.1⟩

/-- A computation whose result is new. -/
def Gives (f : Ref → Mem → Except Exc (Mem × Ref)) : Prop :=
  ∀ x m m' r, Exist m x → f x m = .ok (m', r) → Fresh m m' [r]

theorem collect_fresh {α : Type} {f : α → Mem → Except Exc (Mem × Ref)} {P : Mem → α → Prop}
    (hP : ∀ m m' a, m.length ≤ m'.length → OnlyNew m m' → P m a → P m' a)
    (xs : List α) : ∀ (m m' : Mem) (ys : List Ref),
    (∀ a ∈ xs, ∀ m1 m2 r, P m1 a → f a m1 = .ok (m2, r) → Fresh m1 m2 [r]) → (∀ a ∈ xs, P m a) →
    collect f xs m = .ok (m', ys) → Fresh m m' ys := by
  induction xs with
  | nil =>
    intro m m' ys _ _ h
    cases h
    exact fresh_nil m
  | cons x xs ih =>
    intro m m' ys hf hx h
    simp only [collect] at h
    split at h
    · cases h
    · rename_i m1 y hy
      split at h
      · cases h
      · rename_i hzs
        cases h
        have h1 := hf x (by simp) m m1 y (hx x (by simp)) hy
        have h2 := ih m1 _ _ (fun a ha => hf a (by simp [ha]))
          (fun a ha => hP m m1 a h1.1 h1.2.1 (hx a (by simp [ha]))) hzs
        exact h1.trans h2

theorem exist_kid {m : Mem} {x k : Ref} (hx : Exist m x) (hk : k ∈ kids (deref m x)) : Exist m k :=
  (reg_part hx).exist (deref_kids (reg_part hx) (in_part x) k hk)

theorem exist_getItem {m : Mem} {o : Obj} {c : Comp} {y : Ref} (ho : ∀ k ∈ kids o, Exist m k)
    (h : getItem o c = .ok y) : Exist m y := by
  cases y with
  | atom a => intro l hl; cases hl
  | ptr l =>
    have : Ref.ptr l ∈ kids o := getItem_in (A := fun l => Ref.ptr l ∈ kids o) h
      (fun k hk => by cases k with
        | atom a => trivial
        | ptr l => exact hk)
    exact ho _ this

theorem exist_getAttr {E : Env} {m : Mem} {o : Obj} {c : Comp} {y : Ref} (ho : ∀ k ∈ kids o, Exist m k)
    (h : getAttr E o c = .ok y) : Exist m y := by
  cases y with
  | atom a => intro l hl; cases hl
  | ptr l =>
    have : Ref.ptr l ∈ kids o := getAttr_in (A := fun l => Ref.ptr l ∈ kids o) h
      (fun k hk => by cases k with
        | atom a => trivial
        | ptr l => exact hk)
    exact ho _ this

theorem getPart_fresh {o : Obj} {g : Comp × (Ref → Mem → Except Exc (Mem × Ref))} {m m' : Mem} {r : Ref}
    (hg : Gives g.2) (ho : ∀ k ∈ kids o, Exist m k) (h : getPart o g m = .ok (m', r)) : Fresh m m' [r] := by
  unfold getPart at h
  split at h
  · cases h
  · rename_i y hy
    exact hg y m m' r (exist_getItem ho hy) h

theorem thenCoerce_fresh {E : Env} (hE : Polite E) {cls : String} {m m' : Mem} {r : Ref}
    {q : Except Exc (Mem × Ref)} (hq : ∀ m1 r1, q = .ok (m1, r1) → Fresh m m1 [r1])
    (h : thenCoerce E cls q = .ok (m', r)) : Fresh m m' [r] := by
  unfold thenCoerce at h
  split at h
  · cases h
  · rename_i m1 v
    have h1 := hq m1 v rfl
    exact h1.makes (hE.coerceItem cls m1 v m' r (allNew_exist (h1.2.2 v (by simp))) h)

theorem listVals_fresh {gs : Getters} {o : Obj} {xs : List Ref} {m m' : Mem} {ys : List Ref}
    (hgs : ∀ g ∈ gs, Gives g.2) (ho : ∀ k ∈ kids o, Exist m k) (hx : ∀ k ∈ xs, k ∈ kids o)
    (h : listVals gs o xs m = .ok (m', ys)) : Fresh m m' ys := by
  unfold listVals at h
  split at h
  · rename_i g hg
    have hgv : Gives g := by
      obtain ⟨e, he, rfl⟩ := List.mem_map.mp (alookup_mem_vals hg)
      exact hgs e he
    exact collect_fresh (P := fun m a => Exist m a) (fun m m' a hl hn h => exist_onlyNew hn hl h) xs m m' ys
      (fun a _ m1 m2 r hP h => hgv a m1 m2 r hP h) (fun a ha => ho a (hx a ha)) h
  · exact collect_fresh (P := fun m _ => ∀ k ∈ kids o, Exist m k)
      (fun m m' a hl hn h k hk => exist_onlyNew hn hl (h k hk)) _ m m' ys
      (fun g hg m1 m2 r hP h => getPart_fresh (hgs g ((List.mem_insertionSort _).mp hg)) hP h) (fun _ _ => ho) h

theorem mem_zip_snd {α β : Type} {as : List α} {bs : List β} {b : β} (h : b ∈ (as.zip bs).map (·.2)) : b ∈ bs := by
  obtain ⟨e, he, rfl⟩ := List.mem_map.mp h
  exact (List.of_mem_zip he).2

theorem dictVals_fresh {gs : Getters} {o : Obj} {xs : List (Comp × Ref)} {m m' : Mem} {ys : List (Comp × Ref)}
    {post : Except Exc (Mem × Ref) → Except Exc (Mem × Ref)}
    (hpost : ∀ m m' r q, (∀ m1 r1, q = .ok (m1, r1) → Fresh m m1 [r1]) → post q = .ok (m', r) → Fresh m m' [r])
    (hgs : ∀ g ∈ gs, Gives g.2) (ho : ∀ k ∈ kids o, Exist m k) (hx : ∀ e ∈ xs, e.2 ∈ kids o)
    (h : dictVals gs o xs post m = .ok (m', ys)) : Fresh m m' (ys.map (·.2)) := by
  unfold dictVals at h
  split at h
  · rename_i g hg
    have hgv : Gives g := by
      obtain ⟨e, he, rfl⟩ := List.mem_map.mp (alookup_mem_vals hg)
      exact hgs e he
    split at h
    · cases h
    · rename_i m1 vs hvs
      cases h
      have := collect_fresh (P := fun m (a : Comp × Ref) => Exist m a.2)
        (fun m m' (a : Comp × Ref) hl hn (h : Exist m a.2) => exist_onlyNew hn hl h) xs m _ vs
        (fun a _ m1 m2 r hP h => hpost m1 m2 r _ (fun m3 r1 h1 => hgv a.2 m1 m3 r1 hP h1) h)
        (fun a ha => ho _ (hx a ha)) hvs
      exact this.sub (fun r hr => mem_zip_snd hr)
  · split at h
    · cases h
    · rename_i m1 vs hvs
      cases h
      have := collect_fresh (P := fun m _ => ∀ k ∈ kids o, Exist m k)
        (fun m m' a hl hn h k hk => exist_onlyNew hn hl (h k hk)) _ m _ vs
        (fun g hg m1 m2 r hP h => hpost m1 m2 r _
          (fun m3 r1 h1 => getPart_fresh (hgs g (List.mem_filter.mp hg).1) hP h1) h) (fun _ _ => ho) hvs
      exact this.sub (fun r hr => mem_zip_snd hr)

theorem kwVals_fresh {E : Env} {o : Obj} (gs : Getters) : ∀ (m m' : Mem) (kw : List (String × Ref)),
    (∀ g ∈ gs, Gives g.2) → (∀ k ∈ kids o, Exist m k) → kwVals E o gs m = .ok (m', kw) →
    Fresh m m' (kw.map (·.2)) := by
  induction gs with
  | nil =>
    intro m m' kw _ _ h
    cases h
    exact fresh_nil m
  | cons g gs ih =>
    intro m m' kw hgs ho h
    obtain ⟨c, g⟩ := g
    cases c with
    | none => cases h
    | int i => cases h
    | str nm =>
      simp only [kwVals] at h
      split at h
      · exact ih m m' kw (fun g hg => hgs g (by simp [hg])) ho h
      · cases h
      · rename_i v hv
        split at h
        · exact ih m m' kw (fun g hg => hgs g (by simp [hg])) ho h
        · split at h
          · cases h
          · rename_i m1 v1 hv1
            split at h
            · cases h
            · rename_i hr
              cases h
              have h1 := hgs (.str nm, g) (by simp) v m m1 v1 (exist_getAttr ho hv) hv1
              have h2 := ih m1 _ _ (fun g hg => hgs g (by simp [hg]))
                (fun k hk => exist_onlyNew h1.2.1 h1.1 (ho k hk)) hr
              exact h1.trans h2

theorem construct_fresh {E : Env} (hE : Polite E) {o : Obj} {m m1 m' : Mem} {kw : List (String × Ref)} {r : Ref}
    (hk : Fresh m m1 (kw.map (·.2))) (h : construct E o kw m1 = .ok (m', r)) : Fresh m m' [r] := by
  unfold construct at h
  split at h
  · exact hk.makes (hE.rcd _ m1 kw m' r
      (fun e he => allNew_exist (hk.2.2 e.2 (List.mem_map.mpr ⟨e, he, rfl⟩))) h)
  · split at h
    · cases h
    · cases h
      refine ⟨hk.1, hk.2.1, ?_⟩
      intro x hx l hp
      rw [List.mem_singleton.mp hx] at hp
      cases hp
  · cases h

theorem getWith_fresh {E : Env} (hE : Polite E) {h : Heads} {gs : Getters} (hgs : ∀ g ∈ gs, Gives g.2) :
    Gives (getWith E h gs) := by
  intro x m m' r hx hr
  have ho : ∀ k ∈ kids (deref m x), Exist m k := fun k hk => exist_kid hx hk
  unfold getWith at hr
  split at hr
  · rename_i xs hd
    rw [hd] at ho
    split at hr
    · cases hr
    · split at hr
      · cases hr
      · rename_i m1 vs hvs
        injection hr with hr
        have := (listVals_fresh hgs ho (fun _ h => h) hvs).alloc (o := .list vs) (fun _ h => h)
        rw [hr] at this; exact this
  · rename_i cls xs hd
    rw [hd] at ho
    split at hr
    · cases hr
    · split at hr
      · cases hr
      · rename_i m1 vs hvs
        split at hr
        · cases hr
        · rename_i m2 vs' hvs'
          injection hr with hr
          have h1 := listVals_fresh hgs ho (fun _ h => h) hvs
          have := (h1.makes (makes_mapM hE (fun x hx => allNew_exist (h1.2.2 x hx)) hvs')).alloc
            (o := .lcoll cls vs') (fun _ h => h)
          rw [hr] at this; exact this
  · rename_i xs hd
    rw [hd] at ho
    split at hr
    · cases hr
    · rename_i m1 vs hvs
      injection hr with hr
      have := (dictVals_fresh (post := id) (fun m m' r q hq h => hq m' r h) hgs ho
        (fun e he => List.mem_map.mpr ⟨e, he, rfl⟩) hvs).alloc (o := .dict vs) (fun _ h => h)
      rw [hr] at this; exact this
  · rename_i cls xs hd
    rw [hd] at ho
    split at hr
    · cases hr
    · rename_i m1 vs hvs
      injection hr with hr
      have := (dictVals_fresh (post := thenCoerce E cls) (fun m m' r q hq h => thenCoerce_fresh hE hq h) hgs ho
        (fun e he => List.mem_map.mpr ⟨e, he, rfl⟩) hvs).alloc (o := .dcoll cls vs) (fun _ h => h)
      rw [hr] at this; exact this
  · split at hr
    · cases hr
    · split at hr
      · injection hr with hr
        have := fresh_deepcopy hx
        rw [hr] at this; exact this
      · split at hr
        · cases hr
        · rename_i m1 kw hkw
          exact construct_fresh hE (kwVals_fresh gs m m1 kw hgs ho hkw) hr

mutual
theorem getT_fresh {E : Env} (hE : Polite E) : ∀ t : MTree, Gives (getT E t)
  | .all => by
    intro x m m' r hx h
    rw [getT] at h
    injection h with h
    have := fresh_deepcopy hx
    rw [h] at this; exact this
  | .node hs => by
    intro x m m' r hx h
    rw [getT] at h
    exact getWith_fresh hE (getters_fresh hE hs) x m m' r hx h
theorem getters_fresh {E : Env} (hE : Polite E) : ∀ es : List (Comp × MTree), ∀ g ∈ getters E es, Gives g.2
  | [] => by intro g hg; rw [getters] at hg; cases hg
  | (c, t) :: es => by
    intro g hg
    rw [getters] at hg
    rcases List.mem_cons.mp hg with rfl | hg
    · exact getT_fresh hE t
    · exact getters_fresh hE es g hg
end

theorem mget_fresh {E : Env} (hE : Polite E) (h : Heads) : Gives (mget E h) :=
  getWith_fresh hE (getters_fresh hE h)

end Normalize.Mem
