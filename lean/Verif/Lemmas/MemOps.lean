import Verif.Lemmas.Mem

/-! What the operations do to memory. -/

namespace Normalize.Mem

open Normalize.Spec

theorem mem_setIdx {α : Type} {xs : List α} {i : Int} {v k : α} (h : k ∈ setIdx xs i v) : k ∈ xs ∨ k = v := by
  unfold setIdx at h
  split at h
  · exact List.mem_or_eq_of_mem_set h
  · exact Or.inl h

theorem mem_aset {κ α : Type} [DecidableEq κ] {d : List (κ × α)} {c : κ} {v k : α}
    (h : k ∈ (aset d c v).map (·.2)) : k ∈ d.map (·.2) ∨ k = v := by
  induction d with
  | nil => simp [aset] at h; exact Or.inr h
  | cons e d ih =>
    obtain ⟨a, b⟩ := e
    simp only [aset] at h
    split at h
    · simp only [List.map_cons, List.mem_cons] at h ⊢
      rcases h with h | h
      · exact Or.inr h
      · exact Or.inl (Or.inr h)
    · simp only [List.map_cons, List.mem_cons] at h ⊢
      rcases h with h | h
      · exact Or.inl (Or.inl h)
      · rcases ih h with h | h
        · exact Or.inl (Or.inr h)
        · exact Or.inr h

theorem mem_aerase {κ α : Type} [DecidableEq κ] {d : List (κ × α)} {c : κ} {k : α}
    (h : k ∈ (aerase d c).map (·.2)) : k ∈ d.map (·.2) := by
  induction d with
  | nil => simp [aerase] at h
  | cons e d ih =>
    obtain ⟨a, b⟩ := e
    simp only [aerase] at h
    split at h
    · simp only [List.map_cons, List.mem_cons]; exact Or.inr (ih h)
    · simp only [List.map_cons, List.mem_cons] at h ⊢
      rcases h with h | h
      · exact Or.inl h
      · exact Or.inr (ih h)

theorem mem_setSlot {d : List (String × Ref)} {c : String} {s : Option Ref} {k : Ref}
    (h : k ∈ (setSlot d c s).map (·.2)) : k ∈ d.map (·.2) ∨ s = some k := by
  cases s with
  | none => exact Or.inl (mem_aerase h)
  | some v => exact (mem_aset h).imp_right (fun e => by rw [e])

theorem alookup_mem_vals {κ α : Type} [DecidableEq κ] {d : List (κ × α)} {c : κ} {v : α} (h : alookup d c = some v) :
    v ∈ d.map (·.2) := by
  induction d with
  | nil => simp [alookup] at h
  | cons e d ih =>
    obtain ⟨a, b⟩ := e
    simp only [alookup] at h
    split at h
    · injection h with h; subst h; simp
    · simp only [List.map_cons, List.mem_cons]; exact Or.inr (ih h)

theorem getIdx_mem {α : Type} {xs : List α} {i : Int} {v : α} (h : getIdx xs i = some v) : v ∈ xs := by
  unfold getIdx at h
  cases hk : pyIndex xs.length i with
  | none => rw [hk] at h; cases h
  | some k => rw [hk] at h; exact List.mem_of_getElem? h

/-! ## Reading -/

theorem getItem_in {A : Nat → Prop} {o : Obj} {c : Comp} {y : Ref} (h : getItem o c = .ok y)
    (ho : ∀ k ∈ kids o, In A k) : In A y := by
  unfold getItem at h
  split at h
  · split at h
    · rename_i hv; cases h; exact ho _ (getIdx_mem hv)
    · cases h
  · split at h
    · rename_i hv; cases h; exact ho _ (getIdx_mem hv)
    · cases h
  · split at h
    · rename_i hv; cases h; exact ho _ (alookup_mem_vals hv)
    · cases h
  · split at h
    · rename_i hv; cases h; exact ho _ (alookup_mem_vals hv)
    · cases h
  · cases h

theorem getAttr_in {E : Env} {A : Nat → Prop} {o : Obj} {c : Comp} {y : Ref} (h : getAttr E o c = .ok y)
    (ho : ∀ k ∈ kids o, In A k) : In A y := by
  unfold getAttr at h
  split at h
  · split at h
    · rename_i hv; cases h; exact ho _ (alookup_mem_vals hv)
    · split at h
      · cases h; trivial
      · cases h
  · cases h
  · cases h

theorem step_cases {E : Env} {o : Obj} {c : Comp} {y : Ref} (h : step E o c = .ok y) :
    getItem o c = .ok y ∨ getAttr E o c = .ok y := by
  unfold step at h
  split at h
  · split at h
    · rename_i hv; cases h; exact Or.inl hv
    · cases h
    · cases h
  · split at h
    · rename_i hv; cases h; exact Or.inr hv
    · cases h
    · cases h

theorem step_in {E : Env} {A : Nat → Prop} {o : Obj} {c : Comp} {y : Ref} (h : step E o c = .ok y)
    (ho : ∀ k ∈ kids o, In A k) : In A y :=
  (step_cases h).elim (fun h => getItem_in h ho) (fun h => getAttr_in h ho)

theorem step_iff_stepPut {E : Env} {o : Obj} {c : Comp} {y : Ref} :
    step E o c = .ok y ↔ stepPut E o c = .ok y := by
  unfold step stepPut
  split
  · cases getItem o c with
    | ok v => simp
    | error e => cases e <;> simp
  · cases getAttr E o c with
    | ok v => simp
    | error e => cases e <;> simp

theorem in_ofComp {A : Nat → Prop} (c : Comp) : In A (ofComp c) := by cases c <;> trivial

theorem iterObj_in {A : Nat → Prop} {o : Obj} {items : List Ref} (h : iterObj o = .ok items)
    (ho : ∀ k ∈ kids o, In A k) : ∀ x ∈ items, In A x := by
  unfold iterObj at h
  split at h <;> try cases h
  · exact ho
  · exact ho
  · intro x hx
    obtain ⟨e, _, rfl⟩ := List.mem_map.mp hx
    exact in_ofComp _
  · intro x hx
    obtain ⟨e, _, rfl⟩ := List.mem_map.mp hx
    exact in_ofComp _
  · intro x hx
    obtain ⟨e, _, rfl⟩ := List.mem_map.mp hx
    trivial

/-- What a computation does that makes one value. -/
def Yields (f : Ref → Mem → Except Exc (Mem × Ref)) : Prop :=
  ∀ x m m' r A, Reg m A → In A x → f x m = .ok (m', r) → ∃ G, Steps (fun _ => False) A m m' G ∧ In G r

theorem wildGet_steps {f : Ref → Mem → Except Exc (Mem × Ref)} (hf : Yields f) :
    ∀ (xs : List Ref) (s : AllExc) (rv : List Ref) (m m' : Mem) (r : Ref) (A : Nat → Prop), Reg m A →
      (∀ x ∈ xs, In A x) → (∀ x ∈ rv, In A x) → wildGet f xs s rv m = .ok (m', r) →
      ∃ G, Steps (fun _ => False) A m m' G ∧ In G r := by
  intro xs
  induction xs with
  | nil =>
    intro s rv m m' r A hA _ hrv h
    cases s with
    | exc e => cases h
    | start =>
      simp only [wildGet, Except.ok.injEq] at h
      obtain ⟨G, hs, hr⟩ := alloc_steps hA (o := .list rv) hrv
      rw [h] at hs hr; exact ⟨G, hs, hr⟩
    | good =>
      simp only [wildGet, Except.ok.injEq] at h
      obtain ⟨G, hs, hr⟩ := alloc_steps hA (o := .list rv) hrv
      rw [h] at hs hr; exact ⟨G, hs, hr⟩
  | cons x xs ih =>
    intro s rv m m' r A hA hxs hrv h
    simp only [wildGet] at h
    split at h
    · rename_i m1 v hv
      obtain ⟨G1, hs1, hv1⟩ := hf x m m1 v A hA (hxs x (by simp)) hv
      obtain ⟨G, hs, hr⟩ := ih _ _ m1 m' r G1 hs1.reg (fun y hy => (hxs y (by simp [hy])).mono hs1.sub)
        (fun y hy => by
          rcases List.mem_append.mp hy with hy | hy
          · exact (hrv y hy).mono hs1.sub
          · rw [List.mem_singleton.mp hy]; exact hv1) h
      exact ⟨G, hs1.trans hs (fun _ h _ => h), hr⟩
    · split at h
      · exact ih _ _ m m' r A hA (fun y hy => hxs y (by simp [hy]))
          (fun y hy => by
            rcases List.mem_append.mp hy with hy | hy
            · exact hrv y hy
            · rw [List.mem_singleton.mp hy]; trivial) h
      · cases h

theorem get_steps (E : Env) (p : FS) : Yields (get E p) := by
  induction p with
  | nil =>
    intro x m m' r A hA hx h
    cases h
    exact ⟨A, Steps.refl hA, hx⟩
  | cons c p ih =>
    intro x m m' r A hA hx h
    cases c with
    | none =>
      simp only [get] at h
      split at h
      · cases h
      · rename_i items hi
        exact wildGet_steps ih items _ _ m m' r A hA (iterObj_in hi (deref_kids hA hx)) (by simp) h
    | int i =>
      simp only [get] at h
      split at h
      · cases h
      · rename_i y hy
        exact ih y m m' r A hA (step_in hy (deref_kids hA hx)) h
    | str i =>
      simp only [get] at h
      split at h
      · cases h
      · rename_i y hy
        exact ih y m m' r A hA (step_in hy (deref_kids hA hx)) h

/-! ## Writing -/

theorem coerce_steps {E : Env} (hE : Polite E) {cls : String} {m m' : Mem} {v v' : Ref} {A : Nat → Prop}
    (hA : Reg m A) (hv : In A v) (h : E.coerceItem cls m v = .ok (m', v')) :
    ∃ G, Steps (fun _ => False) A m m' G ∧ In G v' := by
  obtain ⟨G, hs, hr⟩ := makes_steps hA (by simpa using hv) (hE.coerceItem cls m v m' v' (hA.exist hv) h)
  exact ⟨G, hs, hr v' (by simp)⟩

theorem assign_steps {E : Env} (hE : Polite E) {cls nm : String} {a : Attr} {m m' : Mem} {s s' : Option Ref} {v : Ref}
    {A : Nat → Prop} (hA : Reg m A) (ha : E.attr cls nm = some a) (hs : ∀ r ∈ s, In A r) (hv : In A v)
    (h : a.assign m s v = .ok (m', s')) :
    ∃ G, Steps (fun _ => False) A m m' G ∧ ∀ r ∈ s', In G r := by
  obtain ⟨G, hst, hr⟩ := makes_steps hA (args := v :: s.toList)
    (by
      intro x hx
      rcases List.mem_cons.mp hx with rfl | hx
      · exact hv
      · exact hs x (by simpa using hx))
    (hE.assign cls nm a m s v m' s' ha (fun r hr => hA.exist (hs r hr)) (hA.exist hv) h)
  exact ⟨G, hst, fun r hr' => hr r (by simpa using hr')⟩

theorem makeItem_steps {E : Env} (hE : Polite E) {cls : String} {m m' : Mem} {kw : Option (String × Ref)} {v' : Ref}
    {A : Nat → Prop} (hA : Reg m A) (hk : ∀ e ∈ kw, In A e.2) (h : E.makeItem cls m kw = .ok (m', v')) :
    ∃ G, Steps (fun _ => False) A m m' G ∧ In G v' := by
  obtain ⟨G, hst, hr⟩ := makes_steps hA (args := kw.toList.map (·.2))
    (by
      intro x hx
      obtain ⟨e, he, rfl⟩ := List.mem_map.mp hx
      exact hk e (by simpa using he))
    (hE.makeItem cls m kw m' v' (fun e he => hA.exist (hk e he)) h)
  exact ⟨G, hst, hr v' (by simp)⟩

theorem make_steps {E : Env} (hE : Polite E) {cls nm : String} {a : Attr}
    {f : Mem → Option (String × Ref) → Except Exc (Mem × Ref)} {m m' : Mem} {kw : Option (String × Ref)} {v' : Ref}
    {A : Nat → Prop} (hA : Reg m A) (ha : E.attr cls nm = some a) (hf : a.make = some f) (hk : ∀ e ∈ kw, In A e.2)
    (h : f m kw = .ok (m', v')) :
    ∃ G, Steps (fun _ => False) A m m' G ∧ In G v' := by
  obtain ⟨G, hst, hr⟩ := makes_steps hA (args := kw.toList.map (·.2))
    (by
      intro x hx
      obtain ⟨e, he, rfl⟩ := List.mem_map.mp hx
      exact hk e (by simpa using he))
    (hE.make cls nm a f m kw m' v' ha hf (fun e he => hA.exist (hk e he)) h)
  exact ⟨G, hst, hr v' (by simp)⟩

theorem mapM_steps {E : Env} (hE : Polite E) {cls : String} :
    ∀ (xs : List Ref) (m m' : Mem) (ys : List Ref) (A : Nat → Prop), Reg m A → (∀ x ∈ xs, In A x) →
      mapM (E.coerceItem cls) xs m = .ok (m', ys) → ∃ G, Steps (fun _ => False) A m m' G ∧ ∀ y ∈ ys, In G y := by
  intro xs
  induction xs with
  | nil =>
    intro m m' ys A hA _ h
    cases h
    exact ⟨A, Steps.refl hA, by simp⟩
  | cons x xs ih =>
    intro m m' ys A hA hxs h
    simp only [mapM] at h
    split at h
    · cases h
    · rename_i m1 y hy
      split at h
      · cases h
      · rename_i m2 zs hzs
        cases h
        obtain ⟨G1, hs1, hy1⟩ := coerce_steps hE hA (hxs x (by simp)) hy
        obtain ⟨G, hs, hr⟩ := ih m1 _ _ G1 hs1.reg (fun z hz => (hxs z (by simp [hz])).mono hs1.sub) hzs
        refine ⟨G, hs1.trans hs (fun _ h _ => h), ?_⟩
        intro z hz
        rcases List.mem_cons.mp hz with rfl | hz
        · exact hy1.mono hs.sub
        · exact hr z hz

/-- Making objects and then writing to one. -/
theorem then_store {m m' : Mem} {A G : Nat → Prop} {r : Ref} {o : Obj} (hr : In A r)
    (h : Steps (fun _ => False) A m m' G) (ho : ∀ k ∈ kids o, In G k) :
    Steps (fun l => r = .ptr l) A m (store m' r o) G :=
  (h.mono (fun _ h => h.elim)).trans (store_steps h.reg (hr.mono h.sub) ho) (fun _ h _ => h)

theorem setItem_steps {E : Env} (hE : Polite E) {r v : Ref} {c : Comp} {m : Mem} {A : Nat → Prop} (hA : Reg m A)
    (hr : In A r) (hv : In A v) : ∃ G, Steps (fun l => r = .ptr l) A m (setItem E r c v m).2 G := by
  have hk := deref_kids hA hr
  unfold setItem
  split
  · rename_i xs i hd
    rw [hd] at hk
    split
    · exact ⟨A, store_steps hA hr (fun k hk' => (mem_setIdx hk').elim (hk k) (fun e => e ▸ hv))⟩
    · exact ⟨A, Steps.refl hA⟩
  · rename_i cls xs i hd
    rw [hd] at hk
    split
    · exact ⟨A, Steps.refl hA⟩
    · rename_i m' v' hc
      split
      · obtain ⟨G, hs, hv'⟩ := coerce_steps hE hA hv hc
        exact ⟨G, then_store hr hs
          (fun k hk' => (mem_setIdx hk').elim (fun h => (hk k h).mono hs.sub) (fun e => e ▸ hv'))⟩
      · exact ⟨A, Steps.refl hA⟩
  · split <;> exact ⟨A, Steps.refl hA⟩
  · rename_i xs hd
    rw [hd] at hk
    exact ⟨A, store_steps hA hr (fun k hk' => (mem_aset hk').elim (hk k) (fun e => e ▸ hv))⟩
  · rename_i cls xs hd
    rw [hd] at hk
    split
    · exact ⟨A, Steps.refl hA⟩
    · rename_i m' v' hc
      obtain ⟨G, hs, hv'⟩ := coerce_steps hE hA hv hc
      exact ⟨G, then_store hr hs
        (fun k hk' => (mem_aset hk').elim (fun h => (hk k h).mono hs.sub) (fun e => e ▸ hv'))⟩
  · exact ⟨A, Steps.refl hA⟩

theorem setAttr_steps {E : Env} (hE : Polite E) {r v : Ref} {c : Comp} {m : Mem} {A : Nat → Prop} (hA : Reg m A)
    (hr : In A r) (hv : In A v) : ∃ G, Steps (fun l => r = .ptr l) A m (setAttr E r c v m).2 G := by
  have hk := deref_kids hA hr
  unfold setAttr
  split
  · rename_i cls sl nm hd
    rw [hd] at hk
    split
    · exact ⟨A, store_steps hA hr (fun k hk' => (mem_aset hk').elim (hk k) (fun e => e ▸ hv))⟩
    · rename_i a ha
      split
      · exact ⟨A, Steps.refl hA⟩
      · rename_i m' s hs'
        obtain ⟨G, hs, hv'⟩ := assign_steps hE hA ha
          (fun r hr => hk r (alookup_mem_vals (Option.mem_def.mp hr))) hv hs'
        exact ⟨G, then_store hr hs
          (fun k hk' => (mem_setSlot hk').elim (fun h => (hk k h).mono hs.sub) (fun e => hv' k e))⟩
  · exact ⟨A, Steps.refl hA⟩
  · exact ⟨A, Steps.refl hA⟩

theorem setAll_steps {E : Env} (hE : Polite E) {r v : Ref} {m : Mem} {A : Nat → Prop} (hA : Reg m A)
    (hr : In A r) (hv : In A v) : ∃ G, Steps (fun l => r = .ptr l) A m (setAll E r v m).2 G := by
  unfold setAll
  split
  · split
    · exact ⟨A, Steps.refl hA⟩
    · rename_i vs hvs
      exact ⟨A, store_steps hA hr (iterObj_in hvs (deref_kids hA hv))⟩
  · split
    · exact ⟨A, Steps.refl hA⟩
    · rename_i vs hvs
      split
      · exact ⟨A, Steps.refl hA⟩
      · rename_i m' vs' hm
        obtain ⟨G, hs, hv'⟩ := mapM_steps hE vs m m' vs' A hA (iterObj_in hvs (deref_kids hA hv)) hm
        exact ⟨G, then_store hr hs hv'⟩
  · split <;> exact ⟨A, Steps.refl hA⟩
  · exact ⟨A, Steps.refl hA⟩

theorem put1_steps {E : Env} (hE : Polite E) {r v : Ref} {c : Comp} {m : Mem} {A : Nat → Prop} (hA : Reg m A)
    (hr : In A r) (hv : In A v) : ∃ G, Steps (fun l => r = .ptr l) A m (put1 E c v r m).2 G := by
  unfold put1
  split
  · exact setAll_steps hE hA hr hv
  · split
    · have h := setItem_steps hE (c := c) hA hr hv
      split
      · rename_i e m' he; rw [he] at h; exact h
      · exact h
    · have h := setAttr_steps hE (c := c) hA hr hv
      split
      · rename_i e m' he; rw [he] at h; exact h
      · exact h

/-- A write to the region it is given. -/
def Writes (f : Ref → Mem → Eff Unit) (v : Ref) : Prop :=
  ∀ x m A, Reg m A → In A v → In A x → ∃ G, Steps A A m (f x m).2 G

theorem steps_at {m m' : Mem} {A G : Nat → Prop} {r : Ref} (hr : In A r)
    (h : Steps (fun l => r = .ptr l) A m m' G) : Steps A A m m' G :=
  h.mono (fun l e => by subst e; exact hr)

theorem Steps.then {m m1 m2 : Mem} {A G G' : Nat → Prop} (h1 : Steps A A m m1 G) (h2 : Steps G G m1 m2 G') :
    Steps A A m m2 G' := h1.trans h2 (fun l hl hlt => h1.old l hl hlt)

theorem forItems_steps {f : Ref → Mem → Eff Unit} {v : Ref} (hf : Writes f v) :
    ∀ (xs : List Ref) (m : Mem) (A : Nat → Prop), Reg m A → In A v → (∀ x ∈ xs, In A x) →
      ∃ G, Steps A A m (forItems f xs m).2 G := by
  intro xs
  induction xs with
  | nil => intro m A hA _ _; exact ⟨A, Steps.refl hA⟩
  | cons x xs ih =>
    intro m A hA hv hxs
    obtain ⟨G1, h1⟩ := hf x m A hA hv (hxs x (by simp))
    simp only [forItems]
    split
    · rename_i e m' he; rw [he] at h1; exact ⟨G1, h1⟩
    · rename_i m' he
      rw [he] at h1
      obtain ⟨G, h2⟩ := ih m' G1 h1.reg (hv.mono h1.sub) (fun y hy => (hxs y (by simp [hy])).mono h1.sub)
      exact ⟨G, h1.then h2⟩

theorem put_steps {E : Env} (hE : Polite E) (p : FS) (v : Ref) : Writes (put E p v) v := by
  induction p with
  | nil => intro x m A hA _ _; exact ⟨A, Steps.refl hA⟩
  | cons c p ih =>
    intro x m A hA hv hx
    cases p with
    | nil =>
      have : put E [c] v x m = put1 E c v x m := by cases c <;> rfl
      rw [this]
      obtain ⟨G, h⟩ := put1_steps hE (c := c) hA hx hv
      exact ⟨G, steps_at hx h⟩
    | cons d p =>
      cases c with
      | none =>
        simp only [put]
        split
        · exact ⟨A, Steps.refl hA⟩
        · rename_i items hi
          exact forItems_steps ih items m A hA hv (iterObj_in hi (deref_kids hA hx))
      | int i =>
        simp only [put]
        split
        · exact ⟨A, Steps.refl hA⟩
        · rename_i y hy
          exact ih y m A hA hv (step_in (step_iff_stepPut.mpr hy) (deref_kids hA hx))
      | str i =>
        simp only [put]
        split
        · exact ⟨A, Steps.refl hA⟩
        · rename_i y hy
          exact ih y m A hA hv (step_in (step_iff_stepPut.mpr hy) (deref_kids hA hx))

/-! ## delete -/

theorem delItem_steps {r : Ref} {c : Comp} {m : Mem} {A : Nat → Prop} (hA : Reg m A) (hr : In A r) :
    Steps (fun l => r = .ptr l) A m (delItem r c m).2 A := by
  have hk := deref_kids hA hr
  unfold delItem
  split
  · rename_i xs i hd
    rw [hd] at hk
    split
    · exact store_steps hA hr (fun k hk' => hk k (List.mem_of_mem_eraseIdx hk'))
    · exact Steps.refl hA
  · rename_i cls xs i hd
    rw [hd] at hk
    split
    · exact store_steps hA hr (fun k hk' => hk k (List.mem_of_mem_eraseIdx hk'))
    · exact Steps.refl hA
  · rename_i xs hd
    rw [hd] at hk
    split
    · exact store_steps hA hr (fun k hk' => hk k (mem_aerase hk'))
    · exact Steps.refl hA
  · rename_i cls xs hd
    rw [hd] at hk
    split
    · exact store_steps hA hr (fun k hk' => hk k (mem_aerase hk'))
    · exact Steps.refl hA
  · exact Steps.refl hA

theorem delAttr_steps {E : Env} {r : Ref} {nm : String} {m : Mem} {A : Nat → Prop} (hA : Reg m A) (hr : In A r) :
    Steps (fun l => r = .ptr l) A m (delAttr E r nm m).2 A := by
  have hk := deref_kids hA hr
  unfold delAttr
  split
  · rename_i cls sl hd
    rw [hd] at hk
    split
    · exact store_steps hA hr (fun k hk' => hk k (mem_aerase hk'))
    · split
      · exact Steps.refl hA
      · exact store_steps hA hr (fun k hk' => hk k (mem_aerase hk'))
  · exact Steps.refl hA

theorem delete1_steps {E : Env} {r : Ref} {c : Comp} {m : Mem} {A : Nat → Prop} (hA : Reg m A) (hr : In A r) :
    Steps (fun l => r = .ptr l) A m (delete1 E c r m).2 A := by
  have hk := deref_kids hA hr
  unfold delete1
  split
  · split
    · refine store_steps hA hr ?_
      intro k hk'
      refine hk k ?_
      revert hk'
      cases deref m r <;> simp [clearObj, kids]
    · exact delItem_steps hA hr
  · split
    · split
      · exact delAttr_steps hA hr
      · exact Steps.refl hA
      · exact Steps.refl hA
    · exact Steps.refl hA

theorem wildDelete_steps {f : Ref → Mem → Eff Unit} (hf : Writes f (.atom .none)) :
    ∀ (xs : List Ref) (s : AllExc) (m : Mem) (A : Nat → Prop), Reg m A → (∀ x ∈ xs, In A x) →
      ∃ G, Steps A A m (wildDelete f xs s m).2 G := by
  intro xs
  induction xs with
  | nil => intro s m A hA _; cases s <;> exact ⟨A, Steps.refl hA⟩
  | cons x xs ih =>
    intro s m A hA hxs
    obtain ⟨G1, h1⟩ := hf x m A hA trivial (hxs x (by simp))
    simp only [wildDelete]
    split
    · rename_i m' he
      rw [he] at h1
      obtain ⟨G, h2⟩ := ih s.success m' G1 h1.reg (fun y hy => (hxs y (by simp [hy])).mono h1.sub)
      exact ⟨G, h1.then h2⟩
    · rename_i e m' he
      rw [he] at h1
      split
      · obtain ⟨G, h2⟩ := ih (s.failure e) m' G1 h1.reg (fun y hy => (hxs y (by simp [hy])).mono h1.sub)
        exact ⟨G, h1.then h2⟩
      · exact ⟨G1, h1⟩

theorem delete_steps (E : Env) (p : FS) : Writes (delete E p) (.atom .none) := by
  induction p with
  | nil => intro x m A hA _ _; exact ⟨A, Steps.refl hA⟩
  | cons c p ih =>
    intro x m A hA hv hx
    cases p with
    | nil =>
      have : delete E [c] x m = delete1 E c x m := by cases c <;> rfl
      rw [this]
      exact ⟨A, steps_at hx (delete1_steps hA hx)⟩
    | cons d p =>
      cases c with
      | none =>
        simp only [delete]
        split
        · exact ⟨A, Steps.refl hA⟩
        · rename_i items hi
          exact wildDelete_steps ih items _ m A hA (iterObj_in hi (deref_kids hA hx))
      | int i =>
        simp only [delete]
        split
        · exact ⟨A, Steps.refl hA⟩
        · rename_i y hy
          exact ih y m A hA hv (step_in hy (deref_kids hA hx))
      | str i =>
        simp only [delete]
        split
        · exact ⟨A, Steps.refl hA⟩
        · rename_i y hy
          exact ih y m A hA hv (step_in hy (deref_kids hA hx))

/-! ## post -/

theorem callKw_steps {f : Mem → Option (String × Ref) → Except Exc (Mem × Ref)} {m m' : Mem}
    {kw : Option (Comp × Ref)} {v' : Ref} {A : Nat → Prop} (hk : ∀ e ∈ kw, In A e.2)
    (hf : ∀ kw', (∀ e ∈ kw', In A e.2) → f m kw' = .ok (m', v') →
      ∃ G, Steps (fun _ => False) A m m' G ∧ In G v')
    (h : callKw f m kw = .ok (m', v')) : ∃ G, Steps (fun _ => False) A m m' G ∧ In G v' := by
  unfold callKw at h
  split at h
  · exact hf none (by simp) h
  · rename_i s v
    refine hf _ ?_ h
    intro e he
    cases he
    exact hk (.str s, v) rfl
  · cases h

theorem newItem_steps {E : Env} (hE : Polite E) {m m' : Mem} {o : Obj} {kw : Option (Comp × Ref)} {v' : Ref}
    {A : Nat → Prop} (hA : Reg m A) (hk : ∀ e ∈ kw, In A e.2) (h : newItem E m o kw = .ok (m', v')) :
    ∃ G, Steps (fun _ => False) A m m' G ∧ In G v' := by
  unfold newItem at h
  split at h
  · exact callKw_steps hk (fun kw' hk' h' => makeItem_steps hE hA hk' h') h
  · exact callKw_steps hk (fun kw' hk' h' => makeItem_steps hE hA hk' h') h
  · cases h

theorem newAttr_steps {E : Env} (hE : Polite E) {m m' : Mem} {o : Obj} {c : Comp} {kw : Option (Comp × Ref)} {v' : Ref}
    {A : Nat → Prop} (hA : Reg m A) (hk : ∀ e ∈ kw, In A e.2) (h : newAttr E m o c kw = .ok (m', v')) :
    ∃ G, Steps (fun _ => False) A m m' G ∧ In G v' := by
  unfold newAttr at h
  split at h
  · split at h
    · cases h
    · rename_i a ha
      split at h
      · cases h
      · rename_i f hf
        exact callKw_steps hk (fun kw' hk' h' => make_steps hE hA ha hf hk' h') h
  · cases h

theorem append_steps {E : Env} (hE : Polite E) {r v : Ref} {m : Mem} {A : Nat → Prop} (hA : Reg m A)
    (hr : In A r) (hv : In A v) : ∃ G, Steps (fun l => r = .ptr l) A m (append E r v m).2 G := by
  have hk := deref_kids hA hr
  unfold append
  split
  · rename_i xs hd
    rw [hd] at hk
    refine ⟨A, store_steps hA hr ?_⟩
    intro k hk'
    rcases List.mem_append.mp hk' with h | h
    · exact hk k h
    · rw [List.mem_singleton.mp h]; exact hv
  · rename_i cls xs hd
    rw [hd] at hk
    split
    · exact ⟨A, Steps.refl hA⟩
    · rename_i m' v' hc
      obtain ⟨G, hs, hv'⟩ := coerce_steps hE hA hv hc
      refine ⟨G, then_store hr hs ?_⟩
      intro k hk'
      rcases List.mem_append.mp hk' with h | h
      · exact (hk k h).mono hs.sub
      · rw [List.mem_singleton.mp h]; exact hv'
  · exact ⟨A, Steps.refl hA⟩

theorem then_at {m m1 m2 : Mem} {A G G' : Nat → Prop} {r : Ref} (h1 : Steps (fun _ => False) A m m1 G)
    (h2 : Steps (fun l => r = .ptr l) G m1 m2 G') : Steps (fun l => r = .ptr l) A m m2 G' :=
  (h1.mono (fun _ h => h.elim)).trans h2 (fun _ h _ => h)

theorem stepPost_steps {E : Env} (hE : Polite E) {r : Ref} {c : Comp} {kw : Option (Comp × Ref)} {m : Mem}
    {A : Nat → Prop} (hA : Reg m A) (hr : In A r) (hk : ∀ e ∈ kw, In A e.2) :
    ∃ G, Steps (fun l => r = .ptr l) A m (stepPost E r c kw m).1 G ∧
      ∀ y, (stepPost E r c kw m).2.2 = .child y → In G y := by
  have hd := deref_kids hA hr
  unfold stepPost
  split
  · split
    · rename_i y hy
      refine ⟨A, Steps.refl hA, ?_⟩
      intro y' e; cases e
      exact getItem_in hy hd
    · split
      · split
        · exact ⟨A, Steps.refl hA, fun _ e => nomatch e⟩
        · rename_i m1 it hit
          obtain ⟨G1, h1, hv1⟩ := newItem_steps hE hA hk hit
          obtain ⟨G2, h2⟩ := append_steps hE h1.reg (hr.mono h1.sub) hv1
          have h12 := then_at h1 h2
          split
          · rename_i e m2 he; rw [he] at h12
            exact ⟨G2, h12, fun _ e => nomatch e⟩
          · rename_i m2 he; rw [he] at h12
            split
            · exact ⟨G2, h12, fun _ e => nomatch e⟩
            · rename_i y hy
              refine ⟨G2, h12, ?_⟩
              intro y' e; cases e
              exact getItem_in hy (deref_kids h12.reg (hr.mono h12.sub))
      · exact ⟨A, Steps.refl hA, fun _ e => nomatch e⟩
    · split
      · exact ⟨A, Steps.refl hA, fun _ e => nomatch e⟩
      · rename_i m1 it hit
        obtain ⟨G1, h1, hv1⟩ := newItem_steps hE hA hk hit
        obtain ⟨G2, h2⟩ := setItem_steps hE (c := c) h1.reg (hr.mono h1.sub) hv1
        have h12 := then_at h1 h2
        split
        · rename_i e m2 he; rw [he] at h12
          exact ⟨G2, h12, fun _ e => nomatch e⟩
        · rename_i m2 he; rw [he] at h12
          exact ⟨G2, h12, fun _ e => nomatch e⟩
    · exact ⟨A, Steps.refl hA, fun _ e => nomatch e⟩
  · split
    · rename_i y hy
      refine ⟨A, Steps.refl hA, ?_⟩
      intro y' e; cases e
      exact getAttr_in hy hd
    · split
      · exact ⟨A, Steps.refl hA, fun _ e => nomatch e⟩
      · rename_i m1 it hit
        obtain ⟨G1, h1, hv1⟩ := newAttr_steps hE hA hk hit
        obtain ⟨G2, h2⟩ := setAttr_steps hE (c := c) h1.reg (hr.mono h1.sub) hv1
        have h12 := then_at h1 h2
        split
        · rename_i e m2 he; rw [he] at h12
          exact ⟨G2, h12, fun _ e => nomatch e⟩
        · rename_i m2 he; rw [he] at h12
          split
          · exact ⟨G2, h12, fun _ e => nomatch e⟩
          · rename_i y hy
            refine ⟨G2, h12, ?_⟩
            intro y' e; cases e
            exact getAttr_in hy (deref_kids h12.reg (hr.mono h12.sub))
    · exact ⟨A, Steps.refl hA, fun _ e => nomatch e⟩

theorem kwarg_in {A : Nat → Prop} {p : FS} {v : Ref} (hv : In A v) : ∀ e ∈ kwarg p v, In A e.2 := by
  intro e he
  unfold kwarg at he
  split at he
  · cases he
  · cases he; exact hv
  · cases he

/-- If the value was not passed to a constructor, then the part was there, or nothing was passed. -/
theorem stepPost_go {E : Env} {r : Ref} {c : Comp} {kw : Option (Comp × Ref)} {m : Mem}
    (h : (stepPost E r c kw m).2.1 = false) :
    (∃ y, (stepPost E r c kw m).1 = m ∧ (stepPost E r c kw m).2.2 = .child y ∧
      (getItem (deref m r) c = .ok y ∨ getAttr E (deref m r) c = .ok y)) ∨
    kw = none ∨ ∃ e, (stepPost E r c kw m).2.2 = .fail e := by
  unfold stepPost at h ⊢
  cases kw with
  | none => exact Or.inr (Or.inl rfl)
  | some w =>
    refine Or.imp_right Or.inr ?_
    split
    · split
      · rename_i y hy; exact Or.inl ⟨y, rfl, rfl, Or.inl hy⟩
      · split
        · split
          · exact Or.inr ⟨_, rfl⟩
          · split
            · exact Or.inr ⟨_, rfl⟩
            · split
              · exact Or.inr ⟨_, rfl⟩
              · simp_all
        · exact Or.inr ⟨_, rfl⟩
      · split
        · exact Or.inr ⟨_, rfl⟩
        · split
          · exact Or.inr ⟨_, rfl⟩
          · simp_all
      · exact Or.inr ⟨_, rfl⟩
    · split
      · rename_i y hy; exact Or.inl ⟨y, rfl, rfl, Or.inr hy⟩
      · split
        · exact Or.inr ⟨_, rfl⟩
        · split
          · exact Or.inr ⟨_, rfl⟩
          · split
            · exact Or.inr ⟨_, rfl⟩
            · simp_all
      · exact Or.inr ⟨_, rfl⟩

/-- The general step of `post`. -/
theorem post_cons {E : Env} {c d : Comp} {p : FS} {v x : Ref} {m : Mem} (hc : c ≠ .none) :
    post E (c :: d :: p) v x m =
      match stepPost E x c (kwarg (d :: p) v) m with
      | (m', _, .fail e) => (.error e, m')
      | (m', true, _) => (.ok 1, m')
      | (m', false, .child y) => post E (d :: p) v y m'
      | (m', false, .same) => post E (d :: p) v x m' := by
  cases c with
  | none => exact absurd rfl hc
  | int i => rfl
  | str i => rfl

theorem post_none {E : Env} {d : Comp} {p : FS} {v x : Ref} {m : Mem} : (post E (.none :: d :: p) v x m).2 = m := by
  simp only [post]
  split <;> rfl

theorem post_last {E : Env} {c : Comp} {v x : Ref} {m : Mem} : (post E [c] v x m).2 = (put1 E c v x m).2 := by
  have : post E [c] v x m = match put1 E c v x m with
      | (.error e, m') => (.error e, m')
      | (.ok (), m') => (.ok 1, m') := by cases c <;> rfl
  rw [this]
  split
  · rename_i he; rw [he]
  · rename_i he; rw [he]

/-- A part that is there. -/
theorem stepPost_ok {E : Env} {r y : Ref} {c : Comp} {kw : Option (Comp × Ref)} {m : Mem}
    (h : step E (deref m r) c = .ok y) : stepPost E r c kw m = (m, false, .child y) := by
  unfold step at h
  unfold stepPost
  split at h
  · rename_i ht
    rw [if_pos ht]
    split at h
    · rename_i hv; cases h; rw [hv]
    · cases h
    · cases h
  · rename_i ht
    rw [if_neg ht]
    split at h
    · rename_i hv; cases h; simp only [hv]
    · cases h
    · cases h

/-- `post` knows what it is given, and writes to it. -/
theorem post_steps {E : Env} (hE : Polite E) (v : Ref) (p : FS) : ∀ x m A, Reg m A → In A v → In A x →
    ∃ G, Steps A A m (post E p v x m).2 G := by
  induction p with
  | nil => intro x m A hA _ _; exact ⟨A, Steps.refl hA⟩
  | cons c p ih =>
    intro x m A hA hv hx
    cases p with
    | nil =>
      rw [post_last]
      obtain ⟨G, h⟩ := put1_steps hE (c := c) hA hx hv
      exact ⟨G, steps_at hx h⟩
    | cons d p =>
      by_cases hc : c = .none
      · subst hc; rw [post_none]; exact ⟨A, Steps.refl hA⟩
      · obtain ⟨G1, h1, hy1⟩ := stepPost_steps hE (c := c) hA hx (kwarg_in (p := d :: p) hv)
        have h1 := steps_at hx h1
        rw [post_cons hc]
        split
        · rename_i he; rw [he] at h1; exact ⟨G1, h1⟩
        · rename_i he; rw [he] at h1; exact ⟨G1, h1⟩
        · rename_i y he; rw [he] at h1 hy1
          obtain ⟨G, h2⟩ := ih y _ G1 h1.reg (hv.mono h1.sub) (hy1 y rfl)
          exact ⟨G, h1.then h2⟩
        · rename_i he; rw [he] at h1
          obtain ⟨G, h2⟩ := ih x _ G1 h1.reg (hv.mono h1.sub) (hx.mono h1.sub)
          exact ⟨G, h1.then h2⟩

/-- `post` writes only to parts of the record, and to what it makes. -/
theorem post_frame {E : Env} (hE : Polite E) (v : Ref) (p : FS) : ∀ x m W A, Reg m W → In W x → Reg m A → In A v →
    In A x → ∀ l, l < m.length → ¬ W l → (post E p v x m).2[l]? = m[l]? := by
  induction p with
  | nil => intro x m W A _ _ _ _ _ l _ _; rfl
  | cons c p ih =>
    intro x m W A hW hx hA hv hxA l hl hnW
    cases p with
    | nil =>
      rw [post_last]
      obtain ⟨G, h⟩ := put1_steps hE (c := c) hA hxA hv
      exact h.frame l hl (fun e => hnW (by subst e; exact hx))
    | cons d p =>
      by_cases hc : c = .none
      · subst hc; rw [post_none]
      · obtain ⟨G1, h1, hy1⟩ := stepPost_steps hE (c := c) hA hxA (kwarg_in (p := d :: p) hv)
        have hfr := h1.frame l hl (fun e => hnW (by subst e; exact hx))
        have hWs : (stepPost E x c (kwarg (d :: p) v) m).2.1 = false →
            (∃ e, (stepPost E x c (kwarg (d :: p) v) m).2.2 = .fail e) ∨
            ∃ G2, Steps W W m (stepPost E x c (kwarg (d :: p) v) m).1 G2 ∧
              ∀ y, (stepPost E x c (kwarg (d :: p) v) m).2.2 = .child y → In G2 y := by
          intro hf
          rcases stepPost_go hf with ⟨y, h, hy, hg⟩ | h | h
          · refine Or.inr ⟨W, by rw [h]; exact Steps.refl hW, ?_⟩
            intro y' hy'
            rw [hy] at hy'; cases hy'
            exact hg.elim (fun h => getItem_in h (deref_kids hW hx)) (fun h => getAttr_in h (deref_kids hW hx))
          · obtain ⟨G2, h2, hy2⟩ := stepPost_steps hE (c := c) (kw := kwarg (d :: p) v) hW hx
              (by rw [h]; intro e he; cases he)
            exact Or.inr ⟨G2, steps_at hx h2, hy2⟩
          · exact Or.inl h
        have h1 := steps_at hxA h1
        rw [post_cons hc]
        split
        · rename_i he; rw [he] at hfr; exact hfr
        · rename_i he; rw [he] at hfr; exact hfr
        · rename_i y he; rw [he] at hfr hWs h1 hy1
          rcases hWs rfl with ⟨e, he'⟩ | ⟨G2, h2, hy2⟩
          · cases he'
          · rw [ih y _ G2 G1 h2.reg (hy2 y rfl) h1.reg (hv.mono h1.sub) (hy1 y rfl) l
              (Nat.lt_of_lt_of_le hl h1.len) (fun hg => hnW (h2.old l hg hl)), hfr]
        · rename_i he; rw [he] at hfr hWs h1
          rcases hWs rfl with ⟨e, he'⟩ | ⟨G2, h2, hy2⟩
          · cases he'
          · rw [ih x _ G2 G1 h2.reg (hx.mono h2.sub) h1.reg (hv.mono h1.sub) (hxA.mono h1.sub) l
              (Nat.lt_of_lt_of_le hl h1.len) (fun hg => hnW (h2.old l hg hl)), hfr]

end Normalize.Mem
