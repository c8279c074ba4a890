import Verif.Spec.Mem
import Verif.Lemmas.Access

/-! Lemmas about memory. -/

namespace Normalize.Mem

open Normalize.Spec

/-! ## Regions -/

/-- A reference into a set of addresses. -/
def In (A : Nat → Prop) : Ref → Prop
  | .atom _ => True
  | .ptr l => A l

/-- A set of existing objects with all their parts. -/
structure Reg (m : Mem) (A : Nat → Prop) : Prop where
  bdd : ∀ l, A l → l < m.length
  closed : ∀ l o, A l → m[l]? = some o → ∀ k ∈ kids o, In A k

/-- What a step does which knows the region `A` and writes only to `W`; `G` is the region known afterwards. -/
structure Steps (W A : Nat → Prop) (m m' : Mem) (G : Nat → Prop) : Prop where
  len : m.length ≤ m'.length
  frame : ∀ l, l < m.length → ¬ W l → m'[l]? = m[l]?
  sub : ∀ l, A l → G l
  old : ∀ l, G l → l < m.length → A l
  reg : Reg m' G

theorem In.mono {A B : Nat → Prop} (h : ∀ l, A l → B l) {r : Ref} (hr : In A r) : In B r := by
  cases r with
  | atom a => trivial
  | ptr l => exact h l hr

theorem Steps.refl {W A : Nat → Prop} {m : Mem} (h : Reg m A) : Steps W A m m A :=
  ⟨Nat.le_refl _, fun _ _ _ => rfl, fun _ h => h, fun _ h _ => h, h⟩

theorem Steps.trans {W W' A G G' : Nat → Prop} {m m1 m2 : Mem} (h1 : Steps W A m m1 G) (h2 : Steps W' G m1 m2 G')
    (hw : ∀ l, W' l → l < m.length → W l) : Steps W A m m2 G' where
  len := Nat.le_trans h1.len h2.len
  frame l hl hW := by
    rw [h2.frame l (Nat.lt_of_lt_of_le hl h1.len) (fun h => hW (hw l h hl)), h1.frame l hl hW]
  sub l h := h2.sub l (h1.sub l h)
  old l h hl := h1.old l (h2.old l h (Nat.lt_of_lt_of_le hl h1.len)) hl
  reg := h2.reg

theorem Steps.mono {W W' A G : Nat → Prop} {m m1 : Mem} (h : Steps W A m m1 G) (hw : ∀ l, W l → W' l) :
    Steps W' A m m1 G := ⟨h.len, fun l hl hn => h.frame l hl (fun c => hn (hw l c)), h.sub, h.old, h.reg⟩

theorem part_in {m : Mem} {A : Nat → Prop} {r : Ref} {l : Nat} (h : PartOf m r l)
    (hc : ∀ l o, A l → m[l]? = some o → ∀ k ∈ kids o, In A k) (hr : In A r) : A l := by
  induction h with
  | self => exact hr
  | kid ho hk hp ih => exact ih (hc _ _ hr ho _ hk)

theorem Reg.part {m : Mem} {A : Nat → Prop} (h : Reg m A) {r : Ref} (hr : In A r) {l : Nat} (hp : PartOf m r l) :
    A l := part_in hp h.closed hr

theorem Reg.exist {m : Mem} {A : Nat → Prop} (h : Reg m A) {r : Ref} (hr : In A r) : Exist m r :=
  fun l hl => h.bdd l (h.part hr hl)

theorem part_trans {m : Mem} {r k : Ref} {l l' : Nat} {o : Obj} (h : PartOf m r l) (ho : m[l]? = some o)
    (hk : k ∈ kids o) (hp : PartOf m k l') : PartOf m r l' := by
  induction h with
  | self => exact .kid ho hk hp
  | kid ho' hk' _ ih => exact .kid ho' hk' (ih ho)

theorem in_part {m : Mem} (r : Ref) : In (PartOf m r) r := by
  cases r with
  | atom a => trivial
  | ptr l => exact .self

theorem in_of_parts {m : Mem} {A : Nat → Prop} {r : Ref} (h : ∀ l, PartOf m r l → A l) : In A r := by
  cases r with
  | atom a => trivial
  | ptr l => exact h l .self

/-- The parts of an object are a region. -/
theorem reg_part {m : Mem} {r : Ref} (h : Exist m r) : Reg m (PartOf m r) where
  bdd := h
  closed l o hl ho k hk := in_of_parts (fun _ hp => part_trans hl ho hk hp)

theorem reg_or {m : Mem} {A B : Nat → Prop} (ha : Reg m A) (hb : Reg m B) : Reg m (fun l => A l ∨ B l) where
  bdd l h := h.elim (ha.bdd l) (hb.bdd l)
  closed l o h ho k hk := by
    rcases h with h | h
    · exact (ha.closed l o h ho k hk).mono (fun _ => Or.inl)
    · exact (hb.closed l o h ho k hk).mono (fun _ => Or.inr)

/-- References seen from a later memory. -/
theorem part_onlyNew {m m' : Mem} (h : OnlyNew m m') {r : Ref} (hr : Exist m r) {l : Nat} :
    PartOf m' r l ↔ PartOf m r l := by
  constructor
  · intro hp
    refine part_in hp ?_ (in_part r)
    intro l o hl ho k hk
    rw [h l (hr l hl)] at ho
    exact in_of_parts (fun _ hp => part_trans hl ho hk hp)
  · intro hp
    induction hp with
    | self => exact .self
    | kid ho hk _ ih =>
      have hl : _ < m.length := (List.getElem?_eq_some_iff.mp ho).1
      refine .kid (by rw [h _ hl]; exact ho) hk (ih ?_)
      intro l' hl'
      exact hr l' (.kid ho hk hl')

theorem exist_onlyNew {m m' : Mem} (h : OnlyNew m m') (hlen : m.length ≤ m'.length) {r : Ref} (hr : Exist m r) :
    Exist m' r := fun l hl => Nat.lt_of_lt_of_le (hr l ((part_onlyNew h hr).mp hl)) hlen

/-- Parts of an object that is intact. -/
theorem part_intact {m m' : Mem} {r : Ref} (h : Intact m m' r) {l : Nat} : PartOf m' r l ↔ PartOf m r l := by
  constructor
  · intro hp
    refine part_in hp ?_ (in_part r)
    intro l o hl ho k hk
    rw [h l hl] at ho
    exact in_of_parts (fun _ hp => part_trans hl ho hk hp)
  · intro hp
    induction hp with
    | self => exact .self
    | kid ho hk _ ih =>
      refine .kid (by rw [h _ .self]; exact ho) hk (ih ?_)
      intro l' hl'
      exact h l' (.kid ho hk hl')

theorem makes_steps {m m' : Mem} {A : Nat → Prop} {args res : List Ref} (hA : Reg m A)
    (ha : ∀ a ∈ args, In A a) (h : Makes m args m' res) :
    ∃ G, Steps (fun _ => False) A m m' G ∧ ∀ r ∈ res, In G r := by
  obtain ⟨hlen, hold, hres⟩ := h
  refine ⟨fun l => A l ∨ ∃ r ∈ res, PartOf m' r l, ⟨hlen, fun l hl _ => hold l hl, fun _ => Or.inl, ?_, ?_⟩, ?_⟩
  · rintro l (h | ⟨r, hr, hp⟩) hl
    · exact h
    · rcases hres r hr l hp with h | ⟨a, ha', hp'⟩
      · omega
      · exact hA.part (ha a ha') hp'
  · constructor
    · rintro l (h | ⟨r, hr, hp⟩)
      · exact Nat.lt_of_lt_of_le (hA.bdd l h) hlen
      · rcases hres r hr l hp with h | ⟨a, ha', hp'⟩
        · exact h.2
        · exact Nat.lt_of_lt_of_le (hA.bdd l (hA.part (ha a ha') hp')) hlen
    · rintro l o (h | ⟨r, hr, hp⟩) ho k hk
      · rw [hold l (hA.bdd l h)] at ho
        exact (hA.closed l o h ho k hk).mono (fun _ => Or.inl)
      · exact in_of_parts (fun l' hl' => Or.inr ⟨r, hr, part_trans hp ho hk hl'⟩)
  · intro r hr
    exact in_of_parts (fun l hl => Or.inr ⟨r, hr, hl⟩)

/-- The other way round: what a step that writes nothing returns. -/
theorem steps_makes {m m' : Mem} {args res : List Ref} (hex : ∀ a ∈ args, Exist m a)
    (h : ∀ A, Reg m A → (∀ a ∈ args, In A a) →
      ∃ G, Steps (fun _ => False) A m m' G ∧ ∀ r ∈ res, In G r) : Makes m args m' res := by
  obtain ⟨G, hs, hr⟩ := h (fun l => ∃ a ∈ args, PartOf m a l)
    ⟨fun l ⟨a, ha, hp⟩ => hex a ha l hp,
      fun l o ⟨a, ha, hp⟩ ho k hk => in_of_parts (fun l' hl' => ⟨a, ha, part_trans hp ho hk hl'⟩)⟩
    (fun a ha => in_of_parts (fun l hl => ⟨a, ha, hl⟩))
  refine ⟨hs.len, fun l hl => hs.frame l hl (fun h => h), ?_⟩
  intro r hr' l hp
  have hg := hs.reg.part (hr r hr') hp
  by_cases hl : l < m.length
  · exact Or.inr (hs.old l hg hl)
  · exact Or.inl ⟨by omega, hs.reg.bdd l hg⟩

theorem deref_kids {m : Mem} {A : Nat → Prop} (hA : Reg m A) {r : Ref} (hr : In A r) :
    ∀ k ∈ kids (deref m r), In A k := by
  cases r with
  | atom a => intro k hk; cases hk
  | ptr l =>
    intro k hk
    have hl := hA.bdd l hr
    simp only [deref] at hk
    rw [List.getElem?_eq_getElem hl] at hk
    exact hA.closed l _ hr (List.getElem?_eq_getElem hl) k hk

/-- `deref` does not see what is new. -/
theorem deref_frame {m m' : Mem} {r : Ref} {W : Nat → Prop} (hf : ∀ l, l < m.length → ¬ W l → m'[l]? = m[l]?)
    (hr : ∀ l, r = .ptr l → l < m.length ∧ ¬ W l) : deref m' r = deref m r := by
  cases r with
  | atom a => rfl
  | ptr l =>
    obtain ⟨h1, h2⟩ := hr l rfl
    simp only [deref]
    rw [hf l h1 h2]

theorem deref_steps {m m' : Mem} {A G : Nat → Prop} (hA : Reg m A) (h : Steps (fun _ => False) A m m' G) {r : Ref}
    (hr : In A r) : deref m' r = deref m r :=
  deref_frame h.frame (fun l e => by subst e; exact ⟨hA.bdd l hr, fun h => h⟩)

theorem store_steps {m : Mem} {A : Nat → Prop} (hA : Reg m A) {r : Ref} (hr : In A r) {o : Obj}
    (ho : ∀ k ∈ kids o, In A k) : Steps (fun l => r = .ptr l) A m (store m r o) A := by
  cases r with
  | atom a => exact Steps.refl hA
  | ptr l =>
    refine ⟨by simp [store], ?_, fun _ h => h, fun _ h _ => h, ?_⟩
    · intro l' _ hne
      have : l ≠ l' := fun e => hne (by rw [e])
      simp [store, List.getElem?_set, this]
    · constructor
      · intro l' h; simp [store]; exact hA.bdd l' h
      · intro l' o' h ho' k hk
        simp only [store, List.getElem?_set] at ho'
        split at ho'
        · split at ho'
          · injection ho' with e; subst e; exact ho k hk
          · cases ho'
        · exact hA.closed l' o' h ho' k hk

theorem alloc_steps {m : Mem} {A : Nat → Prop} (hA : Reg m A) {o : Obj} (ho : ∀ k ∈ kids o, In A k) :
    ∃ G, Steps (fun _ => False) A m (alloc m o).1 G ∧ In G (alloc m o).2 := by
  refine ⟨fun l => A l ∨ l = m.length, ⟨by simp [alloc], ?_, fun _ => Or.inl, ?_, ?_⟩, Or.inr rfl⟩
  · intro l hl _
    simp [alloc, List.getElem?_append_left hl]
  · rintro l (h | h) hl
    · exact h
    · omega
  · constructor
    · rintro l (h | h)
      · simp [alloc]; have := hA.bdd l h; omega
      · simp [alloc, h]
    · rintro l o' (h | h) ho' k hk
      · simp only [alloc, List.getElem?_append_left (hA.bdd l h)] at ho'
        exact (hA.closed l o' h ho' k hk).mono (fun _ => Or.inl)
      · subst h
        simp [alloc] at ho'
        subst ho'
        exact (ho k hk).mono (fun _ => Or.inl)

/-! ## deepcopy -/

theorem kids_shift (n : Nat) (o : Obj) : kids (shiftObj n o) = (kids o).map (shiftRef n) := by
  cases o <;> simp [kids, shiftObj, Function.comp_def]

theorem deepcopy_new {m : Mem} {r : Ref} (hr : Exist m r) :
    m.length ≤ (deepcopy m r).1.length ∧ OnlyNew m (deepcopy m r).1 ∧
      ∀ l, PartOf (deepcopy m r).1 (deepcopy m r).2 l →
        m.length ≤ l ∧ l < (deepcopy m r).1.length ∧ PartOf m r (l - m.length) := by
  refine ⟨by simp [deepcopy], ?_, ?_⟩
  · intro l hl
    simp [deepcopy, List.getElem?_append_left hl]
  · intro l hl
    have key : m.length ≤ l ∧ PartOf m r (l - m.length) := by
      refine part_in (A := fun l => m.length ≤ l ∧ PartOf m r (l - m.length)) hl ?_ ?_
      · intro l o ⟨hl, hp⟩ ho k hk
        simp only [deepcopy, List.getElem?_append_right hl, List.getElem?_map, Option.map_eq_some_iff] at ho
        obtain ⟨o', ho', rfl⟩ := ho
        rw [kids_shift, List.mem_map] at hk
        obtain ⟨k', hk', rfl⟩ := hk
        cases k' with
        | atom a => trivial
        | ptr j =>
          refine ⟨Nat.le_add_left _ _, ?_⟩
          rw [Nat.add_sub_cancel]
          exact part_trans hp ho' hk' .self
      · cases r with
        | atom a => trivial
        | ptr j =>
          refine ⟨Nat.le_add_left _ _, ?_⟩
          rw [Nat.add_sub_cancel]
          exact .self
    refine ⟨key.1, ?_, key.2⟩
    have := hr _ key.2
    simp [deepcopy]; omega

end Normalize.Mem
