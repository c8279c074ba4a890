import Verif.Lemmas.JsonInMem

/-! Two properties of values that JSON input preserves. -/

namespace Normalize.JsonInMem

open Normalize.Mem Normalize.Spec
open Ident (IProp Ty ItemTy CollKind)

theorem kid_part {m : Mem} {v k : Ref} (hk : k ∈ kids (deref m v)) {l : Nat} (hp : PartOf m k l) : PartOf m v l := by
  cases v with
  | atom a => cases hk
  | ptr i =>
    simp only [deref] at hk
    cases ho : m[i]? with
    | none => rw [ho] at hk; cases hk
    | some o =>
      rw [ho] at hk
      exact .kid ho hk hp

theorem part_alloc {m : Mem} {o : Obj} (he : ∀ k ∈ kids o, Exist m k) {l : Nat}
    (h : PartOf (alloc m o).1 (alloc m o).2 l) : l = m.length ∨ ∃ k ∈ kids o, PartOf m k l := by
  cases h with
  | self => exact Or.inl rfl
  | kid ho hk hp =>
    simp only [Mem.alloc] at ho
    rw [List.getElem?_append_right (Nat.le_refl _)] at ho
    simp only [Nat.sub_self, List.getElem?_cons_zero, Option.some.injEq] at ho
    subst ho
    exact Or.inr ⟨_, hk, (part_onlyNew (grown_alloc m o).2 (he _ hk)).mp hp⟩

theorem atom_part {m : Mem} {a : Atom} {l : Nat} : ¬ PartOf m (.atom a) l := fun h => (nomatch h)

/-- Consists of new objects and of objects in `A`. -/
def Known (m0 : Mem) (A : Nat → Prop) (m : Mem) (v : Ref) : Prop :=
  Exist m v ∧ ∀ l, PartOf m v l → m0.length ≤ l ∨ A l

theorem known_later {m0 m m' : Mem} {A : Nat → Prop} {v : Ref} (hg : Grown m m') (h : Known m0 A m v) :
    Known m0 A m' v :=
  ⟨exist_onlyNew hg.2 hg.1 h.1, fun l hl => h.2 l ((part_onlyNew hg.2 h.1).mp hl)⟩

theorem known_makes {m0 m m' : Mem} {A : Nat → Prop} {v v' : Ref} (hG : Grown m0 m) (h : Known m0 A m v)
    (hm : Makes m [v] m' [v']) : Grown m m' ∧ Known m0 A m' v' := by
  refine ⟨⟨hm.1, hm.2.1⟩, ?_, ?_⟩
  · intro l hl
    rcases hm.2.2 v' (by simp) l hl with h1 | ⟨a, ha, hp⟩
    · exact h1.2
    · rw [List.mem_singleton.mp ha] at hp
      exact Nat.lt_of_lt_of_le (h.1 l hp) hm.1
  · intro l hl
    rcases hm.2.2 v' (by simp) l hl with h1 | ⟨a, ha, hp⟩
    · exact Or.inl (Nat.le_trans hG.1 h1.1)
    · rw [List.mem_singleton.mp ha] at hp
      exact h.2 l hp

theorem known_inv {W : World} {m0 : Mem} {A B : Nat → Prop} (hW : Tame W m0 A) (hB : ∀ l, A l → B l)
    (hA : ∀ l, A l → l < m0.length) : Inv W (Grown m0) (Known m0 B) (Known m0 B) where
  later h1 h2 := grown_trans h1 h2
  laterS := known_later
  laterD := known_later
  sub h := h
  atom _ := ⟨fun _ h => absurd h atom_part, fun _ h => absurd h atom_part⟩
  exist _ h := h.1
  kid _ h hk := ⟨exist_kid h.1 hk, fun l hl => h.2 l (kid_part hk hl)⟩
  alloc {m o} hG h := by
    have he : ∀ k ∈ kids o, Exist m k := fun k hk => (h k hk).1
    refine ⟨?_, ?_⟩
    · intro l hl
      have hlen : (Mem.alloc m o).1.length = m.length + 1 := by simp [Mem.alloc]
      rcases part_alloc he hl with rfl | ⟨k, hk, hp⟩
      · omega
      · have := (h k hk).1 l hp
        omega
    · intro l hl
      rcases part_alloc he hl with rfl | ⟨k, hk, hp⟩
      · exact Or.inl hG.1
      · exact (h k hk).2 l hp
  copy hG h := by
    have h1 := (deepcopy_new h.1).2.2
    exact ⟨fun l hl => (h1 l hl).2.1, fun l hl => Or.inl (Nat.le_trans hG.1 (h1 l hl).1)⟩
  loads {s m m' v} hG h := by
    have h1 := hW.loads s m m' v h
    refine ⟨⟨h1.1, h1.2.1⟩, ?_, ?_⟩
    · intro l hl
      rcases h1.2.2 v (by simp) l hl with h2 | ⟨a, ha, _⟩
      · exact h2.2
      · cases ha
    · intro l hl
      rcases h1.2.2 v (by simp) l hl with h2 | ⟨a, ha, _⟩
      · exact Or.inl (Nat.le_trans hG.1 h2.1)
      · cases ha
  jin hf hG hS h := known_makes hG hS (hW.jin _ _ _ hf _ _ _ _ hS.1 h)
  coerce hf hG hS h := known_makes hG hS (hW.coerce _ _ _ hf _ _ _ _ hS.1 h)
  typeFromJson hf hG hS h := known_makes hG hS (hW.typeFromJson _ _ hf _ _ _ _ hS.1 h)
  make hG hS h := known_makes hG hS (hW.make _ _ _ _ _ hS.1 h)
  default {c p f m m' v} hf hG h := by
    have h1 := hW.default c p f hf m m' v hG h
    refine ⟨h1.1, ?_, ?_⟩
    · intro l hl
      rcases h1.2 l hl with h2 | h2
      · exact h2.2
      · have := hA l h2
        have := hG.1
        have := h1.1.1
        omega
    · intro l hl
      rcases h1.2 l hl with h2 | h2
      · exact Or.inl (Nat.le_trans hG.1 h2.1)
      · exact Or.inr (hB l h2)
  keepT _ _ h _ := h
  keepU _ _ h _ _ := h
  item _ h _ := h
  unk _ _ _ _ _ h := h

/-- New, or all of it in the document `r`. -/
def OneSide (m0 : Mem) (r : Ref) (m : Mem) (v : Ref) : Prop :=
  Exist m v ∧ (AllNew m0 m v ∨ ∀ l, PartOf m v l → PartOf m0 r l)

theorem oneSide_later {m0 m m' : Mem} {r v : Ref} (hg : Grown m m') (h : OneSide m0 r m v) : OneSide m0 r m' v := by
  refine ⟨exist_onlyNew hg.2 hg.1 h.1, ?_⟩
  rcases h.2 with h1 | h1
  · exact Or.inl (allNew_later h1 hg.1 hg.2)
  · exact Or.inr (fun l hl => h1 l ((part_onlyNew hg.2 h.1).mp hl))

theorem allNew_oneSide {m0 m : Mem} {r v : Ref} (h : AllNew m0 m v) : OneSide m0 r m v := ⟨allNew_exist h, Or.inl h⟩

theorem oneSide_selects {m0 m m' : Mem} {r v v' : Ref} (hG : Grown m0 m) (h : OneSide m0 r m v)
    (hm : Grown m m' ∧ (AllNew m m' v' ∨ ∀ l, PartOf m' v' l → PartOf m v l)) : Grown m m' ∧ OneSide m0 r m' v' := by
  refine ⟨hm.1, ?_⟩
  rcases hm.2 with h1 | h1
  · exact allNew_oneSide (allNew_earlier h1 hG.1)
  · refine ⟨fun l hl => Nat.lt_of_lt_of_le (h.1 l (h1 l hl)) hm.1.1, ?_⟩
    rcases h.2 with h2 | h2
    · exact Or.inl (fun l hl => ⟨(h2 l (h1 l hl)).1, Nat.lt_of_lt_of_le (h2 l (h1 l hl)).2 hm.1.1⟩)
    · exact Or.inr (fun l hl => h2 l (h1 l hl))

theorem inst_new {W : World} (hW : AllTyped W) {m0 m : Mem} {r v : Ref} (hd : Document m0 r) (hr : Exist m0 r)
    (hG : Grown m0 m) (h : OneSide m0 r m v) {t : Ty} (ht : instOf W m v t = true) : AllNew m0 m v := by
  cases t with
  | other n =>
    obtain ⟨a, rfl⟩ := hW.isa n m v ht
    exact fun l hl => absurd hl atom_part
  | cls c =>
    rcases h.2 with h1 | h1
    · exact h1
    · exfalso
      cases v with
      | atom a => simp [instOf, deref, clsOf] at ht
      | ptr i =>
        have hi := h1 i .self
        obtain ⟨o, ho, hp⟩ := hd i hi
        have hm : m[i]? = some o := by rw [hG.2 i (hr i hi)]; exact ho
        simp only [instOf, deref, hm, Option.getD_some] at ht
        cases o <;> first | (simp [clsOf] at ht; done) | exact hp

theorem oneSide_inv {W : World} (hW : AllTyped W) {m0 : Mem} {r : Ref} (hd : Document m0 r) (hr : Exist m0 r) :
    Inv W (Grown m0) (OneSide m0 r) (AllNew m0) where
  later h1 h2 := grown_trans h1 h2
  laterS := oneSide_later
  laterD hg h := allNew_later h hg.1 hg.2
  sub := allNew_oneSide
  atom _ := fun _ h => absurd h atom_part
  exist _ h := h.1
  kid _ h hk := by
    refine ⟨exist_kid h.1 hk, ?_⟩
    rcases h.2 with h1 | h1
    · exact Or.inl (fun l hl => h1 l (kid_part hk hl))
    · exact Or.inr (fun l hl => h1 l (kid_part hk hl))
  alloc {m o} hG h := by
    intro l hl
    have hlen : (Mem.alloc m o).1.length = m.length + 1 := by simp [Mem.alloc]
    have := hG.1
    rcases part_alloc (fun k hk => allNew_exist (h k hk)) hl with rfl | ⟨k, hk, hp⟩
    · omega
    · have := h k hk l hp
      omega
  copy hG h := fun l hl => ⟨Nat.le_trans hG.1 ((deepcopy_new h.1).2.2 l hl).1, ((deepcopy_new h.1).2.2 l hl).2.1⟩
  loads {s m m' v} hG h := by
    have h1 := hW.loads s m m' v h
    exact ⟨h1.1, allNew_oneSide (allNew_earlier h1.2 hG.1)⟩
  jin hf hG hS h := oneSide_selects hG hS (hW.jin _ _ _ hf _ _ _ _ hS.1 h)
  coerce hf hG hS h := oneSide_selects hG hS (hW.coerce _ _ _ hf _ _ _ _ hS.1 h)
  typeFromJson hf hG hS h := oneSide_selects hG hS (hW.typeFromJson _ _ hf _ _ _ _ hS.1 h)
  make hG hS h := by
    have h1 := hW.make _ _ _ _ _ hS.1 h
    exact ⟨⟨h1.1, h1.2.1⟩, allNew_earlier h1.2.2 hG.1⟩
  default {c p f m m' v} hf hG h := by
    have h1 := hW.default c p f hf m m' v h
    exact ⟨h1.1, allNew_earlier h1.2 hG.1⟩
  keepT _ hG hS h := by
    obtain ⟨t, _, ht⟩ := List.any_eq_true.mp h
    exact inst_new hW hd hr hG hS ht
  keepU {c p m v} hp _ _ ht hD := hD (hW.typed c p hp ht).1 (hW.typed c p hp ht).2
  item {it m v} hG hS h := by
    cases it with
    | one t => exact inst_new hW hd hr hG hS h
    | tup ts =>
      obtain ⟨t, _, ht⟩ := List.any_eq_true.mp h
      exact inst_new hW hd hr hG hS ht
  unk {c p k m v} hp hj hn hk _ _ := by
    rw [hW.unknown c p hp hj hn] at hk
    cases hk

end Normalize.JsonInMem
