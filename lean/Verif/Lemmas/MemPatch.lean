import Verif.Lemmas.MemCopy

/-! What patching and multi-deletes do to memory. -/

namespace Normalize.Mem

open Normalize.Spec

theorem fetch_steps {E : Env} {x : Ref} (fss : List FS) : ∀ (m m' : Mem) (l : List (FS × Option Ref)) (A : Nat → Prop),
    Reg m A → In A x → fetch E x fss m = .ok (m', l) →
    ∃ G, Steps (fun _ => False) A m m' G ∧ ∀ e ∈ l, ∀ v ∈ e.2, In G v := by
  induction fss with
  | nil =>
    intro m m' l A hA _ h
    cases h
    exact ⟨A, Steps.refl hA, by simp⟩
  | cons fs r ih =>
    intro m m' l A hA hx h
    simp only [fetch] at h
    split at h
    · rename_i m1 v hv
      split at h
      · cases h
      · rename_i hr
        cases h
        obtain ⟨G1, h1, hv1⟩ := get_steps E fs x m m1 v A hA hx hv
        obtain ⟨G, h2, hl⟩ := ih m1 _ _ G1 h1.reg (hx.mono h1.sub) hr
        refine ⟨G, h1.trans h2 (fun _ h _ => h), ?_⟩
        intro e he v' hv'
        rcases List.mem_cons.mp he with rfl | he
        · cases hv'; exact hv1.mono h2.sub
        · exact hl e he v' hv'
    · split at h
      · split at h
        · cases h
        · rename_i hr
          cases h
          obtain ⟨G, h2, hl⟩ := ih m _ _ A hA hx hr
          refine ⟨G, h2, ?_⟩
          intro e he v' hv'
          rcases List.mem_cons.mp he with rfl | he
          · cases hv'
          · exact hl e he v' hv'
      · cases h

/-- A region that nothing is written to. -/
theorem reg_frame {m m' : Mem} {A S G : Nat → Prop} (h : Steps A A m m' G) (hS : Reg m S)
    (hd : ∀ l, ¬ (A l ∧ S l)) : Reg m' S where
  bdd l hl := Nat.lt_of_lt_of_le (hS.bdd l hl) h.len
  closed l o hl ho k hk := by
    rw [h.frame l (hS.bdd l hl) (fun ha => hd l ⟨ha, hl⟩)] at ho
    exact hS.closed l o hl ho k hk

theorem disjoint_frame {m m' : Mem} {A S G : Nat → Prop} (h : Steps A A m m' G) (hS : Reg m S)
    (hd : ∀ l, ¬ (A l ∧ S l)) : ∀ l, ¬ (G l ∧ S l) :=
  fun l ⟨hg, hs⟩ => hd l ⟨h.old l hg (hS.bdd l hs), hs⟩

theorem storeAll_copy_steps {E : Env} (hE : Polite E) {f : Mem → Ref → Except Exc (Mem × Ref)} (hf : Copier f) {x : Ref}
    (es : List (FS × Option Ref)) : ∀ (m : Mem) (A S : Nat → Prop), Reg m A → In A x → Reg m S →
    (∀ l, ¬ (A l ∧ S l)) → (∀ e ∈ es, ∀ v ∈ e.2, In S v) →
    ∃ G, Steps A A m (storeAll E (some f) es x m).2 G := by
  induction es with
  | nil => intro m A S hA _ _ _ _; exact ⟨A, Steps.refl hA⟩
  | cons e es ih =>
    intro m A S hA hx hS hd hv
    obtain ⟨fs, s⟩ := e
    cases s with
    | none =>
      obtain ⟨G1, h1⟩ := delete_steps E fs x m A hA trivial hx
      simp only [storeAll]
      split
      · rename_i he; rw [he] at h1; exact ⟨G1, h1⟩
      · rename_i m1 he; rw [he] at h1
        obtain ⟨G, h2⟩ := ih m1 G1 S h1.reg (hx.mono h1.sub) (reg_frame h1 hS hd) (disjoint_frame h1 hS hd)
          (fun e he => hv e (by simp [he]))
        exact ⟨G, h1.then h2⟩
    | some v =>
      simp only [storeAll]
      split
      · exact ⟨A, Steps.refl hA⟩
      · rename_i m1 v1 hc
        have hvS : In S v := hv (fs, some v) (by simp) v rfl
        have hfr := hf m v m1 v1 (hS.exist hvS) hc
        have hmk : Makes m [] m1 [v1] :=
          ⟨hfr.1, hfr.2.1, fun r hr l hp => Or.inl (hfr.2.2 l (by rw [List.mem_singleton.mp hr] at hp; exact hp))⟩
        obtain ⟨G0, h0, hv0⟩ := makes_steps hA (args := []) (by simp) hmk
        have h0 : Steps A A m m1 G0 := h0.mono (fun _ h => h.elim)
        obtain ⟨G1, h1⟩ := post_steps hE v1 fs x m1 G0 h0.reg (hv0 v1 (by simp)) (hx.mono h0.sub)
        have h01 := h0.then h1
        split
        · rename_i he; rw [he] at h01; exact ⟨G1, h01⟩
        · rename_i m2 he; rw [he] at h01
          obtain ⟨G, h2⟩ := ih m2 G1 S h01.reg (hx.mono h01.sub) (reg_frame h01 hS hd) (disjoint_frame h01 hS hd)
            (fun e he => hv e (by simp [he]))
          exact ⟨G, h01.then h2⟩

theorem deep_copier : Copier deep := by
  intro m r m' r' hr h
  injection h with h
  have := fresh_deepcopy hr
  rw [h] at this
  exact ⟨this.1, this.2.1, this.2.2 r' (by simp)⟩

theorem deleteAll_steps {E : Env} {x : Ref} (fss : List FS) : ∀ (m : Mem) (A : Nat → Prop), Reg m A → In A x →
    ∃ G, Steps A A m (deleteAll E fss x m).2 G := by
  induction fss with
  | nil => intro m A hA _; exact ⟨A, Steps.refl hA⟩
  | cons fs r ih =>
    intro m A hA hx
    obtain ⟨G1, h1⟩ := delete_steps E fs x m A hA trivial hx
    simp only [deleteAll]
    split
    · rename_i e m1 he
      rw [he] at h1
      split
      · obtain ⟨G, h2⟩ := ih m1 G1 h1.reg (hx.mono h1.sub)
        exact ⟨G, h1.then h2⟩
      · exact ⟨G1, h1⟩
    · rename_i m1 he
      rw [he] at h1
      obtain ⟨G, h2⟩ := ih m1 G1 h1.reg (hx.mono h1.sub)
      exact ⟨G, h1.then h2⟩

end Normalize.Mem
