import Verif.Spec.VisitorLazy

/-! # C134: where the visitor says that it is -/

namespace Normalize.VisitGen

open Normalize.Spec

/-- C134, in full: whatever is done with the generators, `apply` and the filter are told where the value is. -/
def C134_statement : Prop :=
  ∀ (keep : List Comp → Bool) (v : Node) (es : List Ev), PathsRight (run keep (visiting v) es)

/-- What is pushed. -/
def keyOf : Option (Comp × List Nat) → List Comp
  | some c => [c.1]
  | none => []

/-- What is so at any time. -/
structure Inv (s : St) : Prop where
  root : s.cue 0 = [] ∧ 0 < s.nV
  fresh : ∀ g, s.nG ≤ g → (s.gen g).own = none ∧ (s.gen g).cur = none
  own : ∀ g r, (s.gen g).own = some r → 0 < r ∧ r < s.nV ∧ s.cue r = (s.gen g).place ++ keyOf (s.gen g).cur
  inj : ∀ g h r, (s.gen g).own = some r → (s.gen h).own = some r → g = h
  cur : ∀ g k l, (s.gen g).cur = some (k, l) → ∃ r, (s.gen g).own = some r ∧
    ∀ h ∈ l, h < s.nG ∧ (s.gen h).parent = r ∧ (s.gen h).place = (s.gen g).place ++ [k]
  top : ∀ g, g < s.nG → (s.gen g).parent = 0 → (s.gen g).place = []
  outer : ∀ f ∈ s.stack, f.gen = none → f.visitor = 0 ∧ f.place = []
  inner : ∀ f ∈ s.stack, ∀ g, f.gen = some g → g < s.nG ∧ (s.gen g).own = some f.visitor ∧
    ∃ k l, (s.gen g).cur = some (k, l) ∧ f.place = (s.gen g).place ++ [k]
  apart : (s.stack.filterMap (·.gen)).Nodup
  right : PathsRight s

theorem upd_same {α : Type} (f : Nat → α) (i : Nat) (a : α) : upd f i a i = a := by simp [upd]

theorem upd_ne {α : Type} (f : Nat → α) {i j : Nat} (a : α) (h : j ≠ i) : upd f i a j = f j := by simp [upd, h]

/-- A generator that is started in time has the right cue. -/
theorem Inv.start {s : St} (I : Inv s) {g : Nat} (hg : g < s.nG) (ht : (s.gen g).own = none → StillThere s g) :
    Inv (start s g) ∧ (start s g).nG = s.nG ∧ (start s g).stack = s.stack ∧ ∃ r, ((start s g).gen g).own = some r := by
  unfold VisitGen.start
  cases ho : (s.gen g).own with
  | some r => exact ⟨I, rfl, rfl, r, ho⟩
  | none =>
    have hc : (s.gen g).cur = none := by
      cases hc : (s.gen g).cur with
      | none => rfl
      | some c => obtain ⟨r, hr, _⟩ := I.cur g c.1 c.2 hc; rw [ho] at hr; cases hr
    have hcue : s.cue (s.gen g).parent = (s.gen g).place := by
      rcases ht ho with h | ⟨g', _, c, h1, h2⟩
      · rw [h, I.root.1, I.top g hg h]
      · obtain ⟨r, hr, hl⟩ := I.cur g' c.1 c.2 h1
        obtain ⟨_, h3, h4⟩ := hl g h2
        rw [h3, (I.own g' r hr).2.2, h4, h1]
        rfl
    have hgen : ∀ j, (upd s.gen g ((s.gen g).withOwn s.nV) j).cur = (s.gen j).cur ∧
        (upd s.gen g ((s.gen g).withOwn s.nV) j).parent = (s.gen j).parent ∧
        (upd s.gen g ((s.gen g).withOwn s.nV) j).place = (s.gen j).place := by
      intro j
      by_cases h : j = g
      · subst h; simp [upd, Gen.withOwn]
      · simp [upd, h]
    have hown : ∀ j r, (upd s.gen g ((s.gen g).withOwn s.nV) j).own = some r →
        (j = g ∧ r = s.nV) ∨ (j ≠ g ∧ (s.gen j).own = some r) := by
      intro j r hr
      by_cases h : j = g
      · subst h; simp [upd, Gen.withOwn] at hr; exact .inl ⟨rfl, hr.symm⟩
      · simp [upd, h] at hr; exact .inr ⟨h, hr⟩
    have hkeep : ∀ j r, (s.gen j).own = some r → (upd s.gen g ((s.gen g).withOwn s.nV) j).own = some r := by
      intro j r hr
      have : j ≠ g := by rintro rfl; rw [ho] at hr; cases hr
      simp [upd, this, hr]
    dsimp only
    refine ⟨⟨?_, ?_, ?_, ?_, ?_, ?_, I.outer, ?_, I.apart, I.right⟩, rfl, rfl, s.nV, by simp [upd, Gen.withOwn]⟩
    · exact ⟨by dsimp only; rw [upd_ne _ _ (by have := I.root.2; omega)]; exact I.root.1, Nat.succ_pos _⟩
    · intro j hj
      have : j ≠ g := by show j ≠ g; have : s.nG ≤ j := hj; omega
      simpa [upd, this] using I.fresh j hj
    · intro j r hr
      simp only [(hgen j).1, (hgen j).2.2]
      rcases hown j r hr with ⟨rfl, rfl⟩ | ⟨hj, hr⟩
      · refine ⟨I.root.2, Nat.lt_succ_self _, ?_⟩
        simp [upd, hcue, hc, keyOf]
      · obtain ⟨h1, h2, h3⟩ := I.own j r hr
        exact ⟨h1, Nat.lt_succ_of_lt h2, by rw [upd_ne _ _ (by omega)]; exact h3⟩
    · intro j k r hj hk
      rcases hown j r hj with ⟨h1, h2⟩ | ⟨h1, h2⟩ <;> rcases hown k r hk with ⟨h3, h4⟩ | ⟨h3, h4⟩
      · rw [h1, h3]
      · have := (I.own k r h4).2.1; omega
      · have := (I.own j r h2).2.1; omega
      · exact I.inj j k r h2 h4
    · intro j k l hj
      simp only [(hgen j).1] at hj
      obtain ⟨r, hr, hl⟩ := I.cur j k l hj
      refine ⟨r, hkeep j r hr, fun h hh => ?_⟩
      simp only [(hgen h).2.1, (hgen h).2.2, (hgen j).2.2]
      exact hl h hh
    · intro j hj
      simp only [(hgen j).2.1, (hgen j).2.2]
      exact I.top j hj
    · intro f hf j hj
      obtain ⟨h1, h2, k, l, h3, h4⟩ := I.inner f hf j hj
      refine ⟨h1, hkeep j _ h2, k, l, ?_⟩
      simp only [(hgen j).1, (hgen j).2.2]
      exact ⟨h3, h4⟩

/-- A generator that no call waits for moves to another item, or to none. -/
theorem Inv.moveTo {s : St} (I : Inv s) {g r : Nat} (hr : (s.gen g).own = some r) (hs : g ∉ s.stack.filterMap (·.gen))
    (rest : List (Comp × Node)) (k : Option Comp) :
    Inv (moveTo s g r ((s.gen g).place ++ k.toList) rest (k.map (fun k => (k, [])))) := by
  have hgen : ∀ j, (upd s.gen g ((s.gen g).withPos rest (k.map (fun k => (k, [])))) j).own = (s.gen j).own ∧
      (upd s.gen g ((s.gen g).withPos rest (k.map (fun k => (k, [])))) j).parent = (s.gen j).parent ∧
      (upd s.gen g ((s.gen g).withPos rest (k.map (fun k => (k, [])))) j).place = (s.gen j).place := by
    intro j
    by_cases h : j = g
    · subst h; simp [upd, Gen.withPos]
    · simp [upd, h]
  unfold VisitGen.moveTo
  have hg : g < s.nG := Nat.lt_of_not_le fun h => by rw [(I.fresh g h).1] at hr; cases hr
  refine ⟨?_, ?_, ?_, ?_, ?_, ?_, I.outer, ?_, I.apart, I.right⟩
  · exact ⟨by dsimp only; rw [upd_ne _ _ (by have := (I.own g r hr).1; omega)]; exact I.root.1, I.root.2⟩
  · intro j hj
    have : j ≠ g := by have : s.nG ≤ j := hj; omega
    simpa [upd, this] using I.fresh j hj
  · intro j q hq
    simp only [(hgen j).1, (hgen j).2.2] at hq ⊢
    obtain ⟨h1, h2, h3⟩ := I.own j q hq
    refine ⟨h1, h2, ?_⟩
    by_cases h : j = g
    · subst h
      rw [hr] at hq
      cases hq
      cases k <;> simp [upd, keyOf, Gen.withPos]
    · have : q ≠ r := by rintro rfl; exact h (I.inj j g q hq hr)
      rw [upd_ne _ _ this, upd_ne _ _ h]
      exact h3
  · intro j i q h1 h2
    simp only [(hgen _).1] at h1 h2
    exact I.inj j i q h1 h2
  · intro j k' l hj
    by_cases h : j = g
    · subst h
      simp only [upd_same, Gen.withPos] at hj
      cases k with
      | none => simp at hj
      | some k =>
        simp only [Option.map_some, Option.some.injEq, Prod.mk.injEq] at hj
        obtain ⟨rfl, rfl⟩ := hj
        exact ⟨r, by rw [(hgen j).1]; exact hr, by simp⟩
    · dsimp only at hj ⊢
      rw [upd_ne _ _ h] at hj
      obtain ⟨q, hq, hl⟩ := I.cur j k' l hj
      refine ⟨q, by rw [(hgen j).1]; exact hq, fun i hi => ?_⟩
      simp only [(hgen i).2.1, (hgen i).2.2, (hgen j).2.2]
      exact hl i hi
  · intro j hj
    simp only [(hgen j).2.1, (hgen j).2.2]
    exact I.top j hj
  · intro f hf j hj
    have : j ≠ g := by
      rintro rfl
      exact hs (List.mem_filterMap.2 ⟨f, hf, hj⟩)
    obtain ⟨h1, h2, h3⟩ := I.inner f hf j hj
    dsimp only
    rw [upd_ne _ _ this]
    exact ⟨h1, h2, h3⟩

/-- A generator is made for a call. -/
theorem Inv.handOut {s : St} (I : Inv s) {f : Frame} (hf : ∃ f' ∈ s.stack, f'.gen = f.gen ∧ f'.visitor = f.visitor ∧ f'.place = f.place)
    (c : Bool) (xs : List (Comp × Node)) : Inv (handOut s f c xs) := by
  obtain ⟨f', hf', hg', hv', hp'⟩ := hf
  have hlt : ∀ g, f.gen = some g → g < s.nG := fun g hg => (I.inner f' hf' g (hg'.trans hg)).1
  generalize hN : ({ isColl := c, parent := f.visitor, rest := xs, place := f.place } : Gen) = N
  have hNo : N.own = none := by rw [← hN]
  have hNc : N.cur = none := by rw [← hN]
  have hNp : N.parent = f.visitor := by rw [← hN]
  have hNq : N.place = f.place := by rw [← hN]
  have hnew : (VisitGen.handOut s f c xs).gen s.nG = N := by
    rw [← hN]; simp [VisitGen.handOut, upd]
  have hold : ∀ j, j ≠ s.nG → ((VisitGen.handOut s f c xs).gen j).own = (s.gen j).own ∧
      ((VisitGen.handOut s f c xs).gen j).parent = (s.gen j).parent ∧ ((VisitGen.handOut s f c xs).gen j).place = (s.gen j).place ∧
      ((VisitGen.handOut s f c xs).gen j).cur = if f.gen = some j then (s.gen j).cur.map (fun c => (c.1, s.nG :: c.2)) else (s.gen j).cur := by
    intro j hj
    simp only [VisitGen.handOut, upd_ne _ _ hj]
    cases hg : f.gen with
    | none => simp
    | some g =>
      by_cases h : j = g
      · subst h; simp [upd, remember]
      · have : ¬ g = j := fun h' => h h'.symm
        simp [upd, h, this]
  have hkey : ∀ j, j ≠ s.nG → keyOf ((VisitGen.handOut s f c xs).gen j).cur = keyOf (s.gen j).cur := by
    intro j hj
    rw [(hold j hj).2.2.2]
    split
    · cases (s.gen j).cur <;> rfl
    · rfl
  have hown : ∀ j r, ((VisitGen.handOut s f c xs).gen j).own = some r → j ≠ s.nG ∧ (s.gen j).own = some r := by
    intro j r hr
    by_cases h : j = s.nG
    · rw [h, hnew, hNo] at hr; cases hr
    · exact ⟨h, (hold j h).1 ▸ hr⟩
  refine ⟨I.root, ?_, ?_, ?_, ?_, ?_, I.outer, ?_, I.apart, I.right⟩
  · intro j hj
    have hj : s.nG + 1 ≤ j := hj
    have := hold j (by omega)
    have hfr := I.fresh j (by omega)
    refine ⟨this.1.trans hfr.1, ?_⟩
    rw [this.2.2.2, hfr.2]
    simp
  · intro j r hr
    obtain ⟨h, hr⟩ := hown j r hr
    rw [hkey j h, (hold j h).2.2.1]
    exact I.own j r hr
  · intro j i r h1 h2
    exact I.inj j i r (hown j r h1).2 (hown i r h2).2
  · intro j k l hj
    by_cases h : j = s.nG
    · rw [h, hnew, hNc] at hj; cases hj
    · rw [(hold j h).2.2.2] at hj
      have hpar : ∀ i, i < s.nG → ((VisitGen.handOut s f c xs).gen i).parent = (s.gen i).parent ∧
          ((VisitGen.handOut s f c xs).gen i).place = (s.gen i).place := fun i hi =>
        ⟨(hold i (by omega)).2.1, (hold i (by omega)).2.2.1⟩
      rw [(hold j h).1, (hold j h).2.2.1]
      split at hj
      · rename_i hfj
        obtain ⟨h1, h2, k0, l0, h3, h4⟩ := I.inner f' hf' j (hg'.trans hfj)
        rw [h3] at hj
        simp only [Option.map_some, Option.some.injEq, Prod.mk.injEq] at hj
        obtain ⟨rfl, rfl⟩ := hj
        obtain ⟨r, hr, hl⟩ := I.cur j k0 l0 h3
        refine ⟨r, hr, fun i hi => ?_⟩
        rcases List.mem_cons.1 hi with rfl | hi
        · rw [hnew, hNp, hNq, ← hv', ← hp', h4]
          rw [hr] at h2
          exact ⟨Nat.lt_succ_self _, (Option.some.inj h2).symm, rfl⟩
        · obtain ⟨h5, h6, h7⟩ := hl i hi
          rw [(hpar i h5).1, (hpar i h5).2]
          exact ⟨Nat.lt_succ_of_lt h5, h6, h7⟩
      · obtain ⟨r, hr, hl⟩ := I.cur j k l hj
        refine ⟨r, hr, fun i hi => ?_⟩
        obtain ⟨h5, h6, h7⟩ := hl i hi
        rw [(hpar i h5).1, (hpar i h5).2]
        exact ⟨Nat.lt_succ_of_lt h5, h6, h7⟩
  · intro j hj hp
    by_cases h : j = s.nG
    · rw [h, hnew, hNp] at hp
      rw [h, hnew, hNq]
      cases hg : f.gen with
      | none => rw [← hp']; exact (I.outer f' hf' (hg'.trans hg)).2
      | some g =>
        have := (I.inner f' hf' g (hg'.trans hg)).2.1
        rw [hv', hp] at this
        exact absurd (I.own g 0 this).1 (by omega)
    · rw [(hold j h).2.1] at hp
      rw [(hold j h).2.2.1]
      exact I.top j (by have : j < s.nG + 1 := hj; omega) hp
  · intro f0 hf0 g hg
    obtain ⟨h1, h2, k, l, h3, h4⟩ := I.inner f0 hf0 g hg
    have h := hold g (by omega)
    refine ⟨Nat.lt_succ_of_lt h1, h.1.trans h2, k, ?_⟩
    rw [h.2.2.1, h.2.2.2, h3]
    split
    · exact ⟨_, rfl, h4⟩
    · exact ⟨_, rfl, h4⟩

theorem handOut_stack (s : St) (f : Frame) (c : Bool) (xs : List (Comp × Node)) : (handOut s f c xs).stack = s.stack := rfl

/-- A call is added. -/
theorem Inv.push {s : St} (I : Inv s) (f : Frame) (ho : f.gen = none → f.visitor = 0 ∧ f.place = [])
    (hi : ∀ g, f.gen = some g → g < s.nG ∧ (s.gen g).own = some f.visitor ∧ g ∉ s.stack.filterMap (·.gen) ∧
      ∃ k l, (s.gen g).cur = some (k, l) ∧ f.place = (s.gen g).place ++ [k]) : Inv { s with stack := f :: s.stack } := by
  refine ⟨I.root, I.fresh, I.own, I.inj, I.cur, I.top, ?_, ?_, ?_, I.right⟩
  · intro f0 hf0 h
    rcases List.mem_cons.1 hf0 with rfl | hf0
    · exact ho h
    · exact I.outer f0 hf0 h
  · intro f0 hf0 g hg
    rcases List.mem_cons.1 hf0 with rfl | hf0
    · obtain ⟨h1, h2, _, h3⟩ := hi g hg
      exact ⟨h1, h2, h3⟩
    · exact I.inner f0 hf0 g hg
  · show ((f :: s.stack).filterMap (·.gen)).Nodup
    cases hg : f.gen with
    | none => rw [List.filterMap_cons_none hg]; exact I.apart
    | some g =>
      rw [List.filterMap_cons_some hg]
      exact List.nodup_cons.2 ⟨(hi g hg).2.2.1, I.apart⟩

/-- A call is over. -/
theorem Inv.pop {s : St} (I : Inv s) {f : Frame} {st : List Frame} (h : s.stack = f :: st) : Inv { s with stack := st } := by
  have hm : ∀ f0 ∈ st, f0 ∈ s.stack := fun f0 h0 => by rw [h]; exact List.mem_cons_of_mem _ h0
  refine ⟨I.root, I.fresh, I.own, I.inj, I.cur, I.top, fun f0 h0 => I.outer f0 (hm f0 h0), fun f0 h0 => I.inner f0 (hm f0 h0), ?_,
    I.right⟩
  have := I.apart
  rw [h] at this
  exact (List.Sublist.nodup ((List.sublist_cons_self f st).filterMap _) this)

theorem Inv.begin {s : St} (I : Inv s) (g : Option Nat) (v : Nat) (p : List Comp) (x : Node)
    (ho : g = none → v = 0 ∧ p = [])
    (hi : ∀ g', g = some g' → g' < s.nG ∧ (s.gen g').own = some v ∧ g' ∉ s.stack.filterMap (·.gen) ∧
      ∃ k l, (s.gen g').cur = some (k, l) ∧ p = (s.gen g').place ++ [k]) : Inv (begin s g v p x) := by
  cases x with
  | leaf => exact I
  | rcd ps => exact (I.push ⟨g, v, p, none⟩ ho hi).handOut ⟨_, List.mem_cons_self, rfl, rfl, rfl⟩ _ _
  | coll xs ps => exact (I.push ⟨g, v, p, ps⟩ ho hi).handOut ⟨_, List.mem_cons_self, rfl, rfl, rfl⟩ _ _

theorem Inv.applied {s : St} (I : Inv s) {xs ys : List (List Comp × List Comp)} (hx : ∀ e ∈ xs, e.2 = e.1) (hy : ∀ e ∈ ys, e.2 = e.1) :
    Inv { s with applied := s.applied ++ xs, asked := s.asked ++ ys } := by
  refine ⟨I.root, I.fresh, I.own, I.inj, I.cur, I.top, I.outer, I.inner, I.apart, ?_, ?_⟩
  · intro e he
    rcases List.mem_append.1 he with h | h
    · exact I.right.1 e h
    · exact hx e h
  · intro e he
    rcases List.mem_append.1 he with h | h
    · exact I.right.2 e h
    · exact hy e h

theorem Inv.advance {s : St} (I : Inv s) {g r : Nat} (hg : g < s.nG) (hr : (s.gen g).own = some r)
    (hs : g ∉ s.stack.filterMap (·.gen)) (xs : List (Comp × Node)) : Inv (advance s g r (s.gen g).place xs) := by
  have hpos : ∀ rest k, ((VisitGen.moveTo s g r ((s.gen g).place ++ [k]) rest (some (k, []))).gen g) = (s.gen g).withPos rest (some (k, [])) :=
    fun rest k => upd_same _ _ _
  cases xs with
  | nil =>
    have := I.moveTo hr hs [] none
    simp only [Option.toList_none, List.append_nil, Option.map_none] at this
    exact this
  | cons e rest =>
    obtain ⟨k, x⟩ := e
    have hb : Inv (VisitGen.begin (VisitGen.moveTo s g r ((s.gen g).place ++ [k]) rest (some (k, []))) (some g) r ((s.gen g).place ++ [k]) x) := by
      have hm : Inv (VisitGen.moveTo s g r ((s.gen g).place ++ [k]) rest (some (k, []))) := I.moveTo hr hs rest (some k)
      refine hm.begin (some g) r _ x (fun h => by cases h) ?_
      rintro g' ⟨⟩
      refine ⟨hg, ?_, hs, k, [], ?_, ?_⟩
      · rw [hpos]; exact hr
      · rw [hpos]; rfl
      · rw [hpos]; rfl
    cases x with
    | leaf =>
      have h1 : Inv (if (s.gen g).isColl then VisitGen.moveTo s g r (s.gen g).place rest none
          else VisitGen.moveTo s g r ((s.gen g).place ++ [k]) rest (some (k, []))) := by
        split
        · simpa using I.moveTo hr hs rest none
        · exact I.moveTo hr hs rest (some k)
      have h2 := h1.applied (xs := [((s.gen g).place ++ [k], (s.gen g).place ++ [k])]) (ys := []) (by simp) (by simp)
      have ha : (if (s.gen g).isColl then VisitGen.moveTo s g r (s.gen g).place rest none
          else VisitGen.moveTo s g r ((s.gen g).place ++ [k]) rest (some (k, []))).applied = s.applied := by split <;> rfl
      rw [ha, List.append_nil] at h2
      exact h2
    | rcd ps => exact hb
    | coll ys ps => exact hb

theorem Inv.resume (keep : List Comp → Bool) {s : St} (I : Inv s) {g : Nat} (hg : g < s.nG)
    (hs : g ∉ s.stack.filterMap (·.gen)) : Inv (resume keep s g) := by
  unfold VisitGen.resume
  cases hr : (s.gen g).own with
  | none => exact I
  | some r =>
    have hp : popped s g r = (s.gen g).place := by
      unfold popped
      rw [(I.own g r hr).2.2]
      cases (s.gen g).cur <;> simp [keyOf]
    dsimp only
    rw [hp]
    have h1 := I.applied (xs := []) (ys := questions keep s g (s.gen g).place) (by simp) (by
      intro e he
      unfold questions at he
      split at he
      · simp at he
      · obtain ⟨e', _, rfl⟩ := List.mem_map.1 he
        rfl)
    rw [List.append_nil] at h1
    exact h1.advance hg hr hs _

theorem Inv.return_ {s : St} (I : Inv s) : Inv (return_ s) := by
  unfold VisitGen.return_
  cases hst : s.stack with
  | nil => exact I
  | cons f st =>
    dsimp only
    cases hp : f.pending with
    | some ps =>
      dsimp only
      have h1 : Inv { s with stack := { f with pending := none } :: st } := by
        have := I.pop hst
        refine this.push { f with pending := none } (fun h => I.outer f (by rw [hst]; simp) h) ?_
        intro g hg
        obtain ⟨h1, h2, h3⟩ := I.inner f (by rw [hst]; simp) g hg
        refine ⟨h1, h2, ?_, h3⟩
        have hn := I.apart
        rw [hst, List.filterMap_cons_some (by exact hg)] at hn
        exact (List.nodup_cons.1 hn).1
      exact h1.handOut ⟨_, List.mem_cons_self, rfl, rfl, rfl⟩ _ _
    | none =>
      cases hg : f.gen with
      | none => exact I.pop hst
      | some g =>
        dsimp only
        split
        · obtain ⟨h1, h2, k, l, h3, h4⟩ := I.inner f (by rw [hst]; simp) g hg
          have hn := I.apart
          rw [hst, List.filterMap_cons_some (by exact hg)] at hn
          have := (I.pop hst).moveTo (g := g) (r := f.visitor) h2 (List.nodup_cons.1 hn).1 (s.gen g).rest none
          have hc : (s.cue f.visitor).dropLast = (s.gen g).place := by
            rw [(I.own g _ h2).2.2, h3]
            simp [keyOf]
          rw [hc]
          simpa using this
        · exact I.pop hst

theorem Inv.step (keep : List Comp → Bool) {s : St} (I : Inv s) {e : Ev} (h : InTime s e) : Inv (step keep s e) := by
  cases e with
  | ret => exact I.return_
  | next g =>
    unfold VisitGen.step
    dsimp only
    split
    · rename_i hg
      obtain ⟨h1, h2, h3, r, _⟩ := I.start hg.1 (h hg.1)
      refine h1.resume keep (by rw [h2]; exact hg.1) ?_
      rw [h3]
      intro hm
      obtain ⟨f, hf, hfg⟩ := List.mem_filterMap.1 hm
      exact hg.2 (List.mem_map.2 ⟨f, hf, hfg⟩)
    · exact I

theorem inv_visiting (v : Node) : Inv (visiting v) := by
  have h0 : Inv {} := by
    refine ⟨⟨rfl, by decide⟩, fun _ _ => ⟨rfl, rfl⟩, ?_, ?_, ?_, ?_, ?_, ?_, ?_, ?_⟩
    · intro g r h; cases h
    · intro g h r h'; cases h'
    · intro g k l h; cases h
    · intro g h; cases h
    · intro f hf; cases hf
    · intro f hf; cases hf
    · exact List.nodup_nil
    · exact ⟨fun e he => absurd he (by simp), fun e he => absurd he (by simp)⟩
  exact h0.begin none 0 [] v (fun _ => ⟨rfl, rfl⟩) (fun _ h => by cases h)

theorem inv_run (keep : List Comp → Bool) : ∀ (es : List Ev) (s : St), Inv s → AllSteps InTime keep s es → Inv (run keep s es)
  | [], _, I, _ => I
  | e :: es, _, I, h => inv_run keep es _ (I.step keep h.1) h.2

/-- C134, what holds: if no generator is started when the visit has gone on to another item. -/
theorem C134_partial (keep : List Comp → Bool) (v : Node) (es : List Ev) (h : AllSteps InTime keep (visiting v) es) :
    PathsRight (run keep (visiting v) es) :=
  (inv_run keep es _ (inv_visiting v) h).right

/-! ## Consumers that start everything they are given -/

/-- Generators that are not started are the outermost object's, or were made for an item that some call is about. -/
def Waiting (s : St) : Prop :=
  ∀ h < s.nG, (s.gen h).own = none → (s.gen h).parent = 0 ∨
    ∃ f ∈ s.stack, ∃ g, f.gen = some g ∧ ∃ c, (s.gen g).cur = some c ∧ h ∈ c.2

theorem Waiting.there {s : St} (I : Inv s) (W : Waiting s) {h : Nat} (hl : h < s.nG) (ho : (s.gen h).own = none) : StillThere s h := by
  rcases W h hl ho with h1 | ⟨f, hf, g, hg, c, hc, hm⟩
  · exact .inl h1
  · exact .inr ⟨g, (I.inner f hf g hg).1, c, hc, hm⟩

theorem handOut_new (s : St) (f : Frame) (c : Bool) (xs : List (Comp × Node)) :
    ((handOut s f c xs).gen s.nG).parent = f.visitor := by simp [handOut, upd]

theorem handOut_old (s : St) (f : Frame) (c : Bool) (xs : List (Comp × Node)) {j : Nat} (hj : j ≠ s.nG) :
    ((handOut s f c xs).gen j).own = (s.gen j).own ∧ ((handOut s f c xs).gen j).parent = (s.gen j).parent ∧
    ((handOut s f c xs).gen j).cur = if f.gen = some j then (s.gen j).cur.map (fun c => (c.1, s.nG :: c.2)) else (s.gen j).cur := by
  simp only [handOut, upd_ne _ _ hj]
  cases hg : f.gen with
  | none => simp
  | some g =>
    by_cases h : j = g
    · subst h; simp [upd, remember]
    · have : ¬ g = j := fun h' => h h'.symm
      simp [upd, h, this]

theorem Waiting.handOut {s : St} (I : Inv s) (W : Waiting s) {f : Frame}
    (hf : ∃ f' ∈ s.stack, f'.gen = f.gen ∧ f'.visitor = f.visitor) (c : Bool) (xs : List (Comp × Node)) :
    Waiting (handOut s f c xs) := by
  obtain ⟨f', hf', hg', hv'⟩ := hf
  intro h hl ho
  by_cases hn : h = s.nG
  · subst hn
    cases hg : f.gen with
    | none => exact .inl (by rw [handOut_new, ← hv']; exact (I.outer f' hf' (hg'.trans hg)).1)
    | some g =>
      obtain ⟨h1, _, k, l, h2, _⟩ := I.inner f' hf' g (hg'.trans hg)
      refine .inr ⟨f', hf', g, hg'.trans hg, (k, s.nG :: l), ?_, by simp⟩
      rw [(handOut_old s f c xs (by omega)).2.2, if_pos hg, h2]
      rfl
  · have hl : h < s.nG + 1 := hl
    rw [(handOut_old s f c xs hn).1] at ho
    rw [(handOut_old s f c xs hn).2.1]
    rcases W h (by omega) ho with h1 | ⟨f0, hf0, g, hg, d, hd, hm⟩
    · exact .inl h1
    · have := (I.inner f0 hf0 g hg).1
      refine .inr ⟨f0, hf0, g, hg, ?_⟩
      rw [(handOut_old s f c xs (by omega)).2.2, hd]
      split
      · exact ⟨_, rfl, List.mem_cons_of_mem _ hm⟩
      · exact ⟨_, rfl, hm⟩

theorem Waiting.moveTo {s : St} (W : Waiting s) {g r : Nat} (hs : g ∉ s.stack.filterMap (·.gen)) (cue : List Comp)
    (rest : List (Comp × Node)) (cur : Option (Comp × List Nat)) : Waiting (moveTo s g r cue rest cur) := by
  have hgen : ∀ j, ((VisitGen.moveTo s g r cue rest cur).gen j).own = (s.gen j).own ∧
      ((VisitGen.moveTo s g r cue rest cur).gen j).parent = (s.gen j).parent := by
    intro j
    by_cases h : j = g
    · subst h; simp [VisitGen.moveTo, upd, Gen.withPos]
    · simp [VisitGen.moveTo, upd, h]
  intro h hl ho
  rw [(hgen h).1] at ho
  rw [(hgen h).2]
  rcases W h hl ho with h1 | ⟨f0, hf0, j, hj, d, hd, hm⟩
  · exact .inl h1
  · have : j ≠ g := by
      rintro rfl
      exact hs (List.mem_filterMap.2 ⟨f0, hf0, hj⟩)
    exact .inr ⟨f0, hf0, j, hj, d, by simp only [VisitGen.moveTo, upd_ne _ _ this]; exact hd, hm⟩

theorem Waiting.start {s : St} (W : Waiting s) (g : Nat) : Waiting (start s g) := by
  unfold VisitGen.start
  split
  · exact W
  · intro h hl ho
    have hgen : ∀ j, (upd s.gen g ((s.gen g).withOwn s.nV) j).cur = (s.gen j).cur ∧
        (upd s.gen g ((s.gen g).withOwn s.nV) j).parent = (s.gen j).parent := by
      intro j
      by_cases h : j = g
      · subst h; simp [upd, Gen.withOwn]
      · simp [upd, h]
    dsimp only at ho ⊢
    have : h ≠ g := by rintro rfl; simp [upd, Gen.withOwn] at ho
    rw [upd_ne _ _ this] at ho
    rw [(hgen h).2]
    rcases W h hl ho with h1 | ⟨f0, hf0, j, hj, d, hd, hm⟩
    · exact .inl h1
    · exact .inr ⟨f0, hf0, j, hj, d, by rw [(hgen j).1]; exact hd, hm⟩

theorem Waiting.advance {s : St} (I : Inv s) (W : Waiting s) {g r : Nat} (hg : g < s.nG) (hr : (s.gen g).own = some r)
    (hs : g ∉ s.stack.filterMap (·.gen)) (xs : List (Comp × Node)) : Waiting (advance s g r (s.gen g).place xs) := by
  have hpos : ∀ rest k, ((VisitGen.moveTo s g r ((s.gen g).place ++ [k]) rest (some (k, []))).gen g) = (s.gen g).withPos rest (some (k, [])) :=
    fun rest k => upd_same _ _ _
  cases xs with
  | nil => exact W.moveTo hs _ _ _
  | cons e rest =>
    obtain ⟨k, x⟩ := e
    have hb : ∀ pend b ys, Waiting (VisitGen.handOut { VisitGen.moveTo s g r ((s.gen g).place ++ [k]) rest (some (k, [])) with
        stack := ⟨some g, r, (s.gen g).place ++ [k], pend⟩ :: s.stack } ⟨some g, r, (s.gen g).place ++ [k], pend⟩ b ys) := by
      intro pend b ys
      have hm : Inv (VisitGen.moveTo s g r ((s.gen g).place ++ [k]) rest (some (k, []))) := I.moveTo hr hs rest (some k)
      have hp := hm.push ⟨some g, r, (s.gen g).place ++ [k], pend⟩ (fun h => by cases h) (by
        rintro g' ⟨⟩
        refine ⟨hg, ?_, hs, k, [], ?_, ?_⟩
        · rw [hpos]; exact hr
        · rw [hpos]; rfl
        · rw [hpos]; rfl)
      refine Waiting.handOut hp ?_ ⟨_, List.mem_cons_self, rfl, rfl⟩ b ys
      intro h hl ho
      rcases W.moveTo (r := r) hs ((s.gen g).place ++ [k]) rest (some (k, [])) h hl ho with h1 | ⟨f0, hf0, h2⟩
      · exact .inl h1
      · exact .inr ⟨f0, List.mem_cons_of_mem _ hf0, h2⟩
    cases x with
    | leaf =>
      show Waiting { (if (s.gen g).isColl then VisitGen.moveTo s g r (s.gen g).place rest none
        else VisitGen.moveTo s g r ((s.gen g).place ++ [k]) rest (some (k, []))) with applied := _ }
      split
      · exact W.moveTo (r := r) hs (s.gen g).place rest none
      · exact W.moveTo (r := r) hs ((s.gen g).place ++ [k]) rest (some (k, []))
    | rcd ps => exact hb _ _ _
    | coll ys ps => exact hb _ _ _

theorem Waiting.step (keep : List Comp → Bool) {s : St} (I : Inv s) (W : Waiting s) {e : Ev} (hP : Prompt s e) :
    Waiting (step keep s e) := by
  cases e with
  | next g =>
    unfold VisitGen.step
    dsimp only
    split
    · rename_i hg
      obtain ⟨I1, h2, h3, r, hr⟩ := I.start hg.1 (fun ho => W.there I hg.1 ho)
      have W1 := W.start g
      have hs : g ∉ (VisitGen.start s g).stack.filterMap (·.gen) := by
        rw [h3]
        intro hm
        obtain ⟨f, hf, hfg⟩ := List.mem_filterMap.1 hm
        exact hg.2 (List.mem_map.2 ⟨f, hf, hfg⟩)
      generalize VisitGen.start s g = t at I1 W1 h2 h3 hr hs
      have hp : popped t g r = (t.gen g).place := by
        unfold popped
        rw [(I1.own g r hr).2.2]
        cases (t.gen g).cur <;> simp [keyOf]
      simp only [VisitGen.resume, hr, hp]
      have hq := I1.applied (xs := []) (ys := questions keep t g (t.gen g).place) (by simp) (by
        intro e he
        unfold questions at he
        split at he
        · simp at he
        · obtain ⟨e', _, rfl⟩ := List.mem_map.1 he
          rfl)
      rw [List.append_nil] at hq
      exact Waiting.advance hq W1 (by show g < t.nG; rw [h2]; exact hg.1) hr hs _
    · exact W
  | ret =>
    show Waiting (return_ s)
    unfold VisitGen.return_
    cases hst : s.stack with
    | nil => exact W
    | cons f st =>
      have hf : f ∈ s.stack := by rw [hst]; simp
      have hpop : f.pending = none → Waiting { s with stack := st } := by
        intro hpend h hl ho
        rcases W h hl ho with h1 | ⟨f0, hf0, g, hg, c, hc, hm⟩
        · exact .inl h1
        · rw [hst] at hf0
          rcases List.mem_cons.1 hf0 with rfl | hf0
          · exact absurd ho (hP f0 (by rw [hst]; rfl) (by rw [hpend]; rfl) g hg c hc h hm)
          · exact .inr ⟨f0, hf0, g, hg, c, hc, hm⟩
      dsimp only
      cases hp : f.pending with
      | some ps =>
        dsimp only
        have h1 : Inv { s with stack := { f with pending := none } :: st } := by
          refine (I.pop hst).push { f with pending := none } (fun h => I.outer f hf h) ?_
          intro g hg
          obtain ⟨h1, h2, h3⟩ := I.inner f hf g hg
          refine ⟨h1, h2, ?_, h3⟩
          have hn := I.apart
          rw [hst, List.filterMap_cons_some (by exact hg)] at hn
          exact (List.nodup_cons.1 hn).1
        refine Waiting.handOut h1 ?_ ⟨_, List.mem_cons_self, rfl, rfl⟩ _ _
        intro h hl ho
        rcases W h hl ho with h1 | ⟨f0, hf0, g, hg, h2⟩
        · exact .inl h1
        · rw [hst] at hf0
          rcases List.mem_cons.1 hf0 with rfl | hf0
          · exact .inr ⟨{ f0 with pending := none }, List.mem_cons_self, g, hg, h2⟩
          · exact .inr ⟨f0, List.mem_cons_of_mem _ hf0, g, hg, h2⟩
      | none =>
        cases hg : f.gen with
        | none => exact hpop hp
        | some g =>
          dsimp only
          split
          · have hn := I.apart
            rw [hst, List.filterMap_cons_some (by exact hg)] at hn
            exact (hpop hp).moveTo (List.nodup_cons.1 hn).1 _ _ _
          · exact hpop hp

theorem waiting_visiting (v : Node) : Waiting (visiting v) := by
  have hp : ∀ g, ((visiting v).gen g).parent = 0 := by
    intro g
    cases v with
    | leaf => rfl
    | rcd ps => simp only [visiting, VisitGen.begin, VisitGen.handOut, upd]; split <;> rfl
    | coll xs ps => simp only [visiting, VisitGen.begin, VisitGen.handOut, upd]; split <;> rfl
  exact fun h _ _ => .inl (hp h)

theorem prompt_inTime (keep : List Comp → Bool) : ∀ (es : List Ev) (s : St), Inv s → Waiting s → AllSteps Prompt keep s es →
    AllSteps InTime keep s es
  | [], _, _, _, _ => trivial
  | e :: es, s, I, W, h => by
    have hi : InTime s e := by
      cases e with
      | ret => trivial
      | next g => exact fun hl ho => W.there I hl ho
    exact ⟨hi, prompt_inTime keep es _ (I.step keep hi) (W.step keep I h.1) h.2⟩

/-- It is enough that the functions of the sub-class start all the generators they are given before they return.  What is
done with them afterwards does not matter. -/
theorem C134_prompt (keep : List Comp → Bool) (v : Node) (es : List Ev) (h : AllSteps Prompt keep (visiting v) es) :
    PathsRight (run keep (visiting v) es) :=
  C134_partial keep v es (prompt_inTime keep es _ (inv_visiting v) (waiting_visiting v) h)

/-! ## What does not hold -/

namespace Ex

/-- A record with a list of records and a record. -/
def doc : Node := .rcd [(.str "people", .coll [(.int 0, .rcd [(.str "name", .leaf)]), (.int 1, .rcd [(.str "name", .leaf)])] none),
  (.str "author", .rcd [(.str "name", .leaf)]), (.str "title", .leaf)]

/-- The generators are consumed as soon as they are handed out. -/
def eager : List Ev :=
  [.next 0, .next 1, .next 2, .next 2, .ret, .next 1, .next 3, .next 3, .ret, .next 1, .ret, .next 0, .next 4, .next 4, .ret,
    .next 0, .next 0, .ret]

/-- `reduce` returns the generator, and whoever gets it consumes it before the next: no collections. -/
def streaming : List Ev := [.ret, .next 0, .ret, .next 1, .next 1, .next 0, .next 0]

/-- A record in a record. -/
def nested : Node := .rcd [(.str "author", .rcd [(.str "name", .leaf)]), (.str "title", .leaf)]

/-- `reduce` returns the generator, which is consumed when the others are. -/
def late : List Ev := [.next 0, .ret, .next 0, .next 0, .next 1, .ret]

/-- The same for the items of a list: they are consumed one by one. -/
def streamingList : List Ev := [.ret, .next 0, .ret, .next 1, .next 1]

/-- A list of records. -/
def people : Node := .coll [(.int 0, .rcd [(.str "name", .leaf)])] none

end Ex

example : (run (fun _ => true) (visiting Ex.doc) Ex.eager).applied =
    [([.str "people", .int 0, .str "name"], [.str "people", .int 0, .str "name"]),
     ([.str "people", .int 1, .str "name"], [.str "people", .int 1, .str "name"]),
     ([.str "author", .str "name"], [.str "author", .str "name"]), ([.str "title"], [.str "title"])] := by decide +kernel

instance (s : St) (e : Ev) : Decidable (InTime s e) := by
  cases e <;> unfold InTime
  · unfold StillThere; infer_instance
  · infer_instance

instance (s : St) (e : Ev) : Decidable (Prompt s e) := by
  cases e <;> unfold Prompt <;> infer_instance

instance decAllSteps (P : St → Ev → Prop) [∀ s e, Decidable (P s e)] (keep : List Comp → Bool) :
    ∀ (s : St) (es : List Ev), Decidable (AllSteps P keep s es)
  | _, [] => .isTrue trivial
  | s, e :: es => by
    unfold AllSteps
    have := decAllSteps P keep (step keep s e) es
    infer_instance

/-- Functions that consume the generators start them in time, whatever the filter is. -/
example : PathsRight (run (fun p => p ≠ [.str "author", .str "name"]) (visiting Ex.doc) Ex.eager) :=
  C134_prompt _ _ _ (by decide +kernel)

/-- So do those that return the generator of a record after its first item; the rest is taken at the end. -/
example : PathsRight (run (fun _ => true) (visiting Ex.nested) [.next 0, .next 1, .ret, .next 0, .next 0, .next 1, .ret]) :=
  C134_prompt _ _ _ (by decide +kernel)

/-- Generators may also be returned untouched if they are taken in time. -/
example : PathsRight (run (fun _ => true) (visiting Ex.nested) Ex.streaming) ∧
    ¬ AllSteps Prompt (fun _ => true) (visiting Ex.nested) Ex.streaming :=
  ⟨C134_partial _ _ _ (by decide +kernel), by decide +kernel⟩

/-- **C134 does not hold**: if `reduce` returns the generator it is given, and it is consumed later. -/
theorem C134_violated : ¬ C134_statement := by
  intro h
  exact absurd ((h (fun _ => true) Ex.nested Ex.late).1 ([.str "author", .str "name"], [.str "name"]) (by decide +kernel))
    (by decide)

/-- Nor if it is consumed at once, but the record is in a collection. -/
theorem C134_list_violated :
    (([Comp.int 0, .str "name"], [Comp.str "name"]) : List Comp × List Comp) ∈
      (run (fun _ => true) (visiting Ex.people) Ex.streamingList).applied := by decide +kernel

/-- Then the filter is asked about the wrong path, and `apply` gets what it is meant to leave out. -/
theorem C134_filter_violated : ∃ (keep : List Comp → Bool) (v : Node) (es : List Ev),
    ∃ e ∈ (run keep (visiting v) es).applied, keep e.1 = false :=
  ⟨fun p => p ≠ [.str "author", .str "name"], Ex.nested, Ex.late, ([.str "author", .str "name"], [.str "name"]), by decide +kernel,
    by decide⟩

end Normalize.VisitGen
