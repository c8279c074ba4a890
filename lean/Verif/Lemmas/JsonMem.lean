import Verif.Spec.JsonMem
import Verif.Lemmas.MemTree

/-! Marshalling makes new documents. -/

namespace Normalize.JsonMem

open Normalize.Mem Normalize.Spec
open Ident (IProp)

theorem filled_refl {W : World} (m : Mem) : FilledIn W m m := ⟨Nat.le_refl _, fun _ _ h => Or.inl h⟩

theorem alookup_append {κ α : Type} [DecidableEq κ] (s t : List (κ × α)) (k : κ) :
    alookup (s ++ t) k = (alookup s k).or (alookup t k) := by
  induction s with
  | nil => simp [alookup]
  | cons e s ih =>
    obtain ⟨k', v⟩ := e
    simp only [List.cons_append, alookup]
    split
    · simp
    · exact ih

theorem filled_trans {W : World} {m m1 m2 : Mem} (h1 : FilledIn W m m1) (h2 : FilledIn W m1 m2) : FilledIn W m m2 := by
  refine ⟨Nat.le_trans h1.1 h2.1, ?_⟩
  intro l o ho
  rcases h1.2 l o ho with h | ⟨c, s, ext, rfl, h, hx⟩
  · exact h2.2 l o h
  · rcases h2.2 l _ h with h' | ⟨c', s', ext', he, h', hx'⟩
    · exact Or.inr ⟨c, s, ext, rfl, h', hx⟩
    · cases he
      refine Or.inr ⟨c, s, ext ++ ext', rfl, by rw [← List.append_assoc]; exact h', ?_⟩
      intro x hx1
      rcases List.mem_append.mp hx1 with hx1 | hx1
      · exact hx x hx1
      · have h3 := hx' x hx1
        rw [alookup_append] at h3
        refine ⟨h3.1, ?_⟩
        have := h3.2
        rw [Option.or_eq_none_iff] at this
        exact this.1

/-- Nothing changes a list or a dict. -/
theorem filled_plain {W : World} {m m' : Mem} (h : FilledIn W m m') {l : Nat} {o : Obj} (ho : m[l]? = some o)
    (hp : ListOrDict o) : m'[l]? = some o := by
  rcases h.2 l o ho with h | ⟨c, s, ext, rfl, _⟩
  · exact h
  · cases hp

/-- New lists and dicts. -/
def NewDoc (m m' : Mem) (y : Ref) : Prop := AllNew m m' y ∧ Document m' y

theorem doc_intact {W : World} {m m' : Mem} (h : FilledIn W m m') {y : Ref} (hd : Document m y) : Intact m m' y := by
  intro l hl
  obtain ⟨o, ho, hp⟩ := hd l hl
  rw [filled_plain h ho hp, ho]

theorem doc_later {W : World} {m m' : Mem} (h : FilledIn W m m') {y : Ref} (hd : Document m y) : Document m' y := by
  intro l hl
  have hi := doc_intact h hd
  obtain ⟨o, ho, hp⟩ := hd l ((part_intact hi).mp hl)
  exact ⟨o, by rw [hi l ((part_intact hi).mp hl)]; exact ho, hp⟩

theorem newDoc_later {W : World} {m m1 m2 : Mem} (h : FilledIn W m1 m2) {y : Ref} (hd : NewDoc m m1 y) :
    NewDoc m m2 y := by
  refine ⟨?_, doc_later h hd.2⟩
  intro l hl
  have := hd.1 l ((part_intact (doc_intact h hd.2)).mp hl)
  have := h.1
  omega

theorem newDoc_earlier {m m1 m2 : Mem} (h : m.length ≤ m1.length) {y : Ref} (hd : NewDoc m1 m2 y) :
    NewDoc m m2 y := ⟨allNew_earlier hd.1 h, hd.2⟩

theorem newDoc_atom (m m' : Mem) (a : Atom) : NewDoc m m' (.atom a) := ⟨fun l hl => (nomatch hl), fun l hl => (nomatch hl)⟩

theorem filled_alloc {W : World} (m : Mem) (o : Obj) : FilledIn W m (alloc m o).1 := by
  refine ⟨by simp [alloc], ?_⟩
  intro l o' ho
  left
  have hl := (List.getElem?_eq_some_iff.mp ho).1
  simp only [alloc]
  rw [List.getElem?_append_left hl]
  exact ho

theorem newDoc_alloc (W : World) {m m' : Mem} {o : Obj} (hp : ListOrDict o) (hl : m.length ≤ m'.length)
    (hk : ∀ k ∈ kids o, NewDoc m m' k) : NewDoc m (alloc m' o).1 (alloc m' o).2 := by
  have hf : FilledIn W m' (alloc m' o).1 := filled_alloc m' o
  have hnew : (alloc m' o).1[m'.length]? = some o := by simp [alloc]
  have key : ∀ l, PartOf (alloc m' o).1 (alloc m' o).2 l → (m.length ≤ l ∧ l < (alloc m' o).1.length) ∧
      ∃ o', (alloc m' o).1[l]? = some o' ∧ ListOrDict o' := by
    intro l hpart
    simp only [alloc] at hpart
    cases hpart with
    | self => exact ⟨⟨hl, by simp [alloc]⟩, o, hnew, hp⟩
    | kid ho hk' hp' =>
      rw [show (m' ++ [o])[m'.length]? = some o from hnew] at ho
      cases ho
      have := newDoc_later hf (hk _ hk')
      exact ⟨this.1 l hp', this.2 l hp'⟩
  exact ⟨fun l h => (key l h).1, fun l h => (key l h).2⟩

/-- What a conversion does. -/
def Good (W : World) (f : Conv) : Prop :=
  ∀ m r, FilledIn W m (f m r).1 ∧ ∀ y, (f m r).2 = .ok y → NewDoc m (f m r).1 y

theorem outL_good {W : World} {f : Conv} (hf : Good W f) (xs : List Ref) : ∀ m, FilledIn W m (outL f xs m).1 ∧
    ∀ ys, (outL f xs m).2 = .ok ys → ∀ y ∈ ys, NewDoc m (outL f xs m).1 y := by
  induction xs with
  | nil =>
    intro m
    refine ⟨filled_refl m, ?_⟩
    intro ys h y hy
    simp only [outL] at h
    cases h
    cases hy
  | cons x xs ih =>
    intro m
    have h1 := hf m x
    simp only [outL]
    generalize f m x = q at h1
    obtain ⟨m1, q⟩ := q
    cases q with
    | error e => exact ⟨h1.1, fun ys h => (nomatch h)⟩
    | ok y =>
      have h2 := ih m1
      simp only
      generalize outL f xs m1 = q at h2
      obtain ⟨m2, q⟩ := q
      cases q with
      | error e => exact ⟨filled_trans h1.1 h2.1, fun ys h => (nomatch h)⟩
      | ok ys =>
        refine ⟨filled_trans h1.1 h2.1, ?_⟩
        intro ys' h y' hy'
        cases h
        rcases List.mem_cons.mp hy' with rfl | hy'
        · exact newDoc_later h2.1 (h1.2 _ rfl)
        · exact newDoc_earlier h1.1.1 (h2.2 _ rfl y' hy')

/-- What a loop that collects the entries of a dict does. -/
def GoodC (W : World) (m0 m : Mem) (q : Mem × Except Exc (List (Comp × Ref))) : Prop :=
  FilledIn W m q.1 ∧ ∀ ys, q.2 = .ok ys → ∀ y ∈ ys, NewDoc m0 q.1 y.2

theorem outC_good {W : World} {f : Conv} (hf : Good W f) (xs : List (Comp × Ref)) : ∀ m,
    GoodC W m m (outC f xs m) := by
  induction xs with
  | nil =>
    intro m
    refine ⟨filled_refl m, ?_⟩
    intro ys h y hy
    simp only [outC] at h
    cases h
    cases hy
  | cons x xs ih =>
    obtain ⟨k, x⟩ := x
    intro m
    have h1 := hf m x
    simp only [outC]
    generalize f m x = q at h1
    obtain ⟨m1, q⟩ := q
    cases q with
    | error e => exact ⟨h1.1, fun ys h => (nomatch h)⟩
    | ok y =>
      have h2 := ih m1
      simp only
      generalize outC f xs m1 = q at h2
      obtain ⟨m2, q⟩ := q
      cases q with
      | error e => exact ⟨filled_trans h1.1 h2.1, fun ys h => (nomatch h)⟩
      | ok ys =>
        refine ⟨filled_trans h1.1 h2.1, ?_⟩
        intro ys' h y' hy'
        cases h
        rcases List.mem_cons.mp hy' with rfl | hy'
        · exact newDoc_later h2.1 (h1.2 _ rfl)
        · exact newDoc_earlier h1.1.1 (h2.2 _ rfl y' hy')

theorem aset_append {κ α : Type} [DecidableEq κ] {s : List (κ × α)} {k : κ} (v : α) (h : alookup s k = none) :
    aset s k v = s ++ [(k, v)] := by
  induction s with
  | nil => rfl
  | cons e s ih =>
    obtain ⟨k', v'⟩ := e
    simp only [alookup] at h
    by_cases hk : k' = k
    · simp [hk] at h
    · simp only [hk, if_false] at h
      simp [aset, hk, ih h]

theorem filled_fill {W : World} {m : Mem} {r : Ref} {c : String} {nm : String} {x : Ref}
    (hc : ∀ c' s, deref m r = .rcd c' s → c' = c) (hl : (W.lazy c nm).isSome = true)
    (hn : slotOf (deref m r) nm = none) : FilledIn W m (fill m r nm x) := by
  unfold fill
  split
  · rename_i c' s hd
    have := hc c' s hd
    subst this
    rw [hd] at hn
    simp only [slotOf] at hn
    cases r with
    | atom a => exact filled_refl m
    | ptr l =>
      refine ⟨by simp [store], ?_⟩
      intro l' o ho
      simp only [store, List.getElem?_set]
      by_cases hll : l = l'
      · subst hll
        right
        have hlt := (List.getElem?_eq_some_iff.mp ho).1
        simp only [deref, ho, Option.getD_some] at hd
        subst hd
        refine ⟨c', s, [(nm, x)], rfl, by simp [hlt, aset_append x hn], ?_⟩
        intro y hy
        rw [List.mem_singleton.mp hy]
        exact ⟨hl, hn⟩
      · left
        simp [hll, ho]
  · exact filled_refl m

theorem filled_cls {W : World} {m m' : Mem} (h : FilledIn W m m') {r : Ref} {c : String} {s : List (String × Ref)}
    (hr : deref m r = .rcd c s) : ∃ ext, deref m' r = .rcd c (s ++ ext) := by
  cases r with
  | atom a => cases hr
  | ptr l =>
    simp only [deref] at hr ⊢
    cases ho : m[l]? with
    | none => rw [ho] at hr; cases hr
    | some o =>
      rw [ho] at hr
      simp only [Option.getD_some] at hr
      subst hr
      rcases h.2 l _ ho with h | ⟨c', s', ext, he, h, _⟩
      · exact ⟨[], by rw [h]; simp⟩
      · cases he
        exact ⟨ext, by rw [h]; rfl⟩

/-- The record is of the class. -/
def IsOf (m : Mem) (r : Ref) (c : String) : Prop := ∃ s, deref m r = .rcd c s

theorem isOf_later {W : World} {m m' : Mem} (h : FilledIn W m m') {r : Ref} {c : String} (hr : IsOf m r c) :
    IsOf m' r c := by
  obtain ⟨s, hs⟩ := hr
  obtain ⟨ext, he⟩ := filled_cls h hs
  exact ⟨_, he⟩

theorem readProp_filled {W : World} (hW : Marshals W) {c : String} {p : IProp} {m : Mem} {r : Ref} (hr : IsOf m r c) :
    FilledIn W m (readProp W c p m r).1 := by
  unfold readProp
  split
  · exact filled_refl m
  · rename_i hn
    split
    · exact filled_refl m
    · rename_i f hf
      have h := hW.lazy c p.name f hf m r
      generalize f m r = q at h
      obtain ⟨m1, q⟩ := q
      cases q with
      | error e => exact h.1
      | ok x =>
        simp only
        refine filled_trans h.1 (filled_fill (c := c) ?_ (by rw [hf]; rfl) (h.2 hn))
        intro c' s hd
        obtain ⟨s', hs'⟩ := isOf_later h.1 hr
        rw [hs'] at hd
        cases hd
        rfl

theorem convOf_good {W : World} (hW : Marshals W) {f : Conv} (hf : Good W f) (c : String) (p : IProp) :
    Good W (convOf W f c p) := by
  unfold convOf
  split
  · rename_i g hg
    exact hW.jout c p.name g hg
  · exact hf

theorem mem_aset {κ α : Type} [DecidableEq κ] {s : List (κ × α)} {k : κ} {v : α} {e : κ × α} (h : e ∈ aset s k v) :
    e ∈ s ∨ e.2 = v := by
  induction s with
  | nil =>
    simp only [aset, List.mem_singleton] at h
    subst h
    exact Or.inr rfl
  | cons d s ih =>
    obtain ⟨k', v'⟩ := d
    simp only [aset] at h
    split at h
    · rcases List.mem_cons.mp h with rfl | h
      · exact Or.inr rfl
      · exact Or.inl (by simp [h])
    · rcases List.mem_cons.mp h with rfl | h
      · exact Or.inl (by simp)
      · rcases ih h with h | h
        · exact Or.inl (by simp [h])
        · exact Or.inr h

theorem goodC_swallow {W : World} {m0 m m1 : Mem} {rv : List (Comp × Ref)} (e : Exc) (h : FilledIn W m m1)
    (hrv : ∀ y ∈ rv, NewDoc m0 m y.2) : GoodC W m0 m (m1, swallow rv e) := by
  refine ⟨h, ?_⟩
  intro ys hys y hy
  unfold swallow at hys
  split at hys
  · cases hys
    exact newDoc_later h (hrv y hy)
  · cases hys

theorem writeProp_good {W : World} (hW : Marshals W) {f : Conv} (hf : Good W f) {e : Bool} {c : String} {r : Ref}
    {p : IProp} {m0 m : Mem} {rv : List (Comp × Ref)} (hr : IsOf m r c) (hl : m0.length ≤ m.length)
    (hrv : ∀ y ∈ rv, NewDoc m0 m y.2) : GoodC W m0 m (writeProp W f e c r p m rv) := by
  have hnil : GoodC W m0 m (m, .ok rv) := ⟨filled_refl m, fun ys h y hy => by cases h; exact hrv y hy⟩
  unfold writeProp
  split
  · exact hnil
  · split
    · exact hnil
    · rename_i nm _
      have h1 := readProp_filled hW (p := p) hr
      generalize readProp W c p m r = q at h1
      obtain ⟨m1, q⟩ := q
      cases q with
      | none => exact ⟨h1, fun ys h y hy => by cases h; exact newDoc_later h1 (hrv y hy)⟩
      | some q =>
        cases q with
        | error x => exact goodC_swallow x h1 hrv
        | ok v =>
          have h2 := convOf_good hW hf c p m1 v
          simp only
          generalize convOf W f c p m1 v = q at h2
          obtain ⟨m2, q⟩ := q
          cases q with
          | error x => exact goodC_swallow x (filled_trans h1 h2.1) hrv
          | ok y =>
            refine ⟨filled_trans h1 h2.1, ?_⟩
            intro ys hys z hz
            cases hys
            rcases mem_aset hz with hz | hz
            · exact newDoc_later (filled_trans h1 h2.1) (hrv z hz)
            · rw [hz]
              exact newDoc_earlier (Nat.le_trans hl h1.1) (h2.2 y rfl)

theorem writeProps_good {W : World} (hW : Marshals W) {f : Conv} (hf : Good W f) {e : Bool} {c : String} {r : Ref}
    {m0 : Mem} (ps : List IProp) : ∀ (m : Mem) (rv : List (Comp × Ref)), IsOf m r c → m0.length ≤ m.length →
    (∀ y ∈ rv, NewDoc m0 m y.2) → GoodC W m0 m (writeProps W f e c r ps m rv) := by
  induction ps with
  | nil => exact fun m rv _ _ hrv => ⟨filled_refl m, fun ys h y hy => by cases h; exact hrv y hy⟩
  | cons p ps ih =>
    intro m rv hr hl hrv
    have h1 := writeProp_good hW hf (e := e) (p := p) hr hl hrv
    simp only [writeProps]
    generalize writeProp W f e c r p m rv = q at h1
    obtain ⟨m1, q⟩ := q
    cases q with
    | error x => exact ⟨h1.1, fun ys h => (nomatch h)⟩
    | ok rv' =>
      have h2 := ih m1 rv' (isOf_later h1.1 hr) (Nat.le_trans hl h1.1.1) (h1.2 rv' rfl)
      exact ⟨filled_trans h1.1 h2.1, h2.2⟩

theorem mergeUnknown_good {W : World} {f : Conv} (hf : Good W f) {m0 : Mem} (us : List (Comp × Ref)) :
    ∀ (m : Mem) (jd : List (Comp × Ref)), m0.length ≤ m.length → (∀ y ∈ jd, NewDoc m0 m y.2) →
    GoodC W m0 m (mergeUnknown f us m jd) := by
  induction us with
  | nil => exact fun m rv _ hrv => ⟨filled_refl m, fun ys h y hy => by cases h; exact hrv y hy⟩
  | cons u us ih =>
    obtain ⟨k, x⟩ := u
    intro m jd hl hjd
    simp only [mergeUnknown]
    split
    · exact ih m jd hl hjd
    · have h1 := hf m x
      generalize f m x = q at h1
      obtain ⟨m1, q⟩ := q
      cases q with
      | error x => exact ⟨h1.1, fun ys h => (nomatch h)⟩
      | ok y =>
        have h2 := ih m1 (aset jd k y) (Nat.le_trans hl h1.1.1) (by
          intro z hz
          rcases mem_aset hz with hz | hz
          · exact newDoc_later h1.1 (hjd z hz)
          · rw [hz]
            exact newDoc_earlier hl (h1.2 y rfl))
        exact ⟨filled_trans h1.1 h2.1, h2.2⟩

theorem addUnknown_good {W : World} {f : Conv} (hf : Good W f) {e : Bool} {c : String} {r : Ref} {m0 m : Mem}
    {jd : List (Comp × Ref)} (hl : m0.length ≤ m.length) (hjd : ∀ y ∈ jd, NewDoc m0 m y.2) :
    GoodC W m0 m (addUnknown W f e c r m jd) := by
  have hnil : GoodC W m0 m (m, .ok jd) := ⟨filled_refl m, fun ys h y hy => by cases h; exact hjd y hy⟩
  unfold addUnknown
  split
  · exact hnil
  · split
    · split
      · exact mergeUnknown_good hf _ m jd hl hjd
      · exact mergeUnknown_good hf _ m jd hl hjd
      · exact ⟨filled_refl m, fun ys h => (nomatch h)⟩
    · exact hnil

theorem rcdOut_good {W : World} (hW : Marshals W) {f g : Conv} (hf : Good W f) (hg : Good W g) {e d : Bool}
    {c : String} {r : Ref} {m : Mem} (hr : IsOf m r c) : GoodC W m m (rcdOut W f g e d c r m) := by
  have h1 := writeProps_good hW hf (e := e) (m0 := m) (W.J.S.cls c).props m [] hr (Nat.le_refl _)
    (fun y hy => (nomatch hy))
  unfold rcdOut
  generalize writeProps W f e c r (W.J.S.cls c).props m [] = q at h1
  obtain ⟨m1, q⟩ := q
  cases q with
  | error x => exact ⟨h1.1, fun ys h => (nomatch h)⟩
  | ok rv =>
    simp only
    split
    · have h2 := addUnknown_good hg (e := e) (c := c) (r := r) h1.1.1 (h1.2 rv rfl)
      exact ⟨filled_trans h1.1 h2.1, h2.2⟩
    · exact h1

theorem newDict_good {W : World} {m : Mem} {q : Mem × Except Exc (List (Comp × Ref))} (h : GoodC W m m q) :
    FilledIn W m (newDict q).1 ∧ ∀ y, (newDict q).2 = .ok y → NewDoc m (newDict q).1 y := by
  obtain ⟨m1, q⟩ := q
  cases q with
  | error e => exact ⟨h.1, fun y h => (nomatch h)⟩
  | ok ys =>
    refine ⟨filled_trans h.1 (filled_alloc m1 _), ?_⟩
    intro y hy
    cases hy
    refine newDoc_alloc W (o := .dict ys) trivial h.1.1 ?_
    intro k hk
    obtain ⟨z, hz, rfl⟩ := List.mem_map.mp hk
    exact h.2 ys rfl z hz

theorem newList_good {W : World} {m : Mem} {q : Mem × Except Exc (List Ref)} (h1 : FilledIn W m q.1)
    (h2 : ∀ ys, q.2 = .ok ys → ∀ y ∈ ys, NewDoc m q.1 y) :
    FilledIn W m (newList q).1 ∧ ∀ y, (newList q).2 = .ok y → NewDoc m (newList q).1 y := by
  obtain ⟨m1, q⟩ := q
  cases q with
  | error e => exact ⟨h1, fun y h => (nomatch h)⟩
  | ok ys =>
    refine ⟨filled_trans h1 (filled_alloc m1 _), ?_⟩
    intro y hy
    cases hy
    exact newDoc_alloc W (o := .list ys) trivial h1.1 (h2 ys rfl)

theorem out_good {W : World} (hW : Marshals W) {e : Bool} (n : Nat) : ∀ d, Good W (out W e n d) := by
  induction n with
  | zero => exact fun d m r => ⟨filled_refl m, fun y h => (nomatch h)⟩
  | succ n ih =>
    intro d m r
    simp only [out]
    split
    · refine ⟨filled_refl m, ?_⟩
      intro y hy
      simp only [atomOut] at hy
      split at hy <;> cases hy
      exact newDoc_atom _ _ _
    · have h := outL_good (ih true) ‹_› m
      exact newList_good h.1 h.2
    · have h := outL_good (ih true) ‹_› m
      exact newList_good h.1 h.2
    · exact newDict_good (outC_good (ih true) ‹_› m)
    · exact newDict_good (outC_good (ih true) ‹_› m)
    · rename_i c s hd
      exact newDict_good (rcdOut_good hW (ih true) (ih false) ⟨s, hd⟩)

end Normalize.JsonMem
