import Verif.Spec.Identity
import Verif.Lemmas.ValInd
import Verif.Lemmas.Access
import Verif.Lemmas.MfsGet2

/-!
# Lemmas about equality of records
-/

namespace Normalize.Ident

open Normalize.Mfs (alookup_mem)

variable {S : Schema}

theorem veqL_eq (xs : List Val) : veqL S xs = xs.map (veq S) := by
  induction xs with
  | nil => rfl
  | cons x xs ih => simp [veqL, ih]

theorem veqC_eq (xs : List (Comp × Val)) : veqC S xs = xs.map (fun x => (x.1, veq S x.2)) := by
  induction xs with
  | nil => rfl
  | cons x xs ih => obtain ⟨k, x⟩ := x; simp [veqC, ih]

theorem veqS_eq (xs : List (String × Val)) : veqS S xs = xs.map (fun x => (x.1, veq S x.2)) := by
  induction xs with
  | nil => rfl
  | cons x xs ih => obtain ⟨k, x⟩ := x; simp [veqS, ih]

theorem alookup_map {κ α β : Type} [DecidableEq κ] (f : α → β) (d : List (κ × α)) (k : κ) :
    alookup (d.map (fun x => (x.1, f x.2))) k = (alookup d k).map f := by
  induction d with
  | nil => rfl
  | cons x d ih =>
    obtain ⟨k', x⟩ := x
    simp only [List.map_cons, alookup]
    split
    · rfl
    · exact ih

theorem leftRead_eq (c : String) (s : List (String × Val)) (nm : String) :
    leftRead S c (veqS S s) nm = (readAttr S (.rcd c s) nm).map (veq S) := by
  simp only [leftRead, readAttr]
  rw [veqS_eq, alookup_map]
  cases alookup s nm with
  | some v => rfl
  | none =>
    cases unsetOf S c nm with
    | none => rfl
    | some a => simp only [Option.map, Option.some.injEq]; funext w; simp [veq]

theorem eqProps_true {ps : List IProp} {l : String → Option (Val → Except Exc Bool)}
    {r : String → Option Val} :
    eqProps ps l r = .ok true ↔
      ∀ p ∈ ps, p.extraneous = false → eqRead (l p.name) (r p.name) = .ok true := by
  induction ps with
  | nil => simp [eqProps]
  | cons p ps ih =>
    unfold eqProps
    cases he : p.extraneous with
    | true => simp [ih, he]
    | false =>
      simp only [Bool.false_eq_true, if_false, List.mem_cons, forall_eq_or_imp, he, forall_const]
      cases h : eqRead (l p.name) (r p.name) with
      | error e => simp
      | ok b => cases b <;> simp [ih]

theorem eqRead_map {o o' : Option Val} : eqRead (o.map (veq S)) o' = .ok true ↔ SameRead S o o' := by
  cases o <;> cases o' <;> simp [eqRead, SameRead]

theorem veq_rcd {c d : String} {s t : List (String × Val)} :
    veq S (.rcd c s) (.rcd d t) = .ok true ↔
      c = d ∧ ∀ p ∈ (S.cls c).props, p.extraneous = false →
        SameRead S (readAttr S (.rcd c s) p.name) (readAttr S (.rcd d t) p.name) := by
  simp only [veq]
  split
  · rename_i h
    simp only [h, true_and, eqProps_true]
    constructor
    · intro hh p hp he
      rw [← eqRead_map, ← leftRead_eq]; exact hh p hp he
    · intro hh p hp he
      rw [leftRead_eq, eqRead_map]; exact hh p hp he
  · rename_i h; simp [h]

theorem eqLoop_true {f : Val → Val → Except Exc Bool} {xs ys : List Val} (h : xs.length = ys.length) :
    eqLoop (xs.map f) ys = .ok true ↔ List.Forall₂ (fun x y => f x y = .ok true) xs ys := by
  induction xs generalizing ys with
  | nil =>
    cases ys with
    | nil => simp [eqLoop]
    | cons => simp at h
  | cons x xs ih =>
    cases ys with
    | nil => simp at h
    | cons y ys =>
      simp only [List.map_cons, eqLoop, List.forall₂_cons]
      cases hf : f x y with
      | error e => simp
      | ok b =>
        cases b with
        | false => simp
        | true => simp; exact ih (by simpa using h)

theorem eqLoopD_true {f : Val → Val → Except Exc Bool} {xs ys : List (Comp × Val)} :
    eqLoopD (xs.map (fun x => (x.1, f x.2))) ys = .ok true ↔
      ∀ x ∈ xs, ∃ y, alookup ys x.1 = some y ∧ f x.2 y = .ok true := by
  induction xs with
  | nil => simp [eqLoopD]
  | cons x xs ih =>
    simp only [List.map_cons, eqLoopD, List.mem_cons, forall_eq_or_imp]
    cases ha : alookup ys x.1 with
    | none => simp
    | some y =>
      simp only
      cases hf : f x.2 y with
      | error e => simp [hf]
      | ok b =>
        cases b with
        | false => simp [hf]
        | true => simp [ih, hf]

/-- `==` of two lists. -/
theorem veq_list {xs ys : List Val} :
    veq S (.list xs) (.list ys) = .ok true ↔ List.Forall₂ (fun x y => veq S x y = .ok true) xs ys := by
  simp only [veq]
  split
  · rename_i h; rw [veqL_eq, eqLoop_true h]
  · rename_i h
    simp only [Except.ok.injEq, Bool.false_eq_true, false_iff]
    exact fun h' => h h'.length_eq

/-- Equal python dicts: same number of entries, equal values under each key. -/
def DictEq (S : Schema) (xs ys : List (Comp × Val)) : Prop :=
  xs.length = ys.length ∧ ∀ x ∈ xs, ∃ y, alookup ys x.1 = some y ∧ veq S x.2 y = .ok true

theorem veq_dict {xs ys : List (Comp × Val)} :
    veq S (.dict xs) (.dict ys) = .ok true ↔ DictEq S xs ys := by
  simp only [veq, DictEq]
  split
  · rename_i h; rw [veqC_eq, eqLoopD_true]; simp [h]
  · rename_i h; simp [h]

theorem veq_lcoll {c d : String} {xs ys : List Val} :
    veq S (.lcoll c xs) (.lcoll d ys) = .ok true ↔
      itemOf S c = itemOf S d ∧ List.Forall₂ (fun x y => veq S x y = .ok true) xs ys := by
  simp only [veq]
  split
  · rename_i hc
    simp only [hc, true_and]
    split
    · rename_i h; rw [veqL_eq, eqLoop_true h]
    · rename_i h
      simp only [Except.ok.injEq, Bool.false_eq_true, false_iff]
      exact fun h' => h h'.length_eq
  · rename_i hc; simp [hc]

theorem veq_dcoll {c d : String} {xs ys : List (Comp × Val)} :
    veq S (.dcoll c xs) (.dcoll d ys) = .ok true ↔ itemOf S c = itemOf S d ∧ DictEq S xs ys := by
  simp only [veq, DictEq]
  split
  · rename_i hc
    simp only [hc, true_and]
    split
    · rename_i h; rw [veqC_eq, eqLoopD_true]; simp [h]
    · rename_i h; simp [h]
  · rename_i hc; simp [hc]

/-! ## Well-formed parts -/

theorem WF.list {xs : List Val} (h : WF S (.list xs)) : ∀ x ∈ xs, WF S x :=
  fun _ hx w hw => h w (.list hx hw)

theorem WF.lcoll {c : String} {xs : List Val} (h : WF S (.lcoll c xs)) : ∀ x ∈ xs, WF S x :=
  fun _ hx w hw => h w (.lcoll hx hw)

theorem WF.dict {xs : List (Comp × Val)} (h : WF S (.dict xs)) : ∀ x ∈ xs, WF S x.2 :=
  fun x hx w hw => h w (.dict (k := x.1) hx hw)

theorem WF.dcoll {c : String} {xs : List (Comp × Val)} (h : WF S (.dcoll c xs)) : ∀ x ∈ xs, WF S x.2 :=
  fun x hx w hw => h w (.dcoll (k := x.1) hx hw)

theorem WF.rcd {c : String} {xs : List (String × Val)} (h : WF S (.rcd c xs)) : ∀ x ∈ xs, WF S x.2 :=
  fun x hx w hw => h w (.rcd (k := x.1) hx hw)

theorem WF.atom (a : Atom) : WF S (.atom a) := by
  intro w hw; cases hw; trivial

theorem alookup_of_mem {κ α : Type} [DecidableEq κ] {d : List (κ × α)} (h : (d.map (·.1)).Nodup) {x : κ × α}
    (hx : x ∈ d) : alookup d x.1 = some x.2 := by
  induction d with
  | nil => simp at hx
  | cons y d ih =>
    simp only [List.map_cons, List.nodup_cons] at h
    simp only [List.mem_cons] at hx
    obtain ⟨k, v⟩ := y
    simp only [alookup]
    rcases hx with rfl | hx
    · simp
    · rw [if_neg, ih h.2 hx]
      intro hk
      exact h.1 (List.mem_map.mpr ⟨x, hx, hk.symm⟩)

theorem readAttr_WF {c nm : String} {s : List (String × Val)} {w : Val} (h : WF S (.rcd c s))
    (hr : readAttr S (.rcd c s) nm = some w) :
    (alookup s nm = some w ∧ WF S w) ∨
      (alookup s nm = .none ∧ ∃ a, w = .atom a ∧ unsetOf S c nm = some a) := by
  simp only [readAttr] at hr
  cases ha : alookup s nm with
  | some v =>
    rw [ha] at hr
    simp only [Option.some.injEq] at hr
    subst hr
    exact .inl ⟨rfl, h.rcd _ (alookup_mem ha)⟩
  | none =>
    rw [ha] at hr
    simp only [Option.map_eq_some_iff] at hr
    obtain ⟨a, ha', rfl⟩ := hr
    exact .inr ⟨rfl, a, rfl, ha'⟩

/-- In equal dicts with unique keys every entry of the second is matched by one of the first. -/
theorem DictEq.back {xs ys : List (Comp × Val)} (h : DictEq S xs ys) (hx : (xs.map (·.1)).Nodup)
    (hy : (ys.map (·.1)).Nodup) : ∀ y ∈ ys, ∃ x, (y.1, x) ∈ xs ∧ veq S x y.2 = .ok true := by
  intro y hym
  have hsub : xs.map (·.1) ⊆ ys.map (·.1) := by
    intro k hk
    simp only [List.mem_map] at hk
    obtain ⟨x, hxm, rfl⟩ := hk
    obtain ⟨y, hy', _⟩ := h.2 x hxm
    exact List.mem_map.mpr ⟨_, alookup_mem hy', rfl⟩
  have hp : (xs.map (·.1)).Perm (ys.map (·.1)) :=
    (List.subperm_of_subset hx hsub).perm_of_length_le (by simp [h.1])
  have : y.1 ∈ xs.map (·.1) := hp.mem_iff.mpr (List.mem_map_of_mem hym)
  simp only [List.mem_map] at this
  obtain ⟨x, hxm, hk⟩ := this
  obtain ⟨y', hy', he⟩ := h.2 x hxm
  rw [hk, alookup_of_mem hy hym] at hy'
  simp only [Option.some.injEq] at hy'
  subst hy'
  exact ⟨x.2, by rw [← hk]; exact hxm, he⟩

/-! ## Reflexivity, symmetry -/

theorem forall₂_refl {α : Type} {R : α → α → Prop} {xs : List α} (h : ∀ x ∈ xs, R x x) :
    List.Forall₂ R xs xs := by
  induction xs with
  | nil => exact .nil
  | cons x xs ih => exact .cons (h x (by simp)) (ih (fun y hy => h y (by simp [hy])))

theorem DictEq.refl {xs : List (Comp × Val)} (hx : (xs.map (·.1)).Nodup)
    (h : ∀ x ∈ xs, veq S x.2 x.2 = .ok true) : DictEq S xs xs :=
  ⟨rfl, fun x hm => ⟨x.2, alookup_of_mem hx hm, h x hm⟩⟩

theorem veq_atom {a b : Atom} : veq S (.atom a) (.atom b) = .ok (S.atomEq a b) := by simp [veq, atomVs]

theorem veq_refl (L : AtomLaws S) : ∀ v, WF S v → veq S v v = .ok true := by
  refine Val.ind ?_ ?_ ?_ ?_ ?_ ?_
  · intro a _; rw [veq_atom, L.refl]
  · intro xs ih h; rw [veq_list]; exact forall₂_refl (fun x hx => ih x hx (h.list x hx))
  · intro xs ih h
    rw [veq_dict]
    exact .refl (h _ (.self _)) (fun x hx => ih x hx (h.dict x hx))
  · intro c s ih h
    rw [veq_rcd]
    refine ⟨rfl, fun p hp _ => ?_⟩
    cases hr : readAttr S (.rcd c s) p.name with
    | none => trivial
    | some w =>
      simp only [SameRead]
      rcases readAttr_WF h hr with ⟨ha, hw⟩ | ⟨_, a, rfl, _⟩
      · exact ih _ (alookup_mem ha) hw
      · rw [veq_atom, L.refl]
  · intro c xs ih h
    rw [veq_lcoll]
    exact ⟨rfl, forall₂_refl (fun x hx => ih x hx (h.lcoll x hx))⟩
  · intro c xs ih h
    rw [veq_dcoll]
    exact ⟨rfl, .refl (h _ (.self _)) (fun x hx => ih x hx (h.dcoll x hx))⟩

theorem forall₂_symm {α : Type} {R : α → α → Prop} {xs ys : List α}
    (h : List.Forall₂ R xs ys) (hs : ∀ x ∈ xs, ∀ y ∈ ys, R x y → R y x) : List.Forall₂ R ys xs := by
  induction h with
  | nil => exact .nil
  | cons hxy _ ih =>
    exact .cons (hs _ (by simp) _ (by simp) hxy)
      (ih (fun x hx y hy => hs x (by simp [hx]) y (by simp [hy])))

theorem DictEq.symm {xs ys : List (Comp × Val)} (h : DictEq S xs ys) (hx : (xs.map (·.1)).Nodup)
    (hy : (ys.map (·.1)).Nodup)
    (hs : ∀ x ∈ xs, ∀ y ∈ ys, veq S x.2 y.2 = .ok true → veq S y.2 x.2 = .ok true) : DictEq S ys xs := by
  refine ⟨h.1.symm, fun y hm => ?_⟩
  obtain ⟨x, hxm, he⟩ := h.back hx hy y hm
  exact ⟨x, alookup_of_mem hx hxm, hs _ hxm _ hm he⟩

/-- An object without parts is only equal to another one. -/
theorem veq_atom_left {a : Atom} {w : Val} (h : veq S (.atom a) w = .ok true) :
    ∃ b, w = .atom b ∧ S.atomEq a b = true := by
  cases w <;> simp [veq, atomVs] at h
  exact ⟨_, rfl, h⟩

theorem veq_atom_right {a : Atom} {w : Val} (h : veq S w (.atom a) = .ok true) :
    ∃ b, w = .atom b ∧ S.atomEq b a = true := by
  cases w <;> simp [veq, atomVs] at h
  exact ⟨_, rfl, h⟩

theorem sameRead_symm_aux (L : AtomLaws S) {c : String} {s t : List (String × Val)} {nm : String}
    (hs : WF S (.rcd c s)) (ht : WF S (.rcd c t))
    (ih : ∀ x ∈ s, WF S x.2 → ∀ w, WF S w → veq S x.2 w = .ok true → veq S w x.2 = .ok true)
    (h : SameRead S (readAttr S (.rcd c s) nm) (readAttr S (.rcd c t) nm)) :
    SameRead S (readAttr S (.rcd c t) nm) (readAttr S (.rcd c s) nm) := by
  cases h1 : readAttr S (.rcd c s) nm with
  | none =>
    cases h2 : readAttr S (.rcd c t) nm with
    | none => trivial
    | some y => rw [h1, h2] at h; exact h.elim
  | some x =>
    cases h2 : readAttr S (.rcd c t) nm with
    | none => rw [h1, h2] at h; exact h.elim
    | some y =>
      rw [h1, h2] at h
      simp only [SameRead] at h ⊢
      have hy : WF S y := by
        rcases readAttr_WF ht h2 with ⟨_, hw⟩ | ⟨_, a, rfl, _⟩
        · exact hw
        · exact WF.atom a
      rcases readAttr_WF hs h1 with ⟨ha, hw⟩ | ⟨_, a, rfl, _⟩
      · exact ih _ (alookup_mem ha) hw y hy h
      · obtain ⟨b, rfl, hb⟩ := veq_atom_left h
        rw [veq_atom, L.symm _ _ hb]

theorem veq_symm (L : AtomLaws S) :
    ∀ a, WF S a → ∀ b, WF S b → veq S a b = .ok true → veq S b a = .ok true := by
  refine Val.ind ?_ ?_ ?_ ?_ ?_ ?_
  · intro a _ b _ h
    obtain ⟨b, rfl, hb⟩ := veq_atom_left h
    rw [veq_atom, L.symm _ _ hb]
  · intro xs ih ha b hb h
    cases b with
    | list ys =>
      rw [veq_list] at h ⊢
      exact forall₂_symm h (fun x hx y hy => ih x hx (ha.list x hx) y (hb.list y hy))
    | lcoll c ys => simpa [veq] using h
    | _ => simp [veq] at h
  · intro xs ih ha b hb h
    cases b with
    | dict ys =>
      rw [veq_dict] at h ⊢
      exact h.symm (ha _ (.self _)) (hb _ (.self _))
        (fun x hx y hy => ih x hx (ha.dict x hx) y.2 (hb.dict y hy))
    | dcoll c ys => simpa [veq] using h
    | _ => simp [veq] at h
  · intro c s ih ha b hb h
    cases b with
    | rcd d t =>
      obtain ⟨rfl, h⟩ := veq_rcd.mp h
      refine veq_rcd.mpr ⟨rfl, fun p hp he => ?_⟩
      exact sameRead_symm_aux L ha hb ih (h p hp he)
    | _ => simp [veq] at h
  · intro c xs ih ha b hb h
    cases b with
    | list ys => simpa [veq] using h
    | lcoll d ys =>
      rw [veq_lcoll] at h ⊢
      exact ⟨h.1.symm, forall₂_symm h.2 (fun x hx y hy => ih x hx (ha.lcoll x hx) y (hb.lcoll y hy))⟩
    | _ => simp [veq] at h
  · intro c xs ih ha b hb h
    cases b with
    | dict ys => simpa [veq] using h
    | dcoll d ys =>
      rw [veq_dcoll] at h ⊢
      exact ⟨h.1.symm, h.2.symm (ha _ (.self _)) (hb _ (.self _))
        (fun x hx y hy => ih x hx (ha.dcoll x hx) y.2 (hb.dcoll y hy))⟩
    | _ => simp [veq] at h

/-! ## Transitivity -/

theorem Unmixed.list {xs ys : List Val} (h : Unmixed (.list xs) (.list ys)) {i : Nat} {x y : Val}
    (hx : xs[i]? = some x) (hy : ys[i]? = some y) : Unmixed x y := fun hf => h (.list i hx hy hf)

theorem Unmixed.lcoll {c d : String} {xs ys : List Val} (h : Unmixed (.lcoll c xs) (.lcoll d ys)) {i : Nat}
    {x y : Val} (hx : xs[i]? = some x) (hy : ys[i]? = some y) : Unmixed x y :=
  fun hf => h (.lcoll i hx hy hf)

theorem Unmixed.dict {xs ys : List (Comp × Val)} (h : Unmixed (.dict xs) (.dict ys)) {k : Comp}
    {x y : Val} (hx : alookup xs k = some x) (hy : alookup ys k = some y) : Unmixed x y :=
  fun hf => h (.dict k hx hy hf)

theorem Unmixed.dcoll {c d : String} {xs ys : List (Comp × Val)} (h : Unmixed (.dcoll c xs) (.dcoll d ys))
    {k : Comp} {x y : Val} (hx : alookup xs k = some x) (hy : alookup ys k = some y) : Unmixed x y :=
  fun hf => h (.dcoll k hx hy hf)

theorem Unmixed.rcd {c d : String} {xs ys : List (String × Val)} (h : Unmixed (.rcd c xs) (.rcd d ys))
    {k : String} {x y : Val} (hx : alookup xs k = some x) (hy : alookup ys k = some y) : Unmixed x y :=
  fun hf => h (.rcd k hx hy hf)

theorem forall₂_trans {α : Type} {R : α → α → Prop} {xs ys zs : List α}
    (h1 : List.Forall₂ R xs ys) (h2 : List.Forall₂ R ys zs)
    (ht : ∀ (i : Nat) x y z, xs[i]? = some x → ys[i]? = some y → zs[i]? = some z → R x y → R y z → R x z) :
    List.Forall₂ R xs zs := by
  induction h1 generalizing zs with
  | nil => cases h2; exact .nil
  | cons hxy _ ih =>
    cases h2 with
    | cons hyz h2 =>
      exact .cons (ht 0 _ _ _ rfl rfl rfl hxy hyz)
        (ih h2 (fun i x y z hx hy hz => ht (i + 1) x y z (by simpa using hx) (by simpa using hy)
          (by simpa using hz)))

theorem DictEq.trans {xs ys zs : List (Comp × Val)} (h1 : DictEq S xs ys) (h2 : DictEq S ys zs)
    (ht : ∀ k x y z, (k, x) ∈ xs → alookup ys k = some y → alookup zs k = some z → veq S x y = .ok true →
      veq S y z = .ok true → veq S x z = .ok true) : DictEq S xs zs := by
  refine ⟨h1.1.trans h2.1, fun x hx => ?_⟩
  obtain ⟨y, hy, he⟩ := h1.2 x hx
  obtain ⟨z, hz, he'⟩ := h2.2 _ (alookup_mem hy)
  exact ⟨z, hz, ht x.1 x.2 y z hx hy hz he he'⟩

theorem sameRead_trans_aux (L : AtomLaws S) {c : String} {s t u : List (String × Val)} {nm : String}
    (hs : WF S (.rcd c s)) (ht : WF S (.rcd c t)) (hu : WF S (.rcd c u))
    (ih : ∀ x ∈ s, WF S x.2 → ∀ b, WF S b → ∀ w, WF S w → Unmixed x.2 b → Unmixed b w →
      veq S x.2 b = .ok true → veq S b w = .ok true → veq S x.2 w = .ok true)
    (m1 : Unmixed (.rcd c s) (.rcd c t)) (m2 : Unmixed (.rcd c t) (.rcd c u))
    (h1 : SameRead S (readAttr S (.rcd c s) nm) (readAttr S (.rcd c t) nm))
    (h2 : SameRead S (readAttr S (.rcd c t) nm) (readAttr S (.rcd c u) nm)) :
    SameRead S (readAttr S (.rcd c s) nm) (readAttr S (.rcd c u) nm) := by
  cases e1 : readAttr S (.rcd c s) nm with
  | none =>
    cases e2 : readAttr S (.rcd c t) nm with
    | none => rw [e2] at h2; exact h2
    | some y => rw [e1, e2] at h1; exact h1.elim
  | some x =>
    cases e2 : readAttr S (.rcd c t) nm with
    | none => rw [e1, e2] at h1; exact h1.elim
    | some y =>
      cases e3 : readAttr S (.rcd c u) nm with
      | none => rw [e2, e3] at h2; exact h2.elim
      | some z =>
        rw [e1, e2] at h1
        rw [e2, e3] at h2
        simp only [SameRead] at h1 h2 ⊢
        -- as soon as one is an atom, all are
        have atoms : (∃ a, x = .atom a) ∨ (∃ a, y = .atom a) ∨ (∃ a, z = .atom a) →
            veq S x z = .ok true := by
          intro hat
          have : ∃ a b d, x = .atom a ∧ y = .atom b ∧ z = .atom d := by
            rcases hat with ⟨a, rfl⟩ | ⟨a, rfl⟩ | ⟨a, rfl⟩
            · obtain ⟨b, rfl, _⟩ := veq_atom_left h1
              obtain ⟨d, rfl, _⟩ := veq_atom_left h2
              exact ⟨a, b, d, rfl, rfl, rfl⟩
            · obtain ⟨d, rfl, _⟩ := veq_atom_left h2
              obtain ⟨b, rfl, _⟩ := veq_atom_right h1
              exact ⟨_, _, _, rfl, rfl, rfl⟩
            · obtain ⟨d, rfl, _⟩ := veq_atom_right h2
              obtain ⟨b, rfl, _⟩ := veq_atom_right h1
              exact ⟨_, _, _, rfl, rfl, rfl⟩
          obtain ⟨a, b, d, rfl, rfl, rfl⟩ := this
          rw [veq_atom] at h1 h2 ⊢
          simp only [Except.ok.injEq] at h1 h2 ⊢
          exact L.trans _ _ _ h1 h2
        rcases readAttr_WF hs e1 with ⟨a1, w1⟩ | ⟨_, a, rfl, _⟩
        · rcases readAttr_WF ht e2 with ⟨a2, w2⟩ | ⟨_, a, rfl, _⟩
          · rcases readAttr_WF hu e3 with ⟨a3, w3⟩ | ⟨_, a, rfl, _⟩
            · exact ih _ (alookup_mem a1) w1 y w2 z w3 (m1.rcd a1 a2) (m2.rcd a2 a3) h1 h2
            · exact atoms (.inr (.inr ⟨_, rfl⟩))
          · exact atoms (.inr (.inl ⟨_, rfl⟩))
        · exact atoms (.inl ⟨_, rfl⟩)

theorem veq_trans (L : AtomLaws S) :
    ∀ a, WF S a → ∀ b, WF S b → ∀ c, WF S c → Unmixed a b → Unmixed b c → veq S a b = .ok true →
      veq S b c = .ok true → veq S a c = .ok true := by
  refine Val.ind ?_ ?_ ?_ ?_ ?_ ?_
  · intro a _ b _ c _ _ _ h h'
    obtain ⟨b, rfl, hb⟩ := veq_atom_left h
    obtain ⟨c, rfl, hc⟩ := veq_atom_left h'
    rw [veq_atom, L.trans _ _ _ hb hc]
  · intro xs ih ha b hb c hc m1 m2 h h'
    cases b with
    | list ys =>
      cases c with
      | list zs =>
        rw [veq_list] at h h' ⊢
        exact forall₂_trans h h' (fun i x y z hx hy hz => ih x (List.mem_of_getElem? hx)
          (ha.list x (List.mem_of_getElem? hx)) y (hb.list y (List.mem_of_getElem? hy)) z
          (hc.list z (List.mem_of_getElem? hz)) (m1.list hx hy) (m2.list hy hz))
      | lcoll => exact (m2 (.here trivial)).elim
      | _ => simp [veq] at h'
    | lcoll => exact (m1 (.here trivial)).elim
    | _ => simp [veq] at h
  · intro xs ih ha b hb c hc m1 m2 h h'
    cases b with
    | dict ys =>
      cases c with
      | dict zs =>
        rw [veq_dict] at h h' ⊢
        exact h.trans h' (fun k x y z hx hy hz => ih _ hx (ha.dict _ hx) y (hb.dict _ (alookup_mem hy)) z
          (hc.dict _ (alookup_mem hz)) (m1.dict (alookup_of_mem (ha _ (.self _)) hx) hy) (m2.dict hy hz))
      | dcoll => exact (m2 (.here trivial)).elim
      | _ => simp [veq] at h'
    | dcoll => exact (m1 (.here trivial)).elim
    | _ => simp [veq] at h
  · intro c s ih ha b hb d hd m1 m2 h h'
    cases b with
    | rcd c' t =>
      obtain ⟨rfl, h⟩ := veq_rcd.mp h
      cases d with
      | rcd d' u =>
        obtain ⟨rfl, h'⟩ := veq_rcd.mp h'
        refine veq_rcd.mpr ⟨rfl, fun p hp he => ?_⟩
        exact sameRead_trans_aux L ha hb hd ih m1 m2 (h p hp he) (h' p hp he)
      | _ => simp [veq] at h'
    | _ => simp [veq] at h
  · intro c xs ih ha b hb d hd m1 m2 h h'
    cases b with
    | list => exact (m1 (.here trivial)).elim
    | lcoll c' ys =>
      cases d with
      | list => exact (m2 (.here trivial)).elim
      | lcoll d' zs =>
        rw [veq_lcoll] at h h' ⊢
        exact ⟨h.1.trans h'.1, forall₂_trans h.2 h'.2 (fun i x y z hx hy hz =>
          ih x (List.mem_of_getElem? hx)
          (ha.lcoll x (List.mem_of_getElem? hx)) y (hb.lcoll y (List.mem_of_getElem? hy)) z
          (hd.lcoll z (List.mem_of_getElem? hz)) (m1.lcoll hx hy) (m2.lcoll hy hz))⟩
      | _ => simp [veq] at h'
    | _ => simp [veq] at h
  · intro c xs ih ha b hb d hd m1 m2 h h'
    cases b with
    | dict => exact (m1 (.here trivial)).elim
    | dcoll c' ys =>
      cases d with
      | dict => exact (m2 (.here trivial)).elim
      | dcoll d' zs =>
        rw [veq_dcoll] at h h' ⊢
        exact ⟨h.1.trans h'.1, h.2.trans h'.2 (fun k x y z hx hy hz => ih _ hx (ha.dcoll _ hx) y
          (hb.dcoll _ (alookup_mem hy)) z (hd.dcoll _ (alookup_mem hz))
          (m1.dcoll (alookup_of_mem (ha _ (.self _)) hx) hy) (m2.dcoll hy hz))⟩
      | _ => simp [veq] at h'
    | _ => simp [veq] at h

/-! ## Comparison always answers -/

theorem eqProps_ok {ps : List IProp} {l : String → Option (Val → Except Exc Bool)}
    {r : String → Option Val} (h : ∀ nm, ∃ b, eqRead (l nm) (r nm) = .ok b) : ∃ b, eqProps ps l r = .ok b := by
  induction ps with
  | nil => exact ⟨_, rfl⟩
  | cons p ps ih =>
    unfold eqProps
    split
    · exact ih
    · obtain ⟨b, hb⟩ := h p.name
      rw [hb]
      cases b
      · exact ⟨_, rfl⟩
      · exact ih

theorem eqLoop_ok {f : Val → Val → Except Exc Bool} {xs ys : List Val}
    (h : ∀ (i : Nat) x y, xs[i]? = some x → ys[i]? = some y → ∃ b, f x y = .ok b) :
    ∃ b, eqLoop (xs.map f) ys = .ok b := by
  induction xs generalizing ys with
  | nil => exact ⟨_, rfl⟩
  | cons x xs ih =>
    cases ys with
    | nil => exact ⟨_, rfl⟩
    | cons y ys =>
      obtain ⟨b, hb⟩ := h 0 x y rfl rfl
      simp only [List.map_cons, eqLoop, hb]
      cases b
      · exact ⟨_, rfl⟩
      · exact ih (fun i x y hx hy => h (i + 1) x y (by simpa using hx) (by simpa using hy))

theorem eqLoopD_ok {f : Val → Val → Except Exc Bool} {xs ys : List (Comp × Val)}
    (h : ∀ k x y, (k, x) ∈ xs → alookup ys k = some y → ∃ b, f x y = .ok b) :
    ∃ b, eqLoopD (xs.map (fun x => (x.1, f x.2))) ys = .ok b := by
  induction xs with
  | nil => exact ⟨_, rfl⟩
  | cons x xs ih =>
    simp only [List.map_cons, eqLoopD]
    cases ha : alookup ys x.1 with
    | none => exact ⟨_, rfl⟩
    | some y =>
      obtain ⟨b, hb⟩ := h x.1 x.2 y (by simp) ha
      simp only [hb]
      cases b
      · exact ⟨_, rfl⟩
      · exact ih (fun k x y hx hy => h k x y (by simp [hx]) hy)

theorem atomVs_ok (a : Atom) (w : Val) : ∃ r, atomVs S a w = .ok r := by
  cases w <;> exact ⟨_, rfl⟩

theorem veq_atom_right_ok (a : Atom) (w : Val) : ∃ r, veq S w (.atom a) = .ok r := by
  cases w <;> simp [veq, atomVs]

theorem veq_ok : ∀ a, WF S a → ∀ b, Unmixed a b → ∃ r, veq S a b = .ok r := by
  refine Val.ind ?_ ?_ ?_ ?_ ?_ ?_
  · intro a _ b _; simp only [veq]; exact atomVs_ok a b
  · intro xs ih ha b m
    cases b with
    | list ys =>
      simp only [veq, veqL_eq]
      split
      · exact eqLoop_ok (fun i x y hx hy => ih x (List.mem_of_getElem? hx)
          (ha.list x (List.mem_of_getElem? hx)) y (m.list hx hy))
      · exact ⟨_, rfl⟩
    | lcoll => exact (m (.here trivial)).elim
    | _ => simp [veq]
  · intro xs ih ha b m
    cases b with
    | dict ys =>
      simp only [veq, veqC_eq]
      split
      · exact eqLoopD_ok (fun k x y hx hy => ih _ hx (ha.dict _ hx) y
          (m.dict (alookup_of_mem (ha _ (.self _)) hx) hy))
      · exact ⟨_, rfl⟩
    | dcoll => exact (m (.here trivial)).elim
    | _ => simp [veq]
  · intro c s ih ha b m
    cases b with
    | rcd d t =>
      simp only [veq]
      split
      · refine eqProps_ok (fun nm => ?_)
        rw [leftRead_eq]
        cases e1 : readAttr S (.rcd c s) nm with
        | none => cases readAttr S (.rcd d t) nm <;> exact ⟨_, rfl⟩
        | some x =>
          cases e2 : readAttr S (.rcd d t) nm with
          | none => exact ⟨_, rfl⟩
          | some y =>
            simp only [Option.map, eqRead]
            rcases readAttr_WF ha e1 with ⟨a1, w1⟩ | ⟨_, a, rfl, _⟩
            · cases a2 : alookup t nm with
              | some y' =>
                have : y' = y := by simpa [readAttr, a2] using e2
                subst this
                exact ih _ (alookup_mem a1) w1 y' (m.rcd a1 a2)
              | none =>
                have : ∃ a, y = .atom a := by
                  simp only [readAttr, a2, Option.map_eq_some_iff] at e2
                  obtain ⟨a, _, rfl⟩ := e2
                  exact ⟨a, rfl⟩
                obtain ⟨a, rfl⟩ := this
                exact veq_atom_right_ok a x
            · simp only [veq]; exact atomVs_ok a y
      · exact ⟨_, rfl⟩
    | _ => simp [veq]
  · intro c xs ih ha b m
    cases b with
    | list => exact (m (.here trivial)).elim
    | lcoll d ys =>
      simp only [veq, veqL_eq]
      split
      · split
        · exact eqLoop_ok (fun i x y hx hy => ih x (List.mem_of_getElem? hx)
            (ha.lcoll x (List.mem_of_getElem? hx)) y (m.lcoll hx hy))
        · exact ⟨_, rfl⟩
      · exact ⟨_, rfl⟩
    | _ => simp [veq]
  · intro c xs ih ha b m
    cases b with
    | dict => exact (m (.here trivial)).elim
    | dcoll d ys =>
      simp only [veq, veqC_eq]
      split
      · split
        · exact eqLoopD_ok (fun k x y hx hy => ih _ hx (ha.dcoll _ hx) y
            (m.dcoll (alookup_of_mem (ha _ (.self _)) hx) hy))
        · exact ⟨_, rfl⟩
      · exact ⟨_, rfl⟩
    | _ => simp [veq]

end Normalize.Ident
