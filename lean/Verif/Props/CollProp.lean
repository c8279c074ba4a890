import Verif.Spec.CollProp
import Verif.Lemmas.Access

/-!
# C88: declarations of collection properties
-/

namespace Normalize.CollProp

open Spec Generic

variable {W : Classes}

/-- What is registered was made for its key, from a container that was used. -/
structure Inv (used : List Container) (w : World) : Prop where
  key : ∀ k g, alookup w.types k = some g → k = keyOf g.itemtype g.base
  used : ∀ k g, alookup w.types k = some g → g.base ∈ used

theorem Inv.mono {used used' : List Container} {w : World} (h : Inv used w) (hs : ∀ c ∈ used, c ∈ used') : Inv used' w :=
  ⟨h.key, fun k g hk => hs _ (h.used k g hk)⟩

theorem inv_add {used : List Container} {w : World} (h : Inv used w) {t : PyType} {c : Container} (hc : c ∈ used) {attrs : List ((String × String) × Nat)} {n : Nat} :
    Inv used ⟨aset w.types (keyOf t c) (newCls t c w.next), attrs, n⟩ := by
  constructor
  · intro k g hk
    simp only [alookup_aset] at hk
    split at hk
    · rename_i he
      cases hk
      exact he.symm
    · exact h.key k g hk
  · intro k g hk
    simp only [alookup_aset] at hk
    split at hk
    · cases hk
      exact hc
    · exact h.used k g hk

theorem generic_spec {used : List Container} {w : World} (h : Inv used w) {of : Option PyType} {c : Container} (hc : c ∈ used) :
    Inv used (generic W of c w).2 ∧ ∀ i, (generic W of c w).1 = .ok i → ∃ t g, of = some t ∧ i = .gen g ∧ g.itemtype = t ∧ g.base ∈ used ∧ g.base.name = c.name := by
  cases of with
  | none => exact ⟨h, fun i hi => by cases hi⟩
  | some t =>
    simp only [generic, makeGeneric]
    cases hk : alookup w.types (keyOf t c) with
    | some g =>
      simp only
      by_cases hne : g.itemtype ≠ t
      · rw [if_pos hne]
        exact ⟨h, fun i hi => by cases hi⟩
      · rw [if_neg hne]
        refine ⟨h, fun i hi => ?_⟩
        cases hi
        have := h.key _ _ hk
        simp only [keyOf, Prod.mk.injEq] at this
        exact ⟨t, g, rfl, rfl, by simpa using hne, h.used _ _ hk, this.1.symm⟩
    | none =>
      simp only
      by_cases hl : W.loaded t.module = true
      · rw [if_pos hl]
        refine ⟨inv_add h hc, fun i hi => ?_⟩
        cases hi
        exact ⟨t, _, rfl, rfl, rfl, hc, rfl⟩
      · rw [if_neg hl]
        exact ⟨inv_add h hc, fun i hi => by cases hi⟩

/-- What is returned for `isa`. -/
theorem collType_isa {of : Option PyType} {coll : Option Container} {j i : CRef} {w : World} (h : (collType W of coll (some j) w).1 = .ok i) :
    i = j ∧ (∀ c, coll = some c → isSub W j c = true) ∧ ∃ t, itemOf W j = some t ∧ ∀ o, of = some o → W.subItem o t = true := by
  simp only [collType] at h
  split at h
  · cases h
  · rename_i hc
    split at h
    · cases h
    · rename_i t ht
      split at h
      · cases h
      · rename_i ho
        cases h
        refine ⟨rfl, ?_, t, ht, ?_⟩
        · rintro c rfl
          simpa using hc
        · rintro o rfl
          simpa using ho

theorem collType_world {used : List Container} {w : World} (h : Inv used w) {of : Option PyType} {coll : Option Container} {isa : Option CRef}
    (hc : ∀ c, coll = some c → c ∈ used) : Inv used (collType W of coll isa w).2 := by
  cases isa with
  | none =>
    cases coll with
    | none => exact h
    | some c => exact (generic_spec h (hc c rfl)).1
  | some j =>
    simp only [collType]
    split
    · exact h
    · split
      · exact h
      · split <;> exact h

/-- A declaration as one of `CollectionProperty`, or a call of `_make_generic`. -/
theorem declare_cases (d : CDecl) (w : World) : (∃ e, declare W d w = (.error e, w)) ∨
    (∃ of isa, declare W d w = collType W of (usesColl d) isa w ∧ WantsIsa d = isa ∧ (∀ t, WantsItem d t ↔ of = some t) ∧
      ∀ c, WantsColl d c → ∃ u, usesColl d = some u ∧ (c = u ∨ W.subColl u c = true)) ∨
    ∃ t c, d = .generic t c := by
  cases d with
  | coll of coll isa =>
    right; left
    refine ⟨of, isa, rfl, rfl, ?_, ?_⟩
    · intro t
      constructor
      · rintro ⟨⟩; rfl
      · rintro rfl; exact .coll
    · rintro c ⟨⟩
      exact ⟨c, rfl, .inl rfl⟩
  | list l of coll isa ct =>
    simp only [declare]
    cases l with
    | none =>
      cases of with
      | none => exact .inl ⟨_, rfl⟩
      | some t =>
        simp only
        split
        · rename_i hs
          right; left
          refine ⟨some t, isa, rfl, rfl, ?_, ?_⟩
          · intro t'
            constructor
            · rintro ⟨⟩; rfl
            · rintro ⟨⟩; exact .list
          · intro c hc
            refine ⟨_, rfl, ?_⟩
            cases hc with
            | list => exact .inl rfl
            | aList => exact .inr hs
            | listType => exact .inl rfl
        · exact .inl ⟨_, rfl⟩
    | some t =>
      simp only
      split
      · rename_i hs
        cases of with
        | some t' => exact .inl ⟨_, rfl⟩
        | none =>
          right; left
          refine ⟨some t, isa, rfl, rfl, ?_, ?_⟩
          · intro t'
            constructor
            · rintro ⟨⟩; rfl
            · rintro ⟨⟩; exact .listOf
          · intro c hc
            refine ⟨_, rfl, ?_⟩
            cases hc with
            | list => exact .inl rfl
            | aList => exact .inr hs
            | listType => exact .inl rfl
      · exact .inl ⟨_, rfl⟩
  | dict l of coll isa ct =>
    simp only [declare]
    cases l with
    | none =>
      cases of with
      | none => exact .inl ⟨_, rfl⟩
      | some t =>
        simp only
        split
        · rename_i hs
          right; left
          refine ⟨some t, isa, rfl, rfl, ?_, ?_⟩
          · intro t'
            constructor
            · rintro ⟨⟩; rfl
            · rintro ⟨⟩; exact .dict
          · intro c hc
            refine ⟨_, rfl, ?_⟩
            cases hc with
            | dict => exact .inl rfl
            | aDict => exact .inr hs
            | dictType => exact .inl rfl
        · exact .inl ⟨_, rfl⟩
    | some t =>
      simp only
      split
      · rename_i hs
        cases of with
        | some t' => exact .inl ⟨_, rfl⟩
        | none =>
          right; left
          refine ⟨some t, isa, rfl, rfl, ?_, ?_⟩
          · intro t'
            constructor
            · rintro ⟨⟩; rfl
            · rintro ⟨⟩; exact .dictOf
          · intro c hc
            refine ⟨_, rfl, ?_⟩
            cases hc with
            | dict => exact .inl rfl
            | aDict => exact .inr hs
            | dictType => exact .inl rfl
      · exact .inl ⟨_, rfl⟩
  | generic t c => exact .inr (.inr ⟨t, c, rfl⟩)

/-- The containers used by some declarations. -/
def usedColls (ds : List CDecl) : List Container := ds.filterMap usesColl

theorem declare_inv {used : List Container} {w : World} (h : Inv used w) {d : CDecl} (hc : ∀ c, usesColl d = some c → c ∈ used) : Inv used (declare W d w).2 := by
  rcases declare_cases (W := W) d w with ⟨e, he⟩ | ⟨of, isa, he, _⟩ | ⟨t, c, rfl⟩
  · rw [he]; exact h
  · rw [he]; exact collType_world h hc
  · exact (generic_spec h (hc c rfl)).1

theorem declares_inv {used : List Container} : ∀ {ds : List CDecl} {w : World}, Inv used w → (∀ c ∈ usedColls ds, c ∈ used) → Inv used (declares W ds w)
  | [], _, h, _ => h
  | d :: ds, w, h, hc => by
    refine declares_inv (ds := ds) (declare_inv h ?_) ?_
    · intro c hd
      exact hc c (by simp [usedColls, hd])
    · intro c hd
      refine hc c ?_
      simp only [usedColls, List.mem_filterMap] at hd ⊢
      obtain ⟨x, hx, he⟩ := hd
      exact ⟨x, List.mem_cons_of_mem _ hx, he⟩

/-- C88: a property that is declared holds collections of the kind that was asked for. -/
def C88_kind_statement : Prop := ∀ (W : Classes) (attrs : List ((String × String) × Nat)) (n : Nat) (ds : List CDecl) (d : CDecl) (i : CRef), GoodClasses W →
  (declare W d (declares W ds ⟨[], attrs, n⟩)).1 = .ok i → ∀ c, WantsColl d c → KindOf W i c

/-- C88: and all the items are of the type that was asked for. -/
def C88_items_statement : Prop := ∀ (W : Classes) (attrs : List ((String × String) × Nat)) (n : Nat) (ds : List CDecl) (d : CDecl) (i : CRef), GoodClasses W →
  (declare W d (declares W ds ⟨[], attrs, n⟩)).1 = .ok i → ∀ t, WantsItem d t → ∃ t', ItemsOf W i t' ∧ W.subItem t' t = true

/-- C88: it is of the kind, if no two container classes have the same name. -/
theorem C88_kind_partial (hW : GoodClasses W) {attrs : List ((String × String) × Nat)} {n : Nat} {ds : List CDecl} {d : CDecl} {i : CRef}
    (hn : NamesApart (usedColls (d :: ds))) (h : (declare W d (declares W ds ⟨[], attrs, n⟩)).1 = .ok i) {c : Container} (hc : WantsColl d c) : KindOf W i c := by
  have hsub : ∀ c ∈ usedColls ds, c ∈ usedColls (d :: ds) := by
    intro c hd
    simp only [usedColls, List.mem_filterMap] at hd ⊢
    obtain ⟨x, hx, he⟩ := hd
    exact ⟨x, List.mem_cons_of_mem _ hx, he⟩
  have hin : ∀ c, usesColl d = some c → c ∈ usedColls (d :: ds) := by
    intro c hd
    simp [usedColls, hd]
  have hi : Inv (usedColls (d :: ds)) (declares W ds ⟨[], attrs, n⟩) :=
    declares_inv (w := ⟨[], attrs, n⟩) ⟨fun k g hk => (nomatch hk), fun k g hk => (nomatch hk)⟩ hsub
  generalize declares W ds ⟨[], attrs, n⟩ = w at h hi
  rcases declare_cases (W := W) d w with ⟨e, he⟩ | ⟨of, isa, he, hisa, hit, hco⟩ | ⟨t, c', rfl⟩
  · rw [he] at h; cases h
  · rw [he] at h
    obtain ⟨u, hu, huc⟩ := hco c hc
    have up : KindOf W i u → KindOf W i c := by
      rcases huc with rfl | huc
      · exact id
      · intro hk
        cases i with
        | cls k => exact hW.trans _ _ _ hk huc
        | gen g => exact hW.trans _ _ _ hk huc
    apply up
    cases isa with
    | some j =>
      obtain ⟨rfl, h2, _⟩ := collType_isa h
      have := h2 u hu
      cases i <;> exact this
    | none =>
      rw [hu] at h
      simp only [collType] at h
      obtain ⟨t, g, _, rfl, _, hb, hnm⟩ := (generic_spec (W := W) hi (hin u hu)).2 i h
      have := hn g.base hb u (hin u hu) hnm
      simp only [KindOf, this]
      exact hW.refl u
  · cases hc
    obtain ⟨t', g, _, rfl, _, hb, hnm⟩ := (generic_spec (W := W) hi (hin c rfl)).2 i h
    have := hn g.base hb c (hin c rfl) hnm
    simp only [KindOf, this]
    exact hW.refl c

/-- C88: unless `isa` is given, the items are of the very type, whatever was declared before. -/
theorem C88_items_partial {w : World} {d : CDecl} {i : CRef} (h : (declare W d w).1 = .ok i) (hd : WantsIsa d = none) {t : PyType} (ht : WantsItem d t) : ItemsOf W i t := by
  have gen : ∀ {of : Option PyType} {c : Container} {i : CRef}, (generic W of c w).1 = .ok i → ∃ t g, of = some t ∧ i = .gen g ∧ g.itemtype = t := by
    intro of c i h
    cases of with
    | none => cases h
    | some t =>
      simp only [generic, makeGeneric] at h
      cases hk : alookup w.types (keyOf t c) with
      | some g =>
        simp only [hk] at h
        by_cases hne : g.itemtype ≠ t
        · rw [if_pos hne] at h; cases h
        · rw [if_neg hne] at h
          cases h
          exact ⟨t, g, rfl, rfl, by simpa using hne⟩
      | none =>
        simp only [hk] at h
        by_cases hl : W.loaded t.module = true
        · rw [if_pos hl] at h
          cases h
          exact ⟨t, _, rfl, rfl, rfl⟩
        · rw [if_neg hl] at h; cases h
  rcases declare_cases (W := W) d w with ⟨e, he⟩ | ⟨of, isa, he, hisa, hit, _⟩ | ⟨t', c', rfl⟩
  · rw [he] at h; cases h
  · rw [he] at h
    rw [hisa] at hd
    subst hd
    cases hu : usesColl d with
    | none => rw [hu] at h; cases h
    | some u =>
      rw [hu] at h
      obtain ⟨t', g, h1, rfl, h2⟩ := gen h
      rw [(hit t).1 ht] at h1
      cases h1
      exact h2
  · cases ht
    obtain ⟨t', g, h1, rfl, h2⟩ := gen h
    cases h1
    exact h2

/-- C88: what `isa` names is what is used; its items are of a type from which that asked for is derived. -/
theorem C88_isa {w : World} {d : CDecl} {i j : CRef} (h : (declare W d w).1 = .ok i) (hd : WantsIsa d = some j) :
    i = j ∧ (∃ t', ItemsOf W j t') ∧ ∀ t, WantsItem d t → ∃ t', ItemsOf W j t' ∧ W.subItem t t' = true := by
  have io : ∀ {t'}, itemOf W j = some t' → ItemsOf W j t' := by
    intro t' h
    cases j with
    | cls k => exact h
    | gen g => exact Option.some.inj h
  rcases declare_cases (W := W) d w with ⟨e, he⟩ | ⟨of, isa, he, hisa, hit, _⟩ | ⟨t', c', rfl⟩
  · rw [he] at h; cases h
  · rw [he] at h
    rw [hisa] at hd
    subst hd
    obtain ⟨rfl, _, t', h1, h2⟩ := collType_isa h
    exact ⟨rfl, ⟨t', io h1⟩, fun t ht => ⟨t', io h1, h2 t ((hit t).1 ht)⟩⟩
  · cases hd

/-! ## Cases -/

def animal : PyType := ⟨10, "zoo", "Animal"⟩
def dog : PyType := ⟨11, "zoo", "Dog"⟩
def animalList : Container := ⟨20, "AnimalList", "", false⟩
/-- two collection classes of one name, in different modules -/
def bagList : Container := ⟨30, "Bag", "Bag", false⟩
def bagDict : Container := ⟨31, "Bag", "Bag", true⟩

/-- A dog is an animal; an `AnimalList` is a list of them; `Bag` is a list in one module and a dict in another. -/
def zoo : Classes := ⟨fun a b => a == b || (a == dog && b == animal),
  fun a b => a == b || ((a == animalList || a == bagList) && b == listCollection) || (a == bagDict && b == dictCollection),
  fun c => if c = animalList then some animal else none, fun _ => true⟩

theorem zoo_good : GoodClasses zoo where
  refl := by simp [zoo]
  trans := by
    intro a b c h1 h2
    simp only [zoo, Bool.or_eq_true, Bool.and_eq_true, beq_iff_eq] at h1 h2 ⊢
    rcases h1 with (rfl | ⟨h1, rfl⟩) | ⟨h1, rfl⟩
    · exact h2
    · rcases h2 with (rfl | ⟨h2 | h2, rfl⟩) | ⟨h2, rfl⟩
      · exact .inl (.inr ⟨h1, rfl⟩)
      · cases h2
      · cases h2
      · cases h2
    · rcases h2 with (rfl | ⟨h2 | h2, rfl⟩) | ⟨h2, rfl⟩
      · exact .inr ⟨h1, rfl⟩
      · cases h2
      · cases h2
      · cases h2
  reflItem := by simp [zoo]

/-- C88: a `ListProperty(of=Dog, isa=AnimalList)` holds any animals. -/
theorem C88_items_violated : ¬ C88_items_statement := by
  intro h
  obtain ⟨t', h1, h2⟩ := h zoo [] 0 [] (.list none (some dog) none (some (.cls animalList)) listCollection) (.cls animalList) zoo_good (by decide +kernel) dog .list
  have : t' = animal := by
    simp only [ItemsOf, zoo, if_true] at h1
    exact (Option.some.inj h1).symm
  subst this
  exact absurd h2 (by decide +kernel)

/-- C88: after `DictProperty(of=Dog, coll=Bag)`, a `ListProperty(of=Dog, coll=Bag)` with another `Bag` holds dicts. -/
theorem C88_kind_violated : ¬ C88_kind_statement := by
  intro h
  have := h zoo [] 0 [.dict none (some dog) (some bagDict) none dictCollection] (.list none (some dog) (some bagList) none listCollection)
    (.gen ⟨0, "DogBag", bagDict, dog, ("Bag", "zoo.Dog")⟩) zoo_good (by decide +kernel) listCollection .aList
  exact absurd this (by unfold KindOf; decide +kernel)

-- a list and a dict of dogs, and a list that is declared again
example : (declare zoo (.list (some dog) none none none listCollection) (declares zoo [.list none (some dog) none none listCollection, .dict none (some dog) none none dictCollection] ⟨[], [], 0⟩)).1 =
    .ok (.gen ⟨0, "DogList", listCollection, dog, ("ListCollection", "zoo.Dog")⟩) := by decide +kernel

example : NamesApart (usedColls [.list (some dog) none none none listCollection, .dict none (some dog) none none dictCollection]) := by
  unfold NamesApart usedColls
  decide +kernel

-- errors
example : (declare zoo (.coll (some dog) none none) ⟨[], [], 0⟩).1 = .error .collRequired ∧
    (declare zoo (.coll none (some listCollection) none) ⟨[], [], 0⟩).1 = .error .attributeError ∧
    (declare zoo (.list none none none (some (.cls animalList)) listCollection) ⟨[], [], 0⟩).1 = .error .listOfWhat ∧
    (declare zoo (.list (some dog) none (some bagDict) none listCollection) ⟨[], [], 0⟩).1 = .error .mustDeriveList ∧
    (declare zoo (.coll (some dog) (some dictCollection) (some (.cls animalList))) ⟨[], [], 0⟩).1 = .error .collTypeMismatch ∧
    (declare zoo (.coll (some animal) none (some (.gen ⟨0, "DogList", listCollection, dog, ("ListCollection", "zoo.Dog")⟩))) ⟨[], [], 0⟩).1 = .error .collTypeMismatch ∧
    (declare zoo (.list (some dog) (some dog) none none listCollection) ⟨[], [], 0⟩).1 = .error .typeError := by decide +kernel

end Normalize.CollProp
