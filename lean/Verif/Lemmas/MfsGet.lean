import Verif.Spec.MfsAccess
import Verif.Lemmas.Mfs2
import Verif.Lemmas.Access
import Mathlib.Data.List.Sort

/-!
# Lemmas about MultiFieldSelector.get
-/

namespace Normalize.Mfs

open Spec

variable {C : Ctors} {E : Env}

/-- A head's target contains the path. -/
def ContT : MTree → FS → Prop
  | .all, _ => True
  | .node s, p => containsPath s p = true

theorem contains_cons {h : Heads} (w : WF h) {c : Comp} {p : FS} :
    containsPath h (c :: p) = true ↔ ∃ t, (headKey h c, t) ∈ h ∧ ContT t p := by
  by_cases hc : complete h = true
  · have := w.complete_iff.1 hc; subst this
    simp [completeHeads_contains]
    exact ⟨.all, by simp [completeHeads, headKey, hasNone], trivial⟩
  · have hc : complete h = false := by simpa using hc
    rw [containsPath_cons hc]
    cases hl : lookup h (headKey h c) with
    | none =>
      simp only [Bool.false_eq_true, false_iff]
      rintro ⟨t, hm, _⟩
      exact lookup_none hl t hm
    | some t =>
      have hm := lookup_mem hl
      constructor
      · intro hp
        refine ⟨t, hm, ?_⟩
        cases t with
        | all => trivial
        | node s => exact hp
      · rintro ⟨t', hm', ht⟩
        rw [lookup_of_mem w.nodup hm'] at hl; simp at hl; subst hl
        cases t' with
        | all => rfl
        | node s => exact ht

theorem alookup_getters (h : Heads) (c : Comp) :
    alookup (getters C E h) c = (lookup h c).map (getT C E) := by
  induction h with
  | nil => rfl
  | cons e es ih =>
    obtain ⟨d, t⟩ := e
    simp only [getters, alookup, lookup, List.find?_cons]
    by_cases h : d = c
    · simp [h]
    · simp only [h, if_false, decide_false]
      rw [ih]; rfl

theorem getters_eq (h : Heads) : getters C E h = h.map (fun e => (e.1, getT C E e.2)) := by
  induction h with
  | nil => rfl
  | cons e es ih => obtain ⟨d, t⟩ := e; simp [getters, ih]

theorem mapE_eq_forall2 {α β ε : Type} {f : α → Except ε β} {l : List α} {r : List β} (h : mapE f l = .ok r) :
    List.Forall₂ (fun a b => f a = .ok b) l r := by
  induction l generalizing r with
  | nil => simp [mapE] at h; subst h; exact .nil
  | cons a as ih =>
    unfold mapE at h
    split at h
    · simp at h
    · rename_i b hb
      split at h
      · simp at h
      · rename_i bs hbs
        simp at h; subst h
        exact .cons hb (ih hbs)

theorem mapE_id {α ε : Type} {f : α → Except ε α} {l : List α} (h : ∀ a ∈ l, f a = .ok a) : mapE f l = .ok l := by
  induction l with
  | nil => rfl
  | cons a as ih => simp [mapE, h a (by simp), ih (fun x hx => h x (by simp [hx]))]

/-- Lists whose members can be interchanged. -/
theorem coerce_items {cls : String} {xs ys zs : List Val} (hxs : ∀ v ∈ xs, E.coerceItem cls v = .ok v)
    (hr : List.Forall₂ (fun x y => Interch E x y) xs ys) (h : mapE (E.coerceItem cls) ys = .ok zs) : zs = ys := by
  have : mapE (E.coerceItem cls) ys = .ok ys := by
    apply mapE_id
    clear h
    induction hr with
    | nil => simp
    | cons hab _ ih =>
      intro v hv
      simp at hv
      rcases hv with rfl | hv
      · exact hab cls (hxs _ (by simp))
      · exact ih (fun v hv => hxs v (by simp [hv])) v hv
  rw [this] at h; simpa using h.symm

theorem interch_refl (v : Val) : Interch E v v := fun _ h => h

theorem getWith_interch (hF : Faithful C E) {h : Heads} {gs : Getters} {x y : Val}
    (hg : getWith C E h gs x = .ok y) : Interch E x y := by
  unfold getWith at hg
  split at hg
  · split at hg
    · simp at hg
    · split at hg <;> simp at hg
      subst hg; exact hF.isaList _ _
  · split at hg
    · simp at hg
    · split at hg
      · simp at hg
      · split at hg <;> simp at hg
        subst hg; exact hF.isaLcoll _ _ _
  · split at hg <;> simp at hg
    subst hg; exact hF.isaDict _ _
  · split at hg <;> simp at hg
    subst hg; exact hF.isaDcoll _ _ _
  · split at hg
    · simp at hg
    · split at hg
      · simp at hg; subst hg; exact interch_refl _
      · split at hg
        · simp at hg
        · unfold construct at hg
          split at hg
          · obtain ⟨sl, rfl, _⟩ := hF.rcd _ _ _ hg; exact hF.isaRcd _ _ _
          · obtain ⟨b, rfl, hb⟩ := hF.atom _ _ hg; exact hb
          · simp at hg

theorem getT_interch (hF : Faithful C E) {t : MTree} {x y : Val} (hg : getT C E t x = .ok y) : Interch E x y := by
  cases t with
  | all => simp [getT] at hg; subst hg; exact interch_refl _
  | node h => exact getWith_interch hF hg

/-- The keyword arguments are the filtered attributes. -/
theorem kwVals_lookup {x : Val} {gs : Getters} {kw : List (String × Val)} (h : kwVals E x gs = .ok kw)
    (hn : (gs.map (·.1)).Nodup) (nm : String) :
    match alookup gs (.str nm) with
    | none => alookup kw nm = none
    | some g =>
      match getAttr E x (.str nm) with
      | .ok v => if v = .none then alookup kw nm = none else ∃ v', g v = .ok v' ∧ alookup kw nm = some v'
      | .error _ => alookup kw nm = none := by
  induction gs generalizing kw with
  | nil => simp [kwVals] at h; subst h; rfl
  | cons e gs ih =>
    obtain ⟨c, g⟩ := e
    cases c with
    | int i => simp [kwVals] at h
    | none => simp [kwVals] at h
    | str nm' =>
      simp only [List.map_cons, List.nodup_cons] at hn
      have hnot : alookup gs (.str nm') = none := by
        cases ha : alookup gs (.str nm') with
        | none => rfl
        | some g' =>
          exfalso
          apply hn.1
          clear ih hn h
          induction gs with
          | nil => simp [alookup] at ha
          | cons e gs ih =>
            obtain ⟨d, g2⟩ := e
            simp only [alookup] at ha
            split at ha
            · rename_i hd; simp [hd]
            · simp only [List.map_cons, List.mem_cons]; exact .inr (ih ha)
      have tail : ∀ kw', kwVals E x gs = .ok kw' → alookup kw' nm' = none := by
        intro kw' hk
        have := ih hk hn.2
        by_cases hnn : nm = nm'
        · subst hnn; rw [hnot] at this; exact this
        · -- use the statement at nm'
          have key : ∀ {gs : Getters} {kw'}, kwVals E x gs = .ok kw' → alookup gs (.str nm') = none →
              alookup kw' nm' = none := by
            intro gs
            induction gs with
            | nil => intro kw' h _; simp [kwVals] at h; subst h; rfl
            | cons e gs ih2 =>
              obtain ⟨d, g2⟩ := e
              intro kw' h hl
              cases d with
              | int i => simp [kwVals] at h
              | none => simp [kwVals] at h
              | str d =>
                simp only [alookup] at hl
                split at hl
                · simp at hl
                · rename_i hd
                  simp only [kwVals] at h
                  split at h
                  · exact ih2 h hl
                  · simp at h
                  · split at h
                    · exact ih2 h hl
                    · split at h
                      · simp at h
                      · split at h
                        · simp at h
                        · rename_i r hr
                          simp at h; subst h
                          have : ¬ d = nm' := by rintro rfl; exact hd rfl
                          simp only [alookup, this, if_false]
                          exact ih2 hr hl
          exact key hk hnot
      simp only [kwVals] at h
      by_cases hnm : nm' = nm
      · subst hnm
        simp only [alookup, if_true]
        split at h
        · rename_i hg; simp only [hg]; exact tail _ h
        · simp at h
        · rename_i v hg
          simp only [hg]
          split at h
          · rename_i hv; simp only [hv, if_true]; exact tail _ h
          · rename_i hv
            simp only [hv, if_false]
            split at h
            · simp at h
            · rename_i v' hv'
              split at h
              · simp at h
              · simp at h; subst h
                exact ⟨v', hv', by simp [alookup]⟩
      · have hne : ¬ (Comp.str nm' = Comp.str nm) := by simpa using hnm
        simp only [alookup, hne, if_false]
        split at h
        · exact ih h hn.2
        · simp at h
        · split at h
          · exact ih h hn.2
          · split at h
            · simp at h
            · split at h
              · simp at h
              · rename_i r hr
                simp at h; subst h
                have := ih hr hn.2
                simp only [alookup, hnm, if_false]
                exact this

/-- A list of heads that are exactly the indices below `k`, sorted. -/
theorem sortHeads_range {h : Heads} (w : WF h) {k : Nat} (hn : hasNone h = false) (hs : hasString h = false)
    (hk : ∀ i, (∃ t, (Comp.int i, t) ∈ h) ↔ 0 ≤ i ∧ i < k) :
    (sortHeads (getters C E h)).map (·.1) = (List.range k).map (fun i : Nat => Comp.int (i : Int)) := by
  have hints : ∀ c ∈ (getters C E h).map (·.1), ∃ i, c = Comp.int i := by
    intro c hc
    simp only [getters_eq, List.map_map, List.mem_map, Function.comp] at hc
    obtain ⟨⟨d, t⟩, hm, rfl⟩ := hc
    cases d with
    | int i => exact ⟨i, rfl⟩
    | none => exact absurd rfl (not_hasNone_mem hn hm)
    | str s =>
      exfalso
      have : hasString h = true := by unfold hasString; rw [List.any_eq_true]; exact ⟨_, hm, rfl⟩
      simp [hs] at this
  have hperm : List.Perm ((sortHeads (getters C E h)).map (·.1)) ((getters C E h).map (·.1)) :=
    (List.perm_insertionSort _ _).map _
  have hkeys : (getters C E h).map (·.1) = h.map (·.1) := by simp [getters_eq]
  have hsorted : ((sortHeads (getters C E h)).map (·.1)).Pairwise
      (fun a b => ∀ i j, a = Comp.int i → b = Comp.int j → i ≤ j) := by
    haveI : Std.Total (fun (a b : Comp × (Val → Except Exc Val)) => idxOf a.1 ≤ idxOf b.1) := ⟨fun a b => by omega⟩
    haveI : IsTrans (Comp × (Val → Except Exc Val)) (fun a b => idxOf a.1 ≤ idxOf b.1) := ⟨fun a b c h1 h2 => by omega⟩
    have hp := List.pairwise_insertionSort (fun (a b : Comp × (Val → Except Exc Val)) => idxOf a.1 ≤ idxOf b.1)
      (getters C E h)
    rw [List.pairwise_map]
    refine List.Pairwise.imp ?_ hp
    intro a b hab i j hi hj
    simpa [hi, hj, idxOf] using hab
  have hnd : ((sortHeads (getters C E h)).map (·.1)).Nodup := by
    rw [hperm.nodup_iff, hkeys]; exact w.nodup
  have hnd2 : ((List.range k).map (fun i : Nat => Comp.int (i : Int))).Nodup := by
    refine List.Nodup.map ?_ List.nodup_range
    intro a b h; simp only [Comp.int.injEq] at h; omega
  have hmem : ∀ c, c ∈ (sortHeads (getters C E h)).map (·.1) ↔ c ∈ (List.range k).map (fun i : Nat => Comp.int (i : Int)) := by
    intro c
    rw [hperm.mem_iff]
    constructor
    · intro hc
      obtain ⟨i, rfl⟩ := hints c hc
      rw [hkeys] at hc
      obtain ⟨⟨d, t⟩, hm, hd⟩ := List.mem_map.1 hc
      simp at hd; subst hd
      have := (hk i).1 ⟨t, hm⟩
      rw [List.mem_map]
      exact ⟨i.toNat, by simp; omega, by simp; omega⟩
    · intro hc
      obtain ⟨i, hi, rfl⟩ := List.mem_map.1 hc
      rw [List.mem_range] at hi
      obtain ⟨t, ht⟩ := (hk i).2 ⟨by omega, by omega⟩
      rw [hkeys]
      exact List.mem_map.2 ⟨_, ht, rfl⟩
  have hpp : List.Perm ((sortHeads (getters C E h)).map (·.1)) ((List.range k).map (fun i : Nat => Comp.int (i : Int))) :=
    (List.perm_ext_iff_of_nodup hnd hnd2).2 hmem
  refine hpp.eq_of_pairwise (le := fun a b => ∀ i j, a = Comp.int i → b = Comp.int j → i ≤ j) ?_ hsorted ?_
  · intro a b ha hb h1 h2
    obtain ⟨i, _, rfl⟩ := List.mem_map.1 hb
    have ha' := (hmem a).1 ha
    obtain ⟨j, _, rfl⟩ := List.mem_map.1 ha'
    have := h1 _ _ rfl rfl
    have := h2 _ _ rfl rfl
    simp; omega
  · rw [List.pairwise_map]
    refine List.pairwise_lt_range.imp ?_
    intro a b hab i j hi hj
    simp at hi hj
    omega

end Normalize.Mfs
