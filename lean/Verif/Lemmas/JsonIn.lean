import Verif.Lemmas.JsonOut

/-!
# Lemmas about JSON input
-/

namespace Normalize.Json
open Ident (IProp Sub)

variable {J : Setup} {mk : Mk} {c : String} {js : List (Comp × Val)}

theorem alookup_none_iff {α β : Type} [DecidableEq α] {l : List (α × β)} {k : α} :
    alookup l k = none ↔ k ∉ l.map (·.1) := by
  induction l with
  | nil => simp [alookup]
  | cons x l ih =>
    obtain ⟨a, b⟩ := x
    simp only [alookup, List.map_cons, List.mem_cons, not_or]
    split
    · next h => simp [h]
    · next h => simp only [ih]; constructor
                · intro h'; exact ⟨fun h2 => h h2.symm, h'⟩
                · intro h'; exact h'.2

theorem alookup_isSome_iff {α β : Type} [DecidableEq α] {l : List (α × β)} {k : α} :
    (alookup l k).isSome = true ↔ k ∈ l.map (·.1) := by
  rw [← not_iff_not, ← alookup_none_iff]
  cases alookup l k <;> simp

theorem alookup_append {α β : Type} [DecidableEq α] (l l' : List (α × β)) (k : α) :
    alookup (l ++ l') k = match alookup l k with | some v => some v | none => alookup l' k := by
  induction l with
  | nil => simp [alookup]
  | cons x l ih =>
    obtain ⟨a, b⟩ := x
    simp only [List.cons_append, alookup]
    split
    · rfl
    · exact ih

theorem alookup_filter {α β : Type} [DecidableEq α] (l : List (α × β)) (P : α → Bool) (k : α) :
    alookup (l.filter (fun x => P x.1)) k = if P k then alookup l k else none := by
  induction l with
  | nil => simp [alookup]
  | cons x l ih =>
    obtain ⟨a, b⟩ := x
    simp only [List.filter_cons]
    by_cases hp : P a = true
    · simp only [hp, if_true, alookup]
      by_cases hk : a = k
      · subst hk; simp [hp]
      · simp [hk, ih]
    · simp only [hp, alookup]
      simp only [Bool.false_eq_true, if_false, ih]
      by_cases hk : a = k
      · subst hk; simp [hp]
      · simp [hk]

/-- Which keys a property claims. -/
theorem removeKey_ok {us us' : List Comp} {k : Comp} (h : removeKey us k = .ok us') (hn : us.Nodup) :
    us'.Nodup ∧ ∀ x, x ∈ us' ↔ x ∈ us ∧ x ≠ k := by
  unfold removeKey at h
  split at h
  · simp at h; subst h
    exact ⟨hn.erase k, fun x => by rw [hn.mem_erase_iff]; exact and_comm⟩
  · cases h

theorem takeArg_ok {p : IProp} {k : String} {j : Val} {args args' : List (String × Val)}
    (h : takeArg J mk c p k j args = .ok args') :
    ((alookup args p.name).isSome = true ∧ args' = args) ∨
    (alookup args p.name = none ∧ ∃ v, convertIn J mk c p k j = .ok v ∧ args' = args ++ [(p.name, v)]) := by
  unfold takeArg at h
  split at h
  · next hs => simp at h; exact .inl ⟨hs, h.symm⟩
  · next hs =>
    split at h
    · cases h
    · next v hv => simp at h; exact .inr ⟨by simpa using hs, v, hv, h.symm⟩

/-- What one round of the loop did. -/
theorem kwProp_ok {p : IProp} {w w' : Kw} (h : kwProp J mk c js p w = .ok w') :
    (w' = w ∧ ∀ k, jsonName J c p = some k → alookup js (.str k) = none) ∨
    ∃ k j, jsonName J c p = some k ∧ alookup js (.str k) = some j ∧
      takeArg J mk c p k j w.args = .ok w'.args ∧ removeKey w.unknown (.str k) = .ok w'.unknown := by
  unfold kwProp at h
  split at h
  · next hn => simp at h; exact .inl ⟨h.symm, fun k hk => by rw [hn] at hk; cases hk⟩
  · next k hn =>
    split at h
    · next hl => simp at h; exact .inl ⟨h.symm, fun k' hk' => by rw [hn] at hk'; cases hk'; exact hl⟩
    · next j hl =>
      refine .inr ⟨k, j, hn, hl, ?_⟩
      split at h
      · split at h
        · cases h
        · next args ha =>
          split at h
          · cases h
          · next us hu => simp at h; subst h; exact ⟨ha, hu⟩
      · split at h
        · cases h
        · next us hu =>
          split at h
          · cases h
          · next args ha => simp at h; subst h; exact ⟨ha, hu⟩

theorem kwProps_unknown : ∀ (ps : List IProp) (w w' : Kw), kwProps J mk c js ps w = .ok w' → w.unknown.Nodup →
    (∀ k ∈ w.unknown, (alookup js k).isSome = true) →
    w'.unknown.Nodup ∧ ∀ k, k ∈ w'.unknown ↔ k ∈ w.unknown ∧ ¬ ∃ p ∈ ps, ∃ nm, jsonName J c p = some nm ∧ k = .str nm := by
  intro ps
  induction ps with
  | nil => intro w w' h hn _; simp [kwProps] at h; subst h; simp [hn]
  | cons p ps ih =>
    intro w w' h hn hk
    simp only [kwProps] at h
    split at h
    · cases h
    · next w1 hw1 =>
      rcases kwProp_ok hw1 with ⟨rfl, h0⟩ | ⟨k0, j, hn0, hl, _, hr⟩
      · obtain ⟨h1, h2⟩ := ih _ _ h hn hk
        refine ⟨h1, fun k => ?_⟩
        rw [h2]
        refine and_congr_right (fun hku => not_congr ?_)
        simp only [List.mem_cons, exists_eq_or_imp, iff_or_self]
        rintro ⟨nm, hnm, rfl⟩
        have := hk _ hku
        rw [h0 nm hnm] at this
        cases this
      · obtain ⟨hn1, hm1⟩ := removeKey_ok hr hn
        obtain ⟨h1, h2⟩ := ih _ _ h hn1 (fun k hk' => hk k ((hm1 k).mp hk').1)
        refine ⟨h1, fun k => ?_⟩
        rw [h2, hm1]
        simp only [List.mem_cons, exists_eq_or_imp, not_or, hn0, Option.some.injEq, exists_eq_left', and_assoc]

theorem kwProps_nodup : ∀ (ps : List IProp) (w w' : Kw), kwProps J mk c js ps w = .ok w' →
    (w.args.map (·.1)).Nodup → (w'.args.map (·.1)).Nodup := by
  intro ps
  induction ps with
  | nil => intro w w' h hn; simp [kwProps] at h; subst h; exact hn
  | cons p ps ih =>
    intro w w' h hn
    simp only [kwProps] at h
    split at h
    · cases h
    · next w1 hw1 =>
      refine ih _ _ h ?_
      rcases kwProp_ok hw1 with ⟨rfl, _⟩ | ⟨k0, j, _, _, ht, _⟩
      · exact hn
      · rcases takeArg_ok ht with ⟨_, h2⟩ | ⟨h1, v, _, h2⟩
        · rw [h2]; exact hn
        · rw [h2]
          simp only [List.map_append, List.map_cons, List.map_nil]
          rw [List.nodup_append]
          refine ⟨hn, by simp, ?_⟩
          intro a ha b hb hab
          simp at hb
          subst hb; subst hab
          exact absurd ha (alookup_none_iff.mp h1)

theorem kwProps_other : ∀ (ps : List IProp) (w w' : Kw), kwProps J mk c js ps w = .ok w' → ∀ nm,
    (∀ p ∈ ps, p.name ≠ nm) → alookup w'.args nm = alookup w.args nm := by
  intro ps
  induction ps with
  | nil => intro w w' h nm _; simp [kwProps] at h; subst h; rfl
  | cons p ps ih =>
    intro w w' h nm hnm
    simp only [kwProps] at h
    split at h
    · cases h
    · next w1 hw1 =>
      rw [ih _ _ h nm (fun q hq => hnm q (List.mem_cons_of_mem _ hq))]
      rcases kwProp_ok hw1 with ⟨rfl, _⟩ | ⟨k0, j, _, _, ht, _⟩
      · rfl
      · rcases takeArg_ok ht with ⟨_, h2⟩ | ⟨_, v, _, h2⟩
        · rw [h2]
        · rw [h2, alookup_append]
          have := hnm p List.mem_cons_self
          simp only [alookup, this, if_false]
          cases alookup w.args nm <;> rfl

/-- The argument each property gets. -/
theorem kwProps_args : ∀ (ps : List IProp) (w w' : Kw), kwProps J mk c js ps w = .ok w' →
    (ps.map (·.name)).Nodup → ∀ p ∈ ps, alookup w.args p.name = none →
    ((∀ k, jsonName J c p = some k → alookup js (.str k) = none) ∧ alookup w'.args p.name = none) ∨
    ∃ k j v, jsonName J c p = some k ∧ alookup js (.str k) = some j ∧ convertIn J mk c p k j = .ok v ∧
      alookup w'.args p.name = some v := by
  intro ps
  induction ps with
  | nil => intro w w' _ _ p hp; simp at hp
  | cons q ps ih =>
    intro w w' h hn p hp hl
    simp only [kwProps] at h
    simp only [List.map_cons, List.nodup_cons, List.mem_map, not_exists, not_and] at hn
    split at h
    · cases h
    · next w1 hw1 =>
      rcases List.mem_cons.mp hp with rfl | hp'
      · have hoth : alookup w'.args p.name = alookup w1.args p.name :=
          kwProps_other _ _ _ h p.name (fun q hq => hn.1 q hq)
        rw [hoth]
        rcases kwProp_ok hw1 with ⟨rfl, h0⟩ | ⟨k0, j, h1, h2, ht, _⟩
        · exact .inl ⟨h0, hl⟩
        · rcases takeArg_ok ht with ⟨h3, _⟩ | ⟨_, v, h3, h4⟩
          · rw [hl] at h3; cases h3
          · refine .inr ⟨k0, j, v, h1, h2, h3, ?_⟩
            rw [h4, alookup_append, hl]
            simp [alookup]
      · refine ih _ _ h hn.2 p hp' ?_
        have hne : q.name ≠ p.name := fun he => hn.1 p hp' he.symm
        rcases kwProp_ok hw1 with ⟨rfl, h0⟩ | ⟨k0, j, h1, h2, ht, _⟩
        · exact hl
        · rcases takeArg_ok ht with ⟨_, h4⟩ | ⟨_, v, _, h4⟩
          · rw [h4]; exact hl
          · rw [h4, alookup_append, hl]
            simp [alookup, hne]

theorem kwProps_total : ∀ (ps : List IProp) (w : Kw), (ps.filterMap (jsonName J c)).Nodup →
    (∀ p ∈ ps, ∀ k j, jsonName J c p = some k → alookup js (.str k) = some j →
      Comp.str k ∈ w.unknown ∧ ∃ v, convertIn J mk c p k j = .ok v) → w.unknown.Nodup →
    ∃ w', kwProps J mk c js ps w = .ok w' := by
  intro ps
  induction ps with
  | nil => intro w _ _ _; exact ⟨w, rfl⟩
  | cons p ps ih =>
    intro w hn h hu
    have hn' : (ps.filterMap (jsonName J c)).Nodup := by
      cases hj : jsonName J c p with
      | none => rwa [List.filterMap_cons_none hj] at hn
      | some k => rw [List.filterMap_cons_some hj] at hn; exact hn.of_cons
    have : ∃ w1, kwProp J mk c js p w = .ok w1 ∧
        (∀ k ∈ w.unknown, k ∈ w1.unknown ∨ ∃ k0, jsonName J c p = some k0 ∧ k = .str k0) ∧ w1.unknown.Nodup := by
      unfold kwProp
      cases hj : jsonName J c p with
      | none => exact ⟨w, rfl, fun k hk => .inl hk, hu⟩
      | some k =>
        simp only []
        cases hl : alookup js (.str k) with
        | none => exact ⟨w, rfl, fun k hk => .inl hk, hu⟩
        | some j =>
          obtain ⟨hku, v, hv⟩ := h p List.mem_cons_self k j hj hl
          have htake : ∃ args, takeArg J mk c p k j w.args = .ok args := by
            unfold takeArg
            split
            · exact ⟨_, rfl⟩
            · rw [hv]; exact ⟨_, rfl⟩
          obtain ⟨args, hargs⟩ := htake
          have hrem : removeKey w.unknown (.str k) = .ok (w.unknown.erase (.str k)) := by simp [removeKey, hku]
          refine ⟨⟨args, w.unknown.erase (.str k)⟩, ?_, ?_, hu.erase _⟩
          · simp only [hargs, hrem]
            split <;> rfl
          · intro k' hk'
            by_cases he : k' = .str k
            · exact .inr ⟨k, rfl, he⟩
            · exact .inl ((hu.mem_erase_iff).mpr ⟨he, hk'⟩)
    obtain ⟨w1, hw1, hsub, hu1⟩ := this
    obtain ⟨w', hw'⟩ := ih w1 hn' (fun q hq k j hjq hlq => by
      obtain ⟨h1, h2⟩ := h q (List.mem_cons_of_mem _ hq) k j hjq hlq
      refine ⟨?_, h2⟩
      rcases hsub _ h1 with h3 | ⟨k0, hk0, he⟩
      · exact h3
      · exfalso
        cases he
        rw [List.filterMap_cons_some hk0] at hn
        exact (List.nodup_cons.mp hn).1 (List.mem_filterMap.mpr ⟨q, hq, hjq⟩)) hu1
    exact ⟨w', by simp [kwProps, hw1, hw']⟩

/-! ## Initialisation -/

theorem initProp_ok {p : IProp} {v : Val} {s s' : List (String × Val)} (h : initProp J mk c p v s = .ok s') :
    ∃ r, typeSafe J mk (J.info c p.name) p.types v = .ok r ∧
      ∀ nm, alookup s' nm = if nm = p.name then (match r with | some w => some w | none => alookup s nm)
        else alookup s nm := by
  unfold initProp at h
  split at h
  · cases h
  · next w hw =>
    simp at h; subst h
    refine ⟨some w, hw, fun nm => ?_⟩
    rw [alookup_aset]
    by_cases hn : p.name = nm
    · subst hn; simp
    · have : ¬ nm = p.name := fun h => hn h.symm
      simp [hn, this]
  · next hw =>
    split at h
    · cases h
    · simp at h; subst h; exact ⟨none, hw, fun nm => by simp⟩

theorem findProp_name {nm : String} {p : IProp} (h : findProp J c nm = some p) :
    p ∈ (J.S.cls c).props ∧ p.name = nm := by
  unfold findProp at h
  exact ⟨List.mem_of_find?_eq_some h, by simpa using List.find?_some h⟩

theorem findProp_of_mem {p : IProp} (hn : ((J.S.cls c).props.map (·.name)).Nodup) (hp : p ∈ (J.S.cls c).props) :
    findProp J c p.name = some p := by
  unfold findProp
  generalize (J.S.cls c).props = ps at hn hp
  induction ps with
  | nil => simp at hp
  | cons q ps ih =>
    simp only [List.map_cons, List.nodup_cons, List.mem_map, not_exists, not_and] at hn
    rcases List.mem_cons.mp hp with rfl | hp
    · simp
    · have : ¬ q.name = p.name := fun h => hn.1 p hp h.symm
      simp only [List.find?_cons, this, decide_false]
      exact ih hn.2 hp

theorem initArgs_ok : ∀ (kw s s' : List (String × Val)), initArgs J mk c kw s = .ok s' → (kw.map (·.1)).Nodup →
    ∀ nm, (alookup kw nm = none → alookup s' nm = alookup s nm) ∧
      ∀ v, alookup kw nm = some v → ∃ p r, findProp J c nm = some p ∧
        typeSafe J mk (J.info c p.name) p.types v = .ok r ∧
        alookup s' nm = (match r with | some w => some w | none => alookup s nm) := by
  intro kw
  induction kw with
  | nil => intro s s' h _ nm; simp [initArgs] at h; subst h; simp [alookup]
  | cons x kw ih =>
    obtain ⟨k, v⟩ := x
    intro s s' h hn nm
    simp only [List.map_cons, List.nodup_cons] at hn
    simp only [initArgs] at h
    split at h
    · cases h
    · next p hp =>
      split at h
      · cases h
      · next s1 hs1 =>
        have hname := (findProp_name hp).2
        obtain ⟨r, hr, hl⟩ := initProp_ok hs1
        obtain ⟨h1, h2⟩ := ih _ _ h hn.2 nm
        by_cases hk : k = nm
        · subst hk
          have h0 : alookup kw k = none := alookup_none_iff.mpr hn.1
          simp only [alookup, if_true]
          refine ⟨by simp, ?_⟩
          intro v' hv'
          simp at hv'; subst hv'
          refine ⟨p, r, hp, hr, ?_⟩
          rw [h1 h0, hl, if_pos hname.symm]
        · simp only [alookup, hk, if_false]
          have hl' : alookup s1 nm = alookup s nm := by
            rw [hl, if_neg]
            rw [hname]; exact fun h => hk h.symm
          rw [hl'] at h1 h2
          exact ⟨h1, h2⟩

theorem initArgs_total : ∀ (kw s : List (String × Val)),
    (∀ x ∈ kw, ∃ p w, findProp J c x.1 = some p ∧ typeSafe J mk (J.info c p.name) p.types x.2 = .ok (some w)) →
    ∃ s', initArgs J mk c kw s = .ok s' := by
  intro kw
  induction kw with
  | nil => intro s _; exact ⟨s, rfl⟩
  | cons x kw ih =>
    obtain ⟨k, v⟩ := x
    intro s h
    obtain ⟨p, w, hp, hw⟩ := h (k, v) List.mem_cons_self
    simp only at hp hw
    obtain ⟨s', hs'⟩ := ih (aset s p.name w) (fun y hy => h y (List.mem_cons_of_mem _ hy))
    exact ⟨s', by simp [initArgs, hp, initProp, hw, hs']⟩

theorem initDefault_ok {p : IProp} {s s' : List (String × Val)} (h : initDefault J mk c p s = .ok s') :
    ∀ nm, nm ≠ p.name → alookup s' nm = alookup s nm := by
  intro nm hnm
  unfold initDefault at h
  split at h
  · split at h
    · cases h
    · simp at h; subst h; rfl
  · obtain ⟨r, _, hl⟩ := initProp_ok h
    rw [hl, if_neg hnm]

theorem initMissing_ok : ∀ (ps : List IProp) (s s' : List (String × Val)), initMissing J mk c ps s = .ok s' →
    ∀ nm, (∀ p ∈ ps, p.name ≠ nm) → alookup s' nm = alookup s nm := by
  intro ps
  induction ps with
  | nil => intro s s' h nm _; simp [initMissing] at h; subst h; rfl
  | cons p ps ih =>
    intro s s' h nm hnm
    simp only [initMissing] at h
    split at h
    · cases h
    · next s1 hs1 =>
      rw [ih _ _ h nm (fun q hq => hnm q (List.mem_cons_of_mem _ hq)),
        initDefault_ok hs1 nm (fun he => hnm p List.mem_cons_self he.symm)]

theorem initMissing_total : ∀ (ps : List IProp) (s : List (String × Val)),
    (∀ p ∈ ps, ∃ d w, (J.info c p.name).default = some d ∧ typeSafe J mk (J.info c p.name) p.types d = .ok (some w)) →
    ∃ s', initMissing J mk c ps s = .ok s' := by
  intro ps
  induction ps with
  | nil => intro s _; exact ⟨s, rfl⟩
  | cons p ps ih =>
    intro s h
    obtain ⟨d, w, hd, hw⟩ := h p List.mem_cons_self
    obtain ⟨s', hs'⟩ := ih (aset s p.name w) (fun y hy => h y (List.mem_cons_of_mem _ hy))
    exact ⟨s', by simp [initMissing, initDefault, hd, initProp, hw, hs']⟩

theorem initRecord_ok {kw : List (String × Val)} {v : Val} (h : initRecord J mk c kw = .ok v) :
    ∃ s1 s', initArgs J mk c kw [] = .ok s1 ∧ v = .rcd c s' ∧ initMissing J mk c
      ((J.S.cls c).props.filter (fun p => eager J c p && (alookup kw p.name).isNone)) s1 = .ok s' := by
  unfold initRecord at h
  split at h
  · cases h
  · next s1 hs1 =>
    split at h
    · cases h
    · next s' hs' => simp at h; exact ⟨s1, s', hs1, h.symm, hs'⟩

/-- What is known about the slots of a new record. -/
theorem initRecord_slots {kw : List (String × Val)} {s' : List (String × Val)}
    (h : initRecord J mk c kw = .ok (.rcd c s')) (hn : (kw.map (·.1)).Nodup) (nm : String) :
    (∀ v, alookup kw nm = some v → ∃ p r, findProp J c nm = some p ∧
        typeSafe J mk (J.info c p.name) p.types v = .ok r ∧ alookup s' nm = r) ∧
    (alookup kw nm = none → (∀ p ∈ (J.S.cls c).props, p.name = nm → eager J c p = false) → alookup s' nm = none) := by
  obtain ⟨s1, s2, h1, h2, h3⟩ := initRecord_ok h
  cases h2
  constructor
  · intro v hv
    obtain ⟨p, r, hp, hr, hl⟩ := (initArgs_ok _ _ _ h1 hn nm).2 v hv
    refine ⟨p, r, hp, hr, ?_⟩
    rw [initMissing_ok _ _ _ h3 nm ?_, hl]
    · cases r <;> rfl
    · intro q hq he
      rw [List.mem_filter] at hq
      rw [he, hv] at hq
      simp at hq
  · intro hv he
    rw [initMissing_ok _ _ _ h3 nm ?_, (initArgs_ok _ _ _ h1 hn nm).1 hv]
    · rfl
    · intro q hq hqn
      rw [List.mem_filter] at hq
      have := he q hq.1 hqn
      simp [this] at hq

end Normalize.Json
