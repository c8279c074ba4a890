import Verif.Spec.PropInit
import Verif.Lemmas.Traits
import Verif.Lemmas.AutoJson

/-!
# Facts about the model of the initialisation of properties
-/

namespace Normalize.PropInit

open Spec Traits

variable {V : Type} {I : Inits V} {r : Reg}

theorem alookup_fill (a : String) : ∀ (ds kw : Kws V), alookup (fill ds kw) a = (alookup kw a).or (alookup ds a)
  | [], kw => by simp [fill, alookup]
  | (b, v) :: ds, kw => by
    rw [fill, alookup_fill a ds]
    by_cases hb : b = a
    · subst hb
      split
      · rename_i h
        obtain ⟨w, hw⟩ := Option.isSome_iff_exists.1 h
        simp [hw]
      · rename_i h
        have h : alookup kw b = none := by simpa using h
        simp [alookup_aset, alookup, h]
    · split
      · simp [alookup, hb]
      · simp [alookup_aset, alookup, hb]

theorem alookup_ownKw {args : List String} {a : String} (h : a ∈ args) : ∀ kw : Kws V, alookup (ownKw args kw) a = alookup kw a
  | [] => rfl
  | (b, v) :: kw => by
    have ih := alookup_ownKw h kw
    unfold ownKw at ih ⊢
    simp only [List.contains_eq_mem] at ih ⊢
    by_cases hb : b = a
    · subst hb
      simp [List.filter, h, alookup]
    · by_cases hc : b ∈ args <;> simp [List.filter, hc, alookup, hb, ih]

theorem alookup_restKw {args : List String} {a : String} (h : a ∉ args) : ∀ kw : Kws V, alookup (restKw args kw) a = alookup kw a
  | [] => rfl
  | (b, v) :: kw => by
    have ih := alookup_restKw h kw
    unfold restKw at ih ⊢
    simp only [List.contains_eq_mem] at ih ⊢
    by_cases hb : b = a
    · subst hb
      simp [List.filter, h, alookup]
    · by_cases hc : b ∈ args <;> simp [List.filter, hc, alookup, hb, ih]

theorem alookup_restKw_own {args : List String} {a : String} (h : a ∈ args) (kw : Kws V) : alookup (restKw args kw) a = none := by
  by_contra hc
  have := AutoJson.alookup_isSome.1 (Option.isSome_iff_ne_none.2 hc)
  simp [restKw, h] at this

/-- The default of a type, if it is made. -/
def defOf (I : Inits V) (r : Reg) (c : Nat) (a : String) : Option V :=
  match r.types[c]? with
  | none => none
  | some t => if t.own.contains "__init__" then (I.made c).bind (fun ds => alookup ds a) else none

/-- The first default along the types. -/
def firstDef (I : Inits V) (r : Reg) (a : String) : List Nat → Option V
  | [] => none
  | c :: cs => (defOf I r c a).or (firstDef I r a cs)

theorem hasDefault_iff {c : Nat} {a : String} {v : V} : HasDefault I r c a v ↔ defOf I r c a = some v := by
  unfold HasDefault defOf TypeAt
  cases h : r.types[c]? with
  | none => simp
  | some t =>
    by_cases ho : "__init__" ∈ t.own
    · simp [ho, Option.bind_eq_some_iff]
    · simp [ho]

theorem firstDef_iff {a : String} {v : V} : ∀ {types : List Nat},
    firstDef I r a types = some v ↔ ∃ pre c post, types = pre ++ c :: post ∧ HasDefault I r c a v ∧ ∀ d ∈ pre, ∀ w, ¬ HasDefault I r d a w := by
  intro types
  induction types with
  | nil => simp [firstDef]
  | cons c cs ih =>
    rw [firstDef]
    cases hd : defOf I r c a with
    | some w =>
      constructor
      · intro h
        simp at h
        subst h
        exact ⟨[], c, cs, rfl, hasDefault_iff.2 hd, by simp⟩
      · rintro ⟨pre, c', post, h1, h2, h3⟩
        cases pre with
        | nil =>
          simp only [List.nil_append, List.cons.injEq] at h1
          rw [← h1.1, hasDefault_iff, hd] at h2
          simpa using h2
        | cons p pre =>
          simp only [List.cons_append, List.cons.injEq] at h1
          exact absurd (hasDefault_iff.2 (h1.1 ▸ hd)) (h3 p List.mem_cons_self w)
    | none =>
      simp only [Option.none_or, ih]
      constructor
      · rintro ⟨pre, c', post, h1, h2, h3⟩
        refine ⟨c :: pre, c', post, by simp [h1], h2, ?_⟩
        intro d hd' w hw
        rcases List.mem_cons.1 hd' with rfl | hd'
        · rw [hasDefault_iff, hd] at hw; cases hw
        · exact h3 d hd' w hw
      · rintro ⟨pre, c', post, h1, h2, h3⟩
        cases pre with
        | nil =>
          simp only [List.nil_append, List.cons.injEq] at h1
          rw [← h1.1, hasDefault_iff, hd] at h2
          cases h2
        | cons p pre =>
          simp only [List.cons_append, List.cons.injEq] at h1
          exact ⟨pre, c', post, h1.2, h2, fun d hd' => h3 d (List.mem_cons_of_mem _ hd')⟩

theorem shouldGet_iff {types : List Nat} {kw : Kws V} {a : String} {v : V} : ShouldGet I r types kw a v ↔ (alookup kw a).or (firstDef I r a types) = some v := by
  unfold ShouldGet
  rw [← firstDef_iff]
  cases alookup kw a <;> simp

/-- What the first type that takes the argument receives. -/
theorem inits_recv {c : Nat} {a : String} {post : List Nat} (ht : TakesArg I r c a) : ∀ {pre : List Nat} {kw : Kws V} {log : List (Nat × Kws V)},
    inits I r (pre ++ c :: post) kw = .ok log → (pre ++ c :: post).Nodup → 0 ∉ pre → (∀ d ∈ pre, ¬ TakesArg I r d a) → HandsOn I pre a → ∀ v,
    (Received log c a v ↔ (alookup kw a).or (firstDef I r a pre) = some v) := by
  -- types in the log
  have hlog : ∀ {mro : List Nat} {kw : Kws V} {log}, inits I r mro kw = .ok log → ∀ e ∈ log, e.1 ∈ mro := by
    intro mro
    induction mro with
    | nil =>
      intro kw log h
      simp only [inits] at h
      split at h <;> cases h
      simp
    | cons d ds ih =>
      intro kw log h e he
      simp only [inits] at h
      split at h
      · cases h
      · split at h
        · split at h
          · exact List.mem_cons_of_mem _ (ih h e he)
          · split at h
            · split at h
              · cases h
                simp at he
                simp [he]
              · cases h
            · split at h
              · cases h
              · split at h
                · cases h
                · rename_i log' hl
                  cases h
                  rcases List.mem_cons.1 he with rfl | he
                  · simp
                  · exact List.mem_cons_of_mem _ (ih hl e he)
        · exact List.mem_cons_of_mem _ (ih h e he)
  obtain ⟨T, hT, ho, hm, ha⟩ := ht
  unfold TypeAt at hT
  intro pre
  induction pre with
  | nil =>
    intro kw log h hn _ _ _ v
    simp only [List.nil_append, inits, hT, List.contains_iff_mem.2 ho, if_true, hm] at h
    simp only [firstDef, Option.or_none]
    split at h
    · split at h
      · cases h
        constructor
        · rintro ⟨own, h1, h2⟩
          simp at h1
          rw [← h1]; exact h2
        · intro h; exact ⟨kw, by simp, h⟩
      · cases h
    · split at h
      · cases h
      · split at h
        · cases h
        · rename_i kw' _ log' hl
          cases h
          constructor
          · rintro ⟨own, h1, h2⟩
            rcases List.mem_cons.1 h1 with h1 | h1
            · cases h1
              rw [alookup_ownKw ha] at h2
              exact h2
            · have := hlog hl _ h1
              simp only [List.nil_append, List.nodup_cons] at hn
              exact absurd this hn.1
          · intro h
            exact ⟨ownKw T.args kw, by simp, by rw [alookup_ownKw ha]; exact h⟩
  | cons d pre ih =>
    intro kw log h hn h0 hnt hp v
    have hn' : (pre ++ c :: post).Nodup := by
      simp only [List.cons_append, List.nodup_cons] at hn; exact hn.2
    have hdc : d ≠ c := by
      rintro rfl
      simp at hn
    have rec' := fun {kw : Kws V} {log} (h : inits I r (pre ++ c :: post) kw = .ok log) => ih h hn' (fun h => h0 (List.mem_cons_of_mem _ h))
      (fun e he => hnt e (List.mem_cons_of_mem _ he)) (fun e he => hp e (List.mem_cons_of_mem _ he)) v
    simp only [List.cons_append, inits] at h
    rw [firstDef]
    cases hd : r.types[d]? with
    | none => rw [hd] at h; cases h
    | some t =>
      simp only [hd] at h
      by_cases hoo : "__init__" ∈ t.own
      · simp only [List.contains_iff_mem.2 hoo, if_true] at h
        cases hmd : I.made d with
        | some ds =>
          simp only [hmd] at h
          have hdef : defOf I r d a = alookup ds a := by
            simp [defOf, hd, hoo, hmd]
          rw [rec' h, alookup_fill, hdef, Option.or_assoc]
        | none =>
          simp only [hmd] at h
          have hdef : defOf I r d a = none := by
            simp [defOf, hd, hmd]
          have hna : a ∉ t.args := fun hat => hnt d List.mem_cons_self ⟨t, hd, hoo, hmd, hat⟩
          have hd0 : d ≠ 0 := fun h => h0 (by simp [h])
          simp only [hd0, if_false] at h
          split at h
          · cases h
          · rename_i kw' hk
            split at h
            · cases h
            · rename_i log' hl
              cases h
              have hkw : alookup kw' a = alookup kw a := by
                rw [hp d List.mem_cons_self _ _ _ hk, alookup_restKw hna]
              rw [hdef, Option.none_or, ← hkw, ← rec' hl]
              constructor
              · rintro ⟨own, h1, h2⟩
                rcases List.mem_cons.1 h1 with h1 | h1
                · cases h1; exact absurd rfl hdc
                · exact ⟨own, h1, h2⟩
              · rintro ⟨own, h1, h2⟩
                exact ⟨own, List.mem_cons_of_mem _ h1, h2⟩
      · have hdef : defOf I r d a = none := by simp [defOf, hd, hoo]
        have hoo' : t.own.contains "__init__" = false := by simpa using hoo
        simp only [hoo', Bool.false_eq_true, if_false] at h
        rw [rec' h, hdef, Option.none_or]

/-- Nothing that nobody takes gets through. -/
theorem inits_unknown {a : String} : ∀ {mro : List Nat} {kw : Kws V} {log : List (Nat × Kws V)}, inits I r mro kw = .ok log → HandsOn I mro a →
    (∀ d ∈ mro, ¬ TakesArg I r d a) → alookup kw a = none := by
  intro mro
  induction mro with
  | nil =>
    intro kw log h _ _
    simp only [inits] at h
    split at h
    · rename_i hk
      simp at hk
      rw [hk]; rfl
    · cases h
  | cons d ds ih =>
    intro kw log h hp hn
    have hp' : HandsOn I ds a := fun e he => hp e (List.mem_cons_of_mem _ he)
    have hn' : ∀ e ∈ ds, ¬ TakesArg I r e a := fun e he => hn e (List.mem_cons_of_mem _ he)
    simp only [inits] at h
    cases hd : r.types[d]? with
    | none => rw [hd] at h; cases h
    | some t =>
      simp only [hd] at h
      by_cases hoo : "__init__" ∈ t.own
      · simp only [List.contains_iff_mem.2 hoo, if_true] at h
        cases hmd : I.made d with
        | some dd =>
          simp only [hmd] at h
          have := ih h hp' hn'
          rw [alookup_fill] at this
          simp at this
          exact this.1
        | none =>
          simp only [hmd] at h
          have hna : a ∉ t.args := fun hat => hn d List.mem_cons_self ⟨t, hd, hoo, hmd, hat⟩
          split at h
          · split at h
            · rename_i hall
              by_contra hc
              have hk := AutoJson.alookup_isSome.1 (Option.isSome_iff_ne_none.2 hc)
              obtain ⟨e, he, rfl⟩ := List.mem_map.1 hk
              have := List.all_eq_true.1 hall e he
              exact hna (by simpa using this)
            · cases h
          · split at h
            · cases h
            · rename_i kw' hk
              split at h
              · cases h
              · rename_i log' hl
                rw [← alookup_restKw hna, ← hp d List.mem_cons_self _ _ _ hk]
                exact ih hl hp' hn'
      · have hoo' : t.own.contains "__init__" = false := by simpa using hoo
        simp only [hoo', Bool.false_eq_true, if_false] at h
        exact ih h hp' hn'

/-- Nor does a default that is added too late. -/
theorem inits_late {a : String} {v : V} : ∀ {pre : List Nat} {m : Nat} {post : List Nat} {kw : Kws V} {log : List (Nat × Kws V)},
    inits I r (pre ++ m :: post) kw = .ok log → 0 ∉ pre → HasDefault I r m a v → HandsOn I post a → ¬ ∀ d ∈ post, ¬ TakesArg I r d a := by
  intro pre
  induction pre with
  | nil =>
    intro m post kw log h _ hd hp hn
    obtain ⟨T, ds, hT, ho, hm, hv⟩ := hd
    unfold TypeAt at hT
    simp only [List.nil_append, inits, hT, List.contains_iff_mem.2 ho, if_true, hm] at h
    have := inits_unknown h hp hn
    rw [alookup_fill, hv] at this
    cases hk : alookup kw a <;> simp [hk] at this
  | cons d pre ih =>
    intro m post kw log h h0 hd hp
    have h0' : 0 ∉ pre := fun h => h0 (List.mem_cons_of_mem _ h)
    have hd0 : d ≠ 0 := fun h => h0 (by simp [h])
    simp only [List.cons_append, inits] at h
    split at h
    · cases h
    · split at h
      · split at h
        · exact ih h h0' hd hp
        · split at h
          · cases h
          · split at h
            · cases h
            · rename_i hl
              exact ih hl h0' hd hp
      · exact ih h h0' hd hp

/-- If everything is taken by someone, there is no `TypeError`. -/
theorem inits_noTypeError : ∀ {mro : List Nat} {kw : Kws V}, (∀ pre post, mro = pre ++ 0 :: post → post = []) →
    (∀ a, (alookup kw a).isSome → ∃ c ∈ mro, TakesArg I r c a) →
    (∀ pre m post, mro = pre ++ m :: post → ∀ a v, HasDefault I r m a v → ∃ c ∈ post, TakesArg I r c a) →
    (∀ pre c post, mro = pre ++ c :: post → ∀ own rest, I.pass c own rest ≠ .error .typeError ∧
      ∀ out, I.pass c own rest = .ok out → ∀ a, (alookup out a).isSome → (alookup rest a).isSome ∨ ∃ d ∈ post, TakesArg I r d a) →
    inits I r mro kw ≠ .error .typeError := by
  intro mro
  induction mro with
  | nil =>
    intro kw _ hu _ _ h
    simp only [inits] at h
    split at h
    · cases h
    · rename_i hk
      cases kw with
      | nil => simp at hk
      | cons e kw =>
        obtain ⟨c, hc, _⟩ := hu e.1 (by simp [alookup])
        cases hc
  | cons d ds ih =>
    intro kw hz hu hm hp h
    have hz' : ∀ pre post, ds = pre ++ 0 :: post → post = [] := fun pre post he => hz (d :: pre) post (by simp [he])
    have hm' : ∀ pre m post, ds = pre ++ m :: post → ∀ a v, HasDefault I r m a v → ∃ c ∈ post, TakesArg I r c a :=
      fun pre m post he => hm (d :: pre) m post (by simp [he])
    have hp' := fun pre c post (he : ds = pre ++ c :: post) => hp (d :: pre) c post (by simp [he])
    simp only [inits] at h
    cases hd : r.types[d]? with
    | none => rw [hd] at h; cases h
    | some t =>
      simp only [hd] at h
      by_cases hoo : "__init__" ∈ t.own
      · simp only [List.contains_iff_mem.2 hoo, if_true] at h
        cases hmd : I.made d with
        | some dd =>
          simp only [hmd] at h
          refine ih hz' ?_ hm' hp' h
          intro a ha
          rw [alookup_fill] at ha
          cases hk : alookup kw a with
          | some v =>
            obtain ⟨c, hc, hct⟩ := hu a (by simp [hk])
            rcases List.mem_cons.1 hc with rfl | hc
            · obtain ⟨_, _, _, hcm, _⟩ := hct
              rw [hmd] at hcm; cases hcm
            · exact ⟨c, hc, hct⟩
          | none =>
            rw [hk] at ha
            simp at ha
            obtain ⟨v, hv⟩ := Option.isSome_iff_exists.1 ha
            exact hm [] d ds rfl a v ⟨t, dd, hd, hoo, hmd, hv⟩
        | none =>
          simp only [hmd] at h
          split at h
          · rename_i hd0
            split at h
            · cases h
            · rename_i hall
              simp only [List.all_eq_true, not_forall] at hall
              obtain ⟨e, he, hne⟩ := hall
              obtain ⟨c, hc, S, hS, _, hcm, hca⟩ := hu e.1 (AutoJson.alookup_isSome.2 (List.mem_map.2 ⟨e, he, rfl⟩))
              have hds := hz [] ds (by simp [hd0])
              subst hds
              simp at hc
              subst hc
              unfold TypeAt at hS
              rw [hd] at hS
              cases hS
              exact hne (by simpa using hca)
          · split at h
            · rename_i e hk
              cases h
              exact (hp [] d ds rfl _ _).1 hk
            · rename_i kw' hk
              split at h
              · rename_i e hl
                cases h
                refine ih hz' ?_ hm' hp' hl
                intro a ha
                rcases (hp [] d ds rfl _ _).2 _ hk a ha with hr' | hr'
                · have hna : a ∉ t.args := by
                    intro hat
                    rw [alookup_restKw_own hat] at hr'
                    cases hr'
                  rw [alookup_restKw hna] at hr'
                  obtain ⟨c, hc, hct⟩ := hu a hr'
                  rcases List.mem_cons.1 hc with rfl | hc
                  · obtain ⟨S, hS, _, _, hca⟩ := hct
                    unfold TypeAt at hS
                    rw [hd] at hS; cases hS
                    exact absurd hca hna
                  · exact ⟨c, hc, hct⟩
                · exact hr'
              · cases h
      · have hoo' : t.own.contains "__init__" = false := by simpa using hoo
        simp only [hoo', Bool.false_eq_true, if_false] at h
        refine ih hz' ?_ hm' hp' h
        intro a ha
        obtain ⟨c, hc, hct⟩ := hu a ha
        rcases List.mem_cons.1 hc with rfl | hc
        · obtain ⟨S, hS, hso, _⟩ := hct
          unfold TypeAt at hS
          rw [hd] at hS; cases hS
          exact absurd hso hoo
        · exact ⟨c, hc, hct⟩

end Normalize.PropInit
