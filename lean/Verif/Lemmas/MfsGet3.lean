import Verif.Lemmas.MfsGet2

/-!
# Nothing outside the selectors is in what MultiFieldSelector.get returns
-/

namespace Normalize.Mfs

open Spec

variable {C : Ctors} {E : Env}

theorem pairE_ok {k : Comp} {r : Except Exc Val} {e : Comp × Val} (h : pairE k r = .ok e) : e.1 = k ∧ r = .ok e.2 := by
  unfold pairE at h
  split at h
  · simp at h
  · simp at h; subst h; exact ⟨rfl, rfl⟩

theorem dict_back {h : Heads} {x : Val} {xs ys : List (Comp × Val)}
    (hx : x = .dict xs ∨ ∃ cls, x = .dcoll cls xs)
    (post : Except Exc Val → Except Exc Val)
    (hpost : ∀ c t a, (c, t) ∈ h → Part E x c a → ∀ b, post (getT C E t a) = .ok b → getT C E t a = .ok b)
    (hposte : ∀ e, post (.error e) = .error e)
    (w : WF h)
    (hv : dictVals (getters C E h) x xs post = .ok ys) {c : Comp} (hc : c ≠ .none) {v : Val}
    (hl : alookup ys c = some v) :
    ∃ t a, (headKey h c, t) ∈ h ∧ Part E x (headKey h c) a ∧ getT C E t a = .ok v := by
  have hm := alookup_mem hl
  have hgit : ∀ c, getItem x c = match alookup xs c with | some v => .ok v | none => .error .keyError := by
    intro c
    rcases hx with rfl | ⟨_, rfl⟩ <;>
    · simp only [getItem]
      cases alookup xs c <;> rfl
  unfold dictVals at hv
  by_cases hn : hasNone h = true
  · obtain ⟨t, rfl⟩ := w.single hn
    simp only [getters, alookup, if_true] at hv
    obtain ⟨e, he, hr⟩ := forall2_mem (mapE_eq_forall2 hv) hm
    have hp : Part E x .none e.2 := by
      rcases hx with rfl | ⟨_, rfl⟩
      · exact .dict (k := e.1) he
      · exact .dcoll (k := e.1) he
    have hk : headKey [(Comp.none, t)] c = .none := by simp [headKey, hasNone]
    rw [hk]
    exact ⟨t, e.2, by simp, hp, hpost _ t e.2 (by simp) hp _ (pairE_ok hr).2⟩
  · have hn : hasNone h = false := by simpa using hn
    have hnl : alookup (getters C E h) .none = none := by
      rw [alookup_getters]
      cases hl : lookup h .none with
      | none => rfl
      | some t => exact absurd rfl (not_hasNone_mem hn (lookup_mem hl))
    simp only [hnl] at hv
    obtain ⟨g, hg, hr⟩ := forall2_mem (mapE_eq_forall2 hv) hm
    rw [List.mem_filter, getters_eq] at hg
    obtain ⟨⟨d, t⟩, hd, rfl⟩ := List.mem_map.1 hg.1
    obtain ⟨h1, h2⟩ := pairE_ok hr
    simp only at h1 h2; subst h1
    rw [show headKey h c = c by simp [headKey, hn]]
    unfold getPart at h2
    simp only [hgit] at h2
    cases hxc : alookup xs c with
    | none => simp [hxc, hposte] at h2
    | some a =>
      simp only [hxc] at h2
      have hp : Part E x c a := by
        refine .step hc ?_
        have ht : tryIndex x c = true := by rcases hx with rfl | ⟨_, rfl⟩ <;> cases c <;> rfl
        simp only [step, ht, if_true, hgit, hxc]
      exact ⟨t, a, hd, hp, hpost c t a hd hp _ h2⟩

theorem list_back {h : Heads} {x : Val} {xs ys : List Val}
    (hx : x = .list xs ∨ ∃ cls, x = .lcoll cls xs)
    (w : WF h) (hs : hasString h = false) (hfirst : FirstItems E h x)
    (hv : listVals (getters C E h) x xs = .ok ys) {i : Int} (hi : 0 ≤ i) {v : Val}
    (hl : getIdx ys i = some v) :
    ∃ t a, (headKey h (.int i), t) ∈ h ∧ Part E x (headKey h (.int i)) a ∧ getT C E t a = .ok v := by
  have hseq : IsSeq x := by rcases hx with rfl | ⟨_, rfl⟩ <;> trivial
  have hgit : ∀ i : Int, getItem x (.int i) = match getIdx xs i with
      | some v => .ok v | none => .error .indexError := by
    intro i
    rcases hx with rfl | ⟨_, rfl⟩ <;>
    · simp only [getItem]
      cases getIdx xs i <;> rfl
  obtain ⟨n, rfl⟩ : ∃ n : Nat, i = n := ⟨i.toNat, by omega⟩
  have hlt : n < ys.length ∧ ys[n]? = some v := by
    unfold getIdx at hl
    cases hp : pyIndex ys.length (n : Int) with
    | none => simp [hp] at hl
    | some k =>
      have : k = n := by
        unfold pyIndex at hp; split at hp
        · split at hp <;> simp at hp; omega
        · omega
      subst this
      simp [hp] at hl
      exact ⟨pyIndex_lt hp, hl⟩
  unfold listVals at hv
  by_cases hn : hasNone h = true
  · obtain ⟨t, rfl⟩ := w.single hn
    simp only [getters, alookup, if_true] at hv
    obtain ⟨a, ha, hr⟩ := forall2_mem (mapE_eq_forall2 hv) (List.mem_of_getElem? hlt.2)
    rw [show headKey [(Comp.none, t)] (.int n) = .none by simp [headKey, hasNone]]
    refine ⟨t, a, by simp, ?_, hr⟩
    rcases hx with rfl | ⟨_, rfl⟩
    · exact .list ha
    · exact .lcoll ha
  · have hn : hasNone h = false := by simpa using hn
    have hnl : alookup (getters C E h) .none = none := by
      rw [alookup_getters]
      cases hl : lookup h .none with
      | none => rfl
      | some t => exact absurd rfl (not_hasNone_mem hn (lookup_mem hl))
    simp only [hnl] at hv
    have hf := mapE_eq_forall2 hv
    obtain ⟨hlen, hg⟩ := forall2_getElem hf
    have hne : hasInt h = true := by
      have h0 : 0 < (sortHeads (getters C E h)).length := by omega
      have hmem := (List.perm_insertionSort _ (getters C E h)).mem_iff.1 (List.getElem_mem h0)
      generalize (sortHeads (getters C E h))[0]'h0 = g at hmem
      rw [getters_eq] at hmem
      obtain ⟨⟨d, t⟩, hd, _⟩ := List.mem_map.1 hmem
      unfold hasInt; rw [List.any_eq_true]
      refine ⟨_, hd, ?_⟩
      cases d with
      | int i => rfl
      | none => exact absurd rfl (not_hasNone_mem hn hd)
      | str s =>
        exfalso
        have : hasString h = true := by unfold hasString; rw [List.any_eq_true]; exact ⟨_, hd, rfl⟩
        simp [hs] at this
    obtain ⟨k, hk⟩ : ∃ k : Nat, ∀ i, (∃ t, (Comp.int i, t) ∈ h) ↔ 0 ≤ i ∧ i < k := by
      cases hfirst with
      | mk h1 _ => exact h1 hseq hne
    have hkeys := sortHeads_range (C := C) (E := E) w hn hs hk
    have hlen2 : (sortHeads (getters C E h)).length = k := by
      have := congrArg List.length hkeys; simpa using this
    obtain ⟨t, hm⟩ := (hk n).2 ⟨by omega, by omega⟩
    rw [show headKey h (.int n) = .int n by simp [headKey, hn]]
    have hkey : ((sortHeads (getters C E h))[n]'(by omega)).1 = .int n := by
      have : ((sortHeads (getters C E h)).map (·.1))[n]'(by simp; omega) =
          ((List.range k).map (fun i : Nat => Comp.int (i : Int)))[n]'(by simp; omega) := by
        simp only [hkeys]
      simpa using this
    have hgi := hg n (by omega) (by omega)
    have hmem : ((sortHeads (getters C E h))[n]'(by omega)) ∈ getters C E h :=
      (List.perm_insertionSort _ _).mem_iff.1 (List.getElem_mem _)
    generalize (sortHeads (getters C E h))[n]'(by omega) = g at hmem hkey hgi
    rw [getters_eq] at hmem
    obtain ⟨⟨d, t'⟩, hd, rfl⟩ := List.mem_map.1 hmem
    simp only at hkey; subst hkey
    unfold getPart at hgi
    simp only [hgit] at hgi
    have hv' : ys[n]'(by omega) = v := by
      have := hlt.2; rw [List.getElem?_eq_getElem hlt.1] at this; simpa using this
    cases hxi : getIdx xs (n : Int) with
    | none => simp [hxi] at hgi
    | some a =>
      simp only [hxi] at hgi
      refine ⟨t', a, hd, .step (by simp) ?_, by rw [hgi, hv']⟩
      have ht : tryIndex x (.int n) = true := by rcases hx with rfl | ⟨_, rfl⟩ <;> rfl
      simp only [step, ht, if_true, hgit, hxi]

/-- Each part of the result comes from a part of the object at a head. -/
theorem step_back (hF : Faithful C E) (hun : ∀ cls nm a, E.attr cls nm = some a → a.unset = none)
    {h : Heads} (w : WF h) {x y : Val} (hcl : Clean E x) (hfi : FirstItems E h x)
    (hg : getWith C E h (getters C E h) x = .ok y) {c : Comp} (hd : Direct c) {v : Val} (hst : step E y c = .ok v) :
    ∃ t, (headKey h c, t) ∈ h ∧ (t = .all ∨ ∃ a, Part E x (headKey h c) a ∧ getT C E t a = .ok v) := by
  have hcn : c ≠ .none := by cases c <;> simp [Direct] at hd ⊢
  have hall : hasNone h = true → complete h = true →
      ∃ t, (headKey h c, t) ∈ h ∧ (t = .all ∨ ∃ a, Part E x (headKey h c) a ∧ getT C E t a = .ok v) := by
    intro hn hco
    have := w.complete_iff.1 hco
    subst this
    exact ⟨.all, by simp [completeHeads, headKey, hasNone], .inl rfl⟩
  have seqc : ∀ {z : Val} {zs : List Val}, (z = .list zs ∨ ∃ cls, z = .lcoll cls zs) → step E z c = .ok v →
      ∃ i : Int, c = .int i ∧ 0 ≤ i ∧ getIdx zs i = some v := by
    intro z zs hz hs
    cases c with
    | none => exact absurd rfl hcn
    | str s => rcases hz with rfl | ⟨_, rfl⟩ <;> simp [step, tryIndex, getItem] at hs
    | int i =>
      refine ⟨i, rfl, hd, ?_⟩
      rcases hz with rfl | ⟨_, rfl⟩ <;>
      · simp only [step, tryIndex, getItem, if_true] at hs
        cases hi : getIdx zs i with
        | none => simp [hi] at hs
        | some u => simp [hi] at hs; rw [hs]
  have dictc : ∀ {z : Val} {zs : List (Comp × Val)}, (z = .dict zs ∨ ∃ cls, z = .dcoll cls zs) → step E z c = .ok v →
      alookup zs c = some v := by
    intro z zs hz hs
    have ht : tryIndex z c = true := by rcases hz with rfl | ⟨_, rfl⟩ <;> cases c <;> rfl
    rcases hz with rfl | ⟨_, rfl⟩ <;>
    · simp only [step, ht, getItem, if_true] at hs
      cases hi : alookup zs c with
      | none => simp [hi] at hs
      | some u => simp [hi] at hs; rw [hs]
  cases x with
  | list xs =>
    simp only [getWith] at hg
    split at hg
    · simp at hg
    · rename_i hs
      split at hg
      · simp at hg
      · rename_i vs hv
        simp at hg; subst hg
        obtain ⟨i, rfl, hi, hl⟩ := seqc (.inl rfl) hst
        obtain ⟨t, a, h1, h2, h3⟩ := list_back (.inl rfl) w (by simpa using hs) hfi hv hi hl
        exact ⟨t, h1, .inr ⟨a, h2, h3⟩⟩
  | lcoll cls xs =>
    simp only [getWith] at hg
    split at hg
    · simp at hg
    · rename_i hs
      split at hg
      · simp at hg
      · rename_i vs hv
        split at hg
        · simp at hg
        · rename_i vs' hv'
          simp at hg; subst hg
          have hvs : vs' = vs := by
            have hid : mapE (E.coerceItem cls) vs = .ok vs := by
              refine mapE_id ?_
              intro v hvm
              have hmem : ∃ a t, a ∈ xs ∧ getT C E t a = .ok v := listVals_mem (.inr ⟨_, rfl⟩) hs hv hvm
              obtain ⟨a, t, ha, hat⟩ := hmem
              cases hcl with
              | lcoll h1 _ => exact getT_interch hF hat cls (h1 a ha)
            rw [hid] at hv'; simpa using hv'.symm
          subst hvs
          obtain ⟨i, rfl, hi, hl⟩ := seqc (.inr ⟨_, rfl⟩) hst
          obtain ⟨t, a, h1, h2, h3⟩ := list_back (.inr ⟨_, rfl⟩) w (by simpa using hs) hfi hv hi hl
          exact ⟨t, h1, .inr ⟨a, h2, h3⟩⟩
  | dict xs =>
    simp only [getWith] at hg
    split at hg
    · simp at hg
    · rename_i vs hv
      simp at hg; subst hg
      obtain ⟨t, a, h1, h2, h3⟩ := dict_back (.inl rfl) id (fun _ _ _ _ _ _ hb => hb) (fun _ => rfl) w hv hcn
        (dictc (.inl rfl) hst)
      exact ⟨t, h1, .inr ⟨a, h2, h3⟩⟩
  | dcoll cls xs =>
    simp only [getWith] at hg
    split at hg
    · simp at hg
    · rename_i vs hv
      simp at hg; subst hg
      have hpost : ∀ c t a, (c, t) ∈ h → Part E (.dcoll cls xs) c a → ∀ b,
          thenCoerce E cls (getT C E t a) = .ok b → getT C E t a = .ok b := by
        intro c t a _ hp b hb
        unfold thenCoerce at hb
        split at hb
        · simp at hb
        · rename_i v hv2
          have hca : E.coerceItem cls a = .ok a := by
            cases hcl with
            | dcoll h1 _ =>
              cases hp with
              | dcoll hm => exact h1 _ hm
              | step hc hs =>
                have ht : tryIndex (.dcoll cls xs) c = true := by cases c <;> rfl
                simp only [step, ht, if_true, getItem] at hs
                cases hi : alookup xs c with
                | none => simp [hi] at hs
                | some v => simp [hi] at hs; subst hs; exact h1 _ (alookup_mem hi)
          have := getT_interch hF hv2 cls hca
          rw [this] at hb; rw [hv2]; exact hb
      obtain ⟨t, a, h1, h2, h3⟩ := dict_back (.inr ⟨_, rfl⟩) _ hpost (fun _ => rfl) w hv hcn
        (dictc (.inr ⟨_, rfl⟩) hst)
      exact ⟨t, h1, .inr ⟨a, h2, h3⟩⟩
  | atom a =>
    exfalso
    have hatom : ∀ b, step E (.atom b) c ≠ .ok v := by
      intro b hs
      simp only [step] at hs
      cases b <;> cases c <;> simp [tryIndex, getItem, getAttr] at hs
    simp only [getWith] at hg
    split at hg
    · simp at hg
    · split at hg
      · simp at hg; subst hg; exact hatom _ hst
      · split at hg
        · simp at hg
        · obtain ⟨b, rfl, _⟩ := hF.atom _ _ hg
          exact hatom _ hst
  | rcd cls sl =>
    simp only [getWith] at hg
    split at hg
    · simp at hg
    · rename_i h1
      split at hg
      · rename_i hn
        refine hall hn ?_
        simp [hn] at h1; exact h1.2
      · rename_i hn
        split at hg
        · simp at hg
        · rename_i kw hkw
          obtain ⟨sl', rfl, hsl⟩ := hF.rcd _ _ _ hg
          have hn' : hasNone h = false := by simpa using hn
          rw [show headKey h c = c by simp [headKey, hn']]
          cases c with
          | none => exact absurd rfl hcn
          | int i => simp [step, tryIndex, getItem] at hst
          | str nm =>
            have hk := kwVals_lookup hkw (by simpa [getters_eq, List.map_map, Function.comp_def] using w.nodup) nm
            have hu : (E.attr cls nm).bind (·.unset) = none := by
              cases ha : E.attr cls nm with
              | none => rfl
              | some a => exact hun _ _ _ ha
            rw [step_rcd, getAttr, hsl nm] at hst
            cases hkn : alookup kw nm with
            | none => simp [hkn, hu] at hst
            | some v' =>
              simp [hkn] at hst; subst hst
              rw [alookup_getters, hkn] at hk
              cases hlk : lookup h (.str nm) with
              | none => simp [hlk] at hk
              | some t =>
                simp only [hlk, Option.map_some] at hk
                refine ⟨t, lookup_mem hlk, .inr ?_⟩
                cases hga : getAttr E (.rcd cls sl) (.str nm) with
                | error e => simp [hga] at hk
                | ok u =>
                  simp only [hga] at hk
                  split at hk
                  · simp at hk
                  · obtain ⟨u', e1, e2⟩ := hk
                    simp at e2; subst e2
                    exact ⟨u, .step (by simp) (by rw [step_rcd, hga]), e1⟩

/-- Everything in the result is covered. -/
theorem get_only (hF : Faithful C E) (hun : ∀ cls nm a, E.attr cls nm = some a → a.unset = none)
    {h : Heads} (w : WF h) : ∀ {x y : Val} (_ : Clean E x) (_ : FirstItems E h x)
    (_ : getWith C E h (getters C E h) x = .ok y) {fs : FS} (_ : fs ≠ []) (_ : ∀ c ∈ fs, Direct c) {v : Val}
    (_ : Normalize.get E fs y = .ok v), ∃ q, containsPath h (fs ++ q) = true := by
  induction w with
  | mk h nodup single nonempty sub ihw =>
    have w : WF h := .mk h nodup single nonempty sub
    intro x y hcl hfi hg fs hne hd v hv
    cases fs with
    | nil => exact absurd rfl hne
    | cons c p =>
      have hdc := hd c (by simp)
      have hcn : c ≠ .none := by cases c <;> simp [Direct] at hdc ⊢
      rw [get_cons hcn] at hv
      cases hst : step E y c with
      | error e => simp [hst] at hv
      | ok u =>
        simp only [hst] at hv
        obtain ⟨t, hm, ht⟩ := step_back hF hun w hcl hfi hg hdc hst
        cases t with
        | all => exact ⟨[], (contains_cons w).2 ⟨.all, hm, trivial⟩⟩
        | node s =>
          rcases ht with ht | ⟨a, hp, hga⟩
          · simp at ht
          · by_cases hpn : p = []
            · subst hpn
              obtain ⟨q, hq⟩ := exists_contained (sub _ _ hm) (nonempty _ _ hm)
              exact ⟨q, (contains_cons w).2 ⟨.node s, hm, hq⟩⟩
            · have hfi' : FirstItems E s a := by
                cases hfi with
                | mk _ h2 => exact h2 _ s a hm hp
              obtain ⟨q, hq⟩ := ihw _ s hm (clean_part hcl hp) hfi' hga hpn (fun c hc => hd c (by simp [hc])) hv
              exact ⟨q, (contains_cons w).2 ⟨.node s, hm, hq⟩⟩

end Normalize.Mfs
