import Verif.Lemmas.MfsGet

/-!
# MultiFieldSelector.get returns what the selectors point at
-/

namespace Normalize.Mfs

open Spec

variable {C : Ctors} {E : Env}

theorem get_cons_congr {x y : Val} {c : Comp} (hc : c ≠ .none) {p : FS}
    (h : (∀ e, step E x c = .error e → step E y c = .error e) ∧
      (∀ v, step E x c = .ok v → ∃ v', step E y c = .ok v' ∧ Normalize.get E p v' = Normalize.get E p v)) :
    Normalize.get E (c :: p) y = Normalize.get E (c :: p) x := by
  rw [get_cons hc, get_cons hc]
  cases hs : step E x c with
  | error e => rw [h.1 e hs]
  | ok v =>
    obtain ⟨v', h1, h2⟩ := h.2 v hs
    rw [h1]; exact h2

theorem get_none_congr {x y : Val} {p : FS} {xs ys : List Val} (hx : iterVal x = .ok xs) (hy : iterVal y = .ok ys)
    (h : List.Forall₂ (fun a b => Normalize.get E p b = Normalize.get E p a) xs ys) :
    Normalize.get E (.none :: p) y = Normalize.get E (.none :: p) x := by
  simp only [Normalize.get, hx, hy]
  congr 1
  clear hx hy
  induction h with
  | nil => rfl
  | cons hab _ ih => simp [hab, ih]

theorem clean_item {xs : List Val} {x : Val} (hx : x = .list xs ∨ ∃ cls, x = .lcoll cls xs) (h : Clean E x) :
    ∀ v ∈ xs, Clean E v := by
  rcases hx with rfl | ⟨cls, rfl⟩
  · cases h; assumption
  · cases h; assumption

theorem clean_value {xs : List (Comp × Val)} {x : Val} (hx : x = .dict xs ∨ ∃ cls, x = .dcoll cls xs)
    (h : Clean E x) : ∀ e ∈ xs, Clean E e.2 := by
  rcases hx with rfl | ⟨cls, rfl⟩
  · cases h; assumption
  · cases h; assumption

theorem alookup_mem {κ α : Type} [DecidableEq κ] {d : List (κ × α)} {k : κ} {v : α} (h : alookup d k = some v) :
    (k, v) ∈ d := by
  induction d with
  | nil => simp [alookup] at h
  | cons e d ih =>
    obtain ⟨k', v'⟩ := e
    simp only [alookup] at h
    split at h
    · rename_i hk; simp at h; simp [hk, h]
    · simp [ih h]

theorem forall2_getElem {α β : Type} {R : α → β → Prop} {xs : List α} {ys : List β} (h : List.Forall₂ R xs ys) :
    xs.length = ys.length ∧ ∀ i (h1 : i < xs.length) (h2 : i < ys.length), R xs[i] ys[i] := by
  induction h with
  | nil => simp
  | cons hab _ ih =>
    refine ⟨by simp [ih.1], ?_⟩
    intro i h1 h2
    cases i with
    | zero => exact hab
    | succ i => exact ih.2 i (by simpa using h1) (by simpa using h2)

theorem forall2_getIdx {α β : Type} {R : α → β → Prop} {xs : List α} {ys : List β} (h : List.Forall₂ R xs ys)
    (i : Int) : (getIdx xs i = none ∧ getIdx ys i = none) ∨
      ∃ a b, getIdx xs i = some a ∧ getIdx ys i = some b ∧ a ∈ xs ∧ R a b := by
  obtain ⟨hl, hg⟩ := forall2_getElem h
  unfold getIdx
  rw [← hl]
  cases hp : pyIndex xs.length i with
  | none => left; exact ⟨rfl, rfl⟩
  | some k =>
    have hk := pyIndex_lt hp
    right
    refine ⟨xs[k], ys[k]'(by omega), ?_, ?_, List.getElem_mem _, hg k hk (by omega)⟩
    · simp [List.getElem?_eq_getElem hk]
    · simp [List.getElem?_eq_getElem (show k < ys.length by omega)]

/-- What a list-like becomes. -/
theorem list_get {h : Heads} (w : WF h) {x y : Val} {xs ys : List Val}
    (hx : x = .list xs ∨ ∃ cls, x = .lcoll cls xs) (hy : y = .list ys ∨ ∃ cls, y = .lcoll cls ys)
    (hs : hasString h = false) (hv : listVals (getters C E h) x xs = .ok ys)
    (hfirst : FirstItems E h x)
    (ih : ∀ c t, (c, t) ∈ h → ∀ a b, Part E x c a → getT C E t a = .ok b → ∀ p, ContT t p →
      Normalize.get E p b = Normalize.get E p a)
    {fs : FS} (hc : containsPath h fs = true) :
    Normalize.get E fs y = Normalize.get E fs x ∨ (fs = [] ∧ xs = ys) := by
  have hseq : IsSeq x := by rcases hx with rfl | ⟨_, rfl⟩ <;> trivial
  have hstep : ∀ {z : Val} {zs : List Val}, (z = .list zs ∨ ∃ cls, z = .lcoll cls zs) → ∀ i : Int,
      step E z (.int i) = match getIdx zs i with | some v => .ok v | none => .error (.fsKey (.int i)) := by
    intro z zs hz i
    rcases hz with rfl | ⟨_, rfl⟩ <;>
    · simp only [step, tryIndex, getItem, if_true]
      cases getIdx zs i <;> rfl
  have hstr : ∀ {z : Val} {zs : List Val}, (z = .list zs ∨ ∃ cls, z = .lcoll cls zs) → ∀ nm : String,
      step E z (.str nm) = .error .typeError := by
    intro z zs hz nm
    rcases hz with rfl | ⟨_, rfl⟩ <;> rfl
  have hiter : ∀ {z : Val} {zs : List Val}, (z = .list zs ∨ ∃ cls, z = .lcoll cls zs) → iterVal z = .ok zs := by
    intro z zs hz
    rcases hz with rfl | ⟨_, rfl⟩ <;> rfl
  by_cases hn : hasNone h = true
  · obtain ⟨t, rfl⟩ := w.single hn
    simp only [listVals, getters, alookup, if_true] at hv
    have h2 := mapE_eq_forall2 hv
    have hpart : ∀ a ∈ xs, Part E x .none a := by
      intro a ha
      rcases hx with rfl | ⟨_, rfl⟩
      · exact .list ha
      · exact .lcoll ha
    cases fs with
    | nil =>
      right
      have hcomp := w.complete_iff.1 hc
      simp [completeHeads] at hcomp; subst hcomp
      refine ⟨rfl, ?_⟩
      have : mapE (getT C E .all) xs = .ok xs := mapE_id (fun a _ => by simp [getT])
      rw [this] at hv; simpa using hv
    | cons c p =>
      left
      have hct : ContT t p := by
        obtain ⟨t', hm, ht⟩ := (contains_cons w).1 hc
        simp [headKey, hasNone] at hm; subst hm; exact ht
      have h3 : List.Forall₂ (fun a b => Normalize.get E p b = Normalize.get E p a) xs ys := by
        have : ∀ {xs ys : List Val}, List.Forall₂ (fun a b => getT C E t a = .ok b) xs ys →
            (∀ a ∈ xs, Part E x .none a) →
            List.Forall₂ (fun a b => Normalize.get E p b = Normalize.get E p a) xs ys := by
          intro xs ys h
          induction h with
          | nil => intro _; exact .nil
          | cons hab _ ih2 =>
            intro hp
            exact .cons (ih .none t (by simp) _ _ (hp _ (by simp)) hab p hct)
              (ih2 (fun a ha => hp a (by simp [ha])))
        exact this h2 hpart
      cases c with
      | none => exact get_none_congr (hiter hx) (hiter hy) h3
      | str nm =>
        refine get_cons_congr (by simp) ⟨?_, ?_⟩
        · intro e he; rw [hstr hx] at he; rw [hstr hy]; exact he
        · intro v he; rw [hstr hx] at he; simp at he
      | int i =>
        refine get_cons_congr (by simp) ⟨?_, ?_⟩
        · intro e he
          rw [hstep hx] at he; rw [hstep hy]
          rcases forall2_getIdx h3 i with ⟨h4, h5⟩ | ⟨a, b, h4, h5, _, _⟩
          · rw [h4] at he; rw [h5]; exact he
          · rw [h4] at he; simp at he
        · intro v he
          rw [hstep hx] at he; rw [hstep hy]
          rcases forall2_getIdx h3 i with ⟨h4, h5⟩ | ⟨a, b, h4, h5, _, h6⟩
          · rw [h4] at he; simp at he
          · rw [h4] at he; simp at he; subst he
            rw [h5]; exact ⟨b, rfl, h6⟩
  · have hn : hasNone h = false := by simpa using hn
    left
    cases fs with
    | nil =>
      have hcomp := w.complete_iff.1 hc
      subst hcomp; simp [completeHeads, hasNone] at hn
    | cons c p =>
      obtain ⟨t, hm, hct⟩ := (contains_cons w).1 hc
      rw [show headKey h c = c by simp [headKey, hn]] at hm
      cases c with
      | none => exact absurd rfl (not_hasNone_mem hn hm)
      | str nm =>
        exfalso
        have : hasString h = true := by unfold hasString; rw [List.any_eq_true]; exact ⟨_, hm, rfl⟩
        simp [hs] at this
      | int i =>
        have hnl : alookup (getters C E h) .none = none := by
          rw [alookup_getters]
          cases hl : lookup h .none with
          | none => rfl
          | some t => exact absurd rfl (not_hasNone_mem hn (lookup_mem hl))
        simp only [listVals, hnl] at hv
        obtain ⟨h1, h2⟩ : (∃ k : Nat, ∀ i, (∃ t, (Comp.int i, t) ∈ h) ↔ 0 ≤ i ∧ i < k) ∧ True := by
          cases hfirst with
          | mk h1 h2 =>
            refine ⟨h1 hseq ?_, trivial⟩
            unfold hasInt; rw [List.any_eq_true]; exact ⟨_, hm, rfl⟩
        obtain ⟨k, hk⟩ := h1
        have hkeys := sortHeads_range (C := C) (E := E) w hn hs hk
        have hik := (hk i).1 ⟨t, hm⟩
        obtain ⟨i, rfl⟩ : ∃ n : Nat, i = n := ⟨i.toNat, by omega⟩
        have hik : i < k := by omega
        -- the i-th head is i
        have hlen : (sortHeads (getters C E h)).length = k := by
          have := congrArg List.length hkeys; simpa using this
        have hkey : ((sortHeads (getters C E h))[i]'(by omega)).1 = .int i := by
          have : ((sortHeads (getters C E h)).map (·.1))[i]'(by simp; omega) =
              ((List.range k).map (fun i : Nat => Comp.int (i : Int)))[i]'(by simp; omega) := by
            simp only [hkeys]
          simpa using this
        have hget : ((sortHeads (getters C E h))[i]'(by omega)) = (.int i, getT C E t) := by
          have hmem : ((sortHeads (getters C E h))[i]'(by omega)) ∈ getters C E h :=
            (List.perm_insertionSort _ _).mem_iff.1 (List.getElem_mem _)
          generalize (sortHeads (getters C E h))[i]'(by omega) = g at hmem hkey
          rw [getters_eq] at hmem
          obtain ⟨⟨d, t'⟩, hd, he⟩ := List.mem_map.1 hmem
          subst he
          simp only at hkey; subst hkey
          have e1 := lookup_of_mem w.nodup hd
          have e2 := lookup_of_mem w.nodup hm
          rw [e1] at e2; simp at e2; subst e2; rfl
        have hf := mapE_eq_forall2 hv
        obtain ⟨hl, hg⟩ := forall2_getElem hf
        have hgi := hg i (by omega) (by omega)
        rw [hget] at hgi
        have hyi : getIdx ys (i : Int) = some (ys[i]'(by omega)) := by
          have : pyIndex ys.length (i : Int) = some i := by simp [pyIndex]; omega
          simp [getIdx, this]
        unfold getPart at hgi
        simp only at hgi
        have hgit : getItem x (.int i) = match getIdx xs (i : Int) with
            | some v => .ok v | none => .error .indexError := by
          rcases hx with rfl | ⟨_, rfl⟩ <;>
          · simp only [getItem]
            cases getIdx xs (i : Int) <;> rfl
        cases hxi : getIdx xs (i : Int) with
        | none => rw [hgit, hxi] at hgi; simp at hgi
        | some v =>
          rw [hgit, hxi] at hgi
          simp only at hgi
          have hsx : step E x (.int i) = .ok v := by rw [hstep hx, hxi]
          refine get_cons_congr (by simp) ⟨?_, ?_⟩
          · intro e he; rw [hsx] at he; simp at he
          · intro v2 he
            rw [hsx] at he; simp at he; subst he
            refine ⟨ys[i]'(by omega), by rw [hstep hy, hyi], ?_⟩
            exact ih _ t hm v _ (.step (by simp) hsx) hgi p hct

theorem forall2_alookup {R : Val → Val → Prop} {xs ys : List (Comp × Val)}
    (h : List.Forall₂ (fun a b => a.1 = b.1 ∧ R a.2 b.2) xs ys) (c : Comp) :
    (alookup xs c = none ∧ alookup ys c = none) ∨
      ∃ a b, alookup xs c = some a ∧ alookup ys c = some b ∧ R a b := by
  induction h with
  | nil => left; exact ⟨rfl, rfl⟩
  | @cons a b l m hab _ ih =>
    obtain ⟨k, a⟩ := a
    obtain ⟨k', b⟩ := b
    obtain ⟨hk, hr⟩ := hab
    simp only at hk; subst hk
    simp only [alookup]
    by_cases hkc : k = c
    · right; exact ⟨a, b, by simp [hkc], by simp [hkc], hr⟩
    · simpa [hkc] using ih

/-- What a dict-like becomes. -/
theorem dict_get {h : Heads} (w : WF h) {x y : Val} {xs ys : List (Comp × Val)}
    (hx : x = .dict xs ∨ ∃ cls, x = .dcoll cls xs) (hy : y = .dict ys ∨ ∃ cls, y = .dcoll cls ys)
    (post : Except Exc Val → Except Exc Val)
    (hpost : ∀ c t a, (c, t) ∈ h → Part E x c a → ∀ b, post (getT C E t a) = .ok b → getT C E t a = .ok b)
    (hposte : ∀ e, post (.error e) = .error e)
    (hv : dictVals (getters C E h) x xs post = .ok ys)
    (ih : ∀ c t, (c, t) ∈ h → ∀ a b, Part E x c a → getT C E t a = .ok b → ∀ p, ContT t p →
      Normalize.get E p b = Normalize.get E p a)
    {fs : FS} (hc : containsPath h fs = true) :
    Normalize.get E fs y = Normalize.get E fs x ∨ (fs = [] ∧ xs = ys) := by
  have hstep : ∀ {z : Val} {zs : List (Comp × Val)}, (z = .dict zs ∨ ∃ cls, z = .dcoll cls zs) → ∀ c : Comp,
      step E z c = match alookup zs c with | some v => .ok v | none => .error .keyError := by
    intro z zs hz c
    have ht : tryIndex z c = true := by rcases hz with rfl | ⟨_, rfl⟩ <;> cases c <;> rfl
    have hg : getItem z c = match alookup zs c with | some v => .ok v | none => .error .keyError := by
      rcases hz with rfl | ⟨_, rfl⟩ <;>
      · simp only [getItem]
        cases alookup zs c <;> rfl
    simp only [step, ht, if_true, hg]
    cases alookup zs c <;> rfl
  have hgit : ∀ c, getItem x c = match alookup xs c with | some v => .ok v | none => .error .keyError := by
    intro c
    rcases hx with rfl | ⟨_, rfl⟩ <;>
    · simp only [getItem]
      cases alookup xs c <;> rfl
  have hiter : ∀ {z : Val} {zs : List (Comp × Val)}, (z = .dict zs ∨ ∃ cls, z = .dcoll cls zs) →
      iterVal z = .ok (zs.map (fun x => ofComp x.1)) := by
    intro z zs hz
    rcases hz with rfl | ⟨_, rfl⟩ <;> rfl
  by_cases hn : hasNone h = true
  · obtain ⟨t, rfl⟩ := w.single hn
    simp only [dictVals, getters, alookup, if_true] at hv
    have hpart : ∀ a ∈ xs, Part E x .none a.2 := by
      intro a ha
      rcases hx with rfl | ⟨_, rfl⟩
      · exact .dict (k := a.1) ha
      · exact .dcoll (k := a.1) ha
    have h2 : List.Forall₂ (fun a b => a.1 = b.1 ∧ (getT C E t a.2 = .ok b.2 ∧ Part E x .none a.2)) xs ys := by
      have := mapE_eq_forall2 hv
      clear hv
      have key : ∀ {l m : List (Comp × Val)}, (∀ a ∈ l, Part E x .none a.2) →
          List.Forall₂ (fun a b => pairE a.1 (post (getT C E t a.2)) = .ok b) l m →
          List.Forall₂ (fun a b => a.1 = b.1 ∧ (getT C E t a.2 = .ok b.2 ∧ Part E x .none a.2)) l m := by
        intro l m hp hl
        induction hl with
        | nil => exact .nil
        | @cons a b l m hab _ ih2 =>
          refine .cons ?_ (ih2 (fun a ha => hp a (by simp [ha])))
          unfold pairE at hab
          split at hab
          · simp at hab
          · rename_i v hv'
            simp at hab; subst hab
            exact ⟨rfl, hpost .none t _ (by simp) (hp a (by simp)) _ hv', hp a (by simp)⟩
      exact key hpart this
    cases fs with
    | nil =>
      right
      refine ⟨rfl, ?_⟩
      have hcomp := w.complete_iff.1 hc
      simp [completeHeads] at hcomp; subst hcomp
      have key : ∀ {l m : List (Comp × Val)},
          List.Forall₂ (fun a b => a.1 = b.1 ∧ (getT C E .all a.2 = .ok b.2 ∧ Part E x .none a.2)) l m → l = m := by
        intro l m hl
        induction hl with
        | nil => rfl
        | @cons a b l m hab _ ih2 =>
          obtain ⟨a1, a2⟩ := a; obtain ⟨b1, b2⟩ := b
          simp [getT] at hab
          rw [hab.1, hab.2.1, ih2]
      exact key h2
    | cons c p =>
      left
      have hct : ContT t p := by
        obtain ⟨t', hm, ht⟩ := (contains_cons w).1 hc
        simp [headKey, hasNone] at hm; subst hm; exact ht
      by_cases hcn : c = .none
      · subst hcn
        refine get_none_congr (hiter hx) (hiter hy) ?_
        have hkeys : ys.map (fun x => ofComp x.1) = xs.map (fun x => ofComp x.1) := by
          have key : ∀ {l m : List (Comp × Val)},
              List.Forall₂ (fun a b => a.1 = b.1 ∧ (getT C E t a.2 = .ok b.2 ∧ Part E x .none a.2)) l m →
              m.map (fun x => ofComp x.1) = l.map (fun x => ofComp x.1) := by
            intro l m hl
            induction hl with
            | nil => rfl
            | cons hab _ ih2 => simp [hab.1]; exact ih2
          exact key h2
        rw [hkeys]
        generalize xs.map (fun x => ofComp x.1) = l
        induction l with
        | nil => exact .nil
        | cons a l ih2 => exact .cons rfl ih2
      · refine get_cons_congr hcn ⟨?_, ?_⟩
        · intro e he
          rw [hstep hx] at he; rw [hstep hy]
          rcases forall2_alookup (R := fun a b => getT C E t a = .ok b ∧ Part E x .none a) h2 c with ⟨h4, h5⟩ | ⟨a, b, h4, h5, _⟩
          · rw [h4] at he; rw [h5]; exact he
          · rw [h4] at he; simp at he
        · intro v he
          rw [hstep hx] at he; rw [hstep hy]
          rcases forall2_alookup (R := fun a b => getT C E t a = .ok b ∧ Part E x .none a) h2 c with ⟨h4, h5⟩ | ⟨a, b, h4, h5, h6, h7⟩
          · rw [h4] at he; simp at he
          · rw [h4] at he; simp at he; subst he
            rw [h5]
            exact ⟨b, rfl, ih .none t (by simp) _ _ h7 h6 p hct⟩
  · have hn : hasNone h = false := by simpa using hn
    left
    cases fs with
    | nil =>
      have hcomp := w.complete_iff.1 hc
      subst hcomp; simp [completeHeads, hasNone] at hn
    | cons c p =>
      obtain ⟨t, hm, hct⟩ := (contains_cons w).1 hc
      rw [show headKey h c = c by simp [headKey, hn]] at hm
      have hcn : c ≠ .none := not_hasNone_mem hn hm
      have hnl : alookup (getters C E h) .none = none := by
        rw [alookup_getters]
        cases hl : lookup h .none with
        | none => rfl
        | some t => exact absurd rfl (not_hasNone_mem hn (lookup_mem hl))
      simp only [dictVals, hnl] at hv
      have key : ∀ {l : Heads} {m : List (Comp × Val)},
          (l.map (·.1)).Nodup →
          mapE (fun g => pairE g.1 (post (getPart x g)))
            ((getters C E l).filter (fun g => (alookup xs g.1).isSome)) = .ok m →
          (∀ t, (c, t) ∉ l) → alookup m c = none := by
        intro l
        induction l with
        | nil => intro m _ hm _; simp [getters, mapE] at hm; subst hm; rfl
        | cons e l ih2 =>
          obtain ⟨d, t⟩ := e
          intro m hnd hm hno
          simp only [getters, List.filter_cons] at hm
          have hnd2 : (l.map (·.1)).Nodup := by simp at hnd; exact hnd.2
          split at hm
          · unfold mapE at hm
            split at hm
            · simp at hm
            · rename_i b hb
              split at hm
              · simp at hm
              · rename_i bs hbs
                simp at hm; subst hm
                unfold pairE at hb
                split at hb
                · simp at hb
                · simp at hb; subst hb
                  have : d ≠ c := by rintro rfl; exact hno t (by simp)
                  simp only [alookup, this, if_false]
                  exact ih2 hnd2 hbs (fun t ht => hno t (by simp [ht]))
          · exact ih2 hnd2 hm (fun t ht => hno t (by simp [ht]))
      have key2 : ∀ {l : Heads} {m : List (Comp × Val)},
          (l.map (·.1)).Nodup →
          mapE (fun g => pairE g.1 (post (getPart x g)))
            ((getters C E l).filter (fun g => (alookup xs g.1).isSome)) = .ok m →
          (c, t) ∈ l → 
          (alookup xs c = none ∧ alookup m c = none) ∨
          ∃ a b, alookup xs c = some a ∧ post (getT C E t a) = .ok b ∧ alookup m c = some b := by
        intro l
        induction l with
        | nil => intro m _ _ hm; simp at hm
        | cons e l ih2 =>
          obtain ⟨d, t'⟩ := e
          intro m hnd hE hin
          have hm0 := hE
          simp only [getters, List.filter_cons] at hE
          have hnd2 : (l.map (·.1)).Nodup := by simp at hnd; exact hnd.2
          have hnd1 : ∀ t, (d, t) ∉ l := by
            intro t ht; simp at hnd; exact hnd.1 _ ht
          by_cases hdc : d = c
          · subst hdc
            have htt : t' = t := by
              rcases List.mem_cons.1 hin with h1 | h1
              · simp at h1; exact h1.symm
              · exact absurd h1 (hnd1 t)
            subst htt
            cases hxc : alookup xs d with
            | none =>
              left
              simp [hxc] at hE
              refine ⟨rfl, key hnd2 hE hnd1⟩
            | some a =>
              right
              simp only [hxc, Option.isSome_some, if_true] at hE
              unfold mapE at hE
              split at hE
              · simp at hE
              · rename_i b hb
                split at hE
                · simp at hE
                · rename_i bs hbs
                  simp at hE; subst hE
                  unfold pairE at hb
                  split at hb
                  · simp at hb
                  · rename_i v hv2
                    simp at hb; subst hb
                    unfold getPart at hv2
                    simp only [hgit, hxc] at hv2
                    exact ⟨a, v, rfl, hv2, by simp [alookup]⟩
          · have hin2 : (c, t) ∈ l := by
              rcases List.mem_cons.1 hin with h1 | h1
              · simp at h1; exact absurd h1.1.symm hdc
              · exact h1
            split at hE
            · unfold mapE at hE
              split at hE
              · simp at hE
              · rename_i b hb
                split at hE
                · simp at hE
                · rename_i bs hbs
                  simp at hE; subst hE
                  unfold pairE at hb
                  split at hb
                  · simp at hb
                  · simp at hb; subst hb
                    simp only [alookup, hdc, if_false]
                    exact ih2 hnd2 hbs hin2
            · exact ih2 hnd2 hE hin2
      have h4 := key2 w.nodup hv hm
      refine get_cons_congr hcn ⟨?_, ?_⟩
      · intro e he
        rw [hstep hx] at he; rw [hstep hy]
        rcases h4 with ⟨h4, h5⟩ | ⟨a, b, h4, h5, h6⟩
        · rw [h4] at he; rw [h5]; exact he
        · rw [h4] at he; simp at he
      · intro v he
        have hs0 := he
        rw [hstep hx] at he; rw [hstep hy]
        rcases h4 with ⟨h4, h5⟩ | ⟨a, b, h4, h5, h6⟩
        · rw [h4] at he; simp at he
        · rw [h4] at he; simp at he; subst he
          rw [h6]
          have hpt : Part E x c a := .step hcn hs0
          exact ⟨b, rfl, ih c t hm a b hpt (hpost c t a hm hpt b h5) p hct⟩

theorem clean_part {x a : Val} {c : Comp} (h : Clean E x) (hp : Part E x c a) : Clean E a := by
  cases hp with
  | list hm => exact clean_item (.inl rfl) h _ hm
  | lcoll hm => exact clean_item (.inr ⟨_, rfl⟩) h _ hm
  | dict hm => exact clean_value (.inl rfl) h _ hm
  | dcoll hm => exact clean_value (.inr ⟨_, rfl⟩) h _ hm
  | step hc hs =>
    have hseq : ∀ xs (i : Int), getIdx xs i = some a → (∀ v ∈ xs, Clean E v) → Clean E a := by
      intro xs i hi hx
      unfold getIdx at hi
      cases hp : pyIndex xs.length i with
      | none => simp [hp] at hi
      | some k => simp [hp] at hi; exact hx _ (List.mem_of_getElem? hi)
    cases h with
    | atom =>
      rename_i at'
      simp only [step] at hs
      cases at' <;> cases c <;> simp [tryIndex, getItem, getAttr] at hs
    | list hx =>
      cases c <;> simp [step, tryIndex, getItem] at hs
      rename_i xs i
      cases hi : getIdx xs i with
      | none => simp [hi] at hs
      | some v => simp [hi] at hs; subst hs; exact hseq _ _ hi hx
    | lcoll _ hx =>
      cases c <;> simp [step, tryIndex, getItem] at hs
      rename_i xs _ i
      cases hi : getIdx xs i with
      | none => simp [hi] at hs
      | some v => simp [hi] at hs; subst hs; exact hseq _ _ hi hx
    | dict hx =>
      rename_i xs
      have ht : tryIndex (.dict xs) c = true := by cases c <;> rfl
      simp only [step, ht, if_true, getItem] at hs
      cases hi : alookup xs c with
      | none => simp [hi] at hs
      | some v => simp [hi] at hs; subst hs; exact hx _ (alookup_mem hi)
    | dcoll _ hx =>
      rename_i cls xs _
      have ht : tryIndex (.dcoll cls xs) c = true := by cases c <;> rfl
      simp only [step, ht, if_true, getItem] at hs
      cases hi : alookup xs c with
      | none => simp [hi] at hs
      | some v => simp [hi] at hs; subst hs; exact hx _ (alookup_mem hi)
    | rcd _ hx =>
      rename_i cls sl _
      cases c with
      | none => exact absurd rfl hc
      | int i => simp [step, tryIndex, getItem] at hs
      | str nm =>
        simp only [step, tryIndex, getAttr] at hs
        cases hi : alookup sl nm with
        | some v => simp [hi] at hs; subst hs; exact hx _ (alookup_mem hi)
        | none =>
          simp only [hi] at hs
          cases hu : (E.attr cls nm).bind (·.unset) with
          | none => simp [hu] at hs
          | some u => simp [hu] at hs; subst hs; exact .atom

theorem forall2_mem {α β : Type} {R : α → β → Prop} {xs : List α} {ys : List β} (h : List.Forall₂ R xs ys) {b : β}
    (hb : b ∈ ys) : ∃ a ∈ xs, R a b := by
  induction h with
  | nil => simp at hb
  | cons hab _ ih =>
    rcases List.mem_cons.1 hb with rfl | hb
    · exact ⟨_, by simp, hab⟩
    · obtain ⟨a, ha, hr⟩ := ih hb
      exact ⟨a, by simp [ha], hr⟩

theorem listVals_mem {h : Heads} {x : Val} {xs vs : List Val} (hx : x = .list xs ∨ ∃ cls, x = .lcoll cls xs)
    (_hs : ¬ hasString h = true) (hv : listVals (getters C E h) x xs = .ok vs) {v : Val} (hm : v ∈ vs) :
    ∃ a t, a ∈ xs ∧ getT C E t a = .ok v := by
  unfold listVals at hv
  split at hv
  · rename_i g hg
    rw [alookup_getters] at hg
    cases hl : lookup h .none with
    | none => simp [hl] at hg
    | some t =>
      simp [hl] at hg; subst hg
      obtain ⟨a, ha, hr⟩ := forall2_mem (mapE_eq_forall2 hv) hm
      exact ⟨a, t, ha, hr⟩
  · obtain ⟨g, hg, hr⟩ := forall2_mem (mapE_eq_forall2 hv) hm
    have hg := (List.perm_insertionSort _ _).mem_iff.1 hg
    rw [getters_eq] at hg
    obtain ⟨⟨c, t⟩, _, rfl⟩ := List.mem_map.1 hg
    unfold getPart at hr
    split at hr
    · simp at hr
    · rename_i a ha
      refine ⟨a, t, ?_, hr⟩
      have key : ∀ i : Int, getIdx xs i = some a → a ∈ xs := by
        intro i hi
        unfold getIdx at hi
        cases hp : pyIndex xs.length i with
        | none => simp [hp] at hi
        | some k => simp [hp] at hi; exact List.mem_of_getElem? hi
      rcases hx with rfl | ⟨_, rfl⟩ <;>
      · cases c with
        | none => simp [getItem] at ha
        | str s => simp [getItem] at ha
        | int i =>
          simp only [getItem] at ha
          cases hi : getIdx xs i with
          | none => simp [hi] at ha
          | some v => simp [hi] at ha; subst ha; exact key i hi

theorem step_rcd {cls : String} {sl : List (String × Val)} (nm : String) :
    step E (.rcd cls sl) (.str nm) =
      match getAttr E (.rcd cls sl) (.str nm) with
      | .ok v => .ok v
      | .error .attributeError => .error (.fsAttribute nm)
      | .error e => .error e := by
  simp only [step, tryIndex]
  rfl

/-- Filtering by a set of selectors keeps what each selector in the set reads. -/
theorem get_same (hF : Faithful C E) {h : Heads} (w : WF h) : ∀ {x y : Val} (hcl : Clean E x) (hfi : FirstItems E h x)
    (hg : getWith C E h (getters C E h) x = .ok y) {fs : FS} (hc : containsPath h fs = true),
    Normalize.get E fs y = Normalize.get E fs x := by
  induction w with
  | mk h nodup single nonempty sub ihw =>
    have w : WF h := .mk h nodup single nonempty sub
    intro x y hcl hfi hg fs hc
    have ih : ∀ c t, (c, t) ∈ h → ∀ a b, Part E x c a → getT C E t a = .ok b → ∀ p, ContT t p →
        Normalize.get E p b = Normalize.get E p a := by
      intro c t hm a b hp hb p hct
      cases t with
      | all => simp [getT] at hb; rw [hb]
      | node s =>
        have hfi' : FirstItems E s a := by
          cases hfi with
          | mk _ h2 => exact h2 c s a hm hp
        exact ihw c s hm (clean_part hcl hp) hfi' hb hct
    cases x with
    | list xs =>
      simp only [getWith] at hg
      split at hg
      · simp at hg
      · rename_i hs
        split at hg
        · simp at hg
        · rename_i vs hv
          simp at hg; subst hg
          rcases list_get w (.inl rfl) (.inl rfl) (by simpa using hs) hv hfi ih hc with h1 | ⟨rfl, rfl⟩
          · exact h1
          · rfl
    | lcoll cls xs =>
      simp only [getWith] at hg
      split at hg
      · simp at hg
      · rename_i hs
        split at hg
        · simp at hg
        · rename_i vs hv
          split at hg
          · simp at hg
          · rename_i vs' hv'
            simp at hg; subst hg
            have hvs : vs' = vs := by
              have hid : mapE (E.coerceItem cls) vs = .ok vs := by
                refine mapE_id ?_
                intro v hvm
                have hmem : ∃ a t, a ∈ xs ∧ getT C E t a = .ok v := listVals_mem (.inr ⟨_, rfl⟩) hs hv hvm
                obtain ⟨a, t, ha, hat⟩ := hmem
                cases hcl with
                | lcoll h1 _ => exact getT_interch hF hat cls (h1 a ha)
              rw [hid] at hv'; simpa using hv'.symm
            subst hvs
            rcases list_get w (.inr ⟨_, rfl⟩) (.inr ⟨_, rfl⟩) (by simpa using hs) hv hfi ih hc with h1 | ⟨rfl, rfl⟩
            · exact h1
            · rfl
    | dict xs =>
      simp only [getWith] at hg
      split at hg
      · simp at hg
      · rename_i vs hv
        simp at hg; subst hg
        rcases dict_get w (.inl rfl) (.inl rfl) id (fun _ _ _ _ _ _ hb => hb) (fun _ => rfl) hv ih hc with h1 | ⟨rfl, rfl⟩
        · exact h1
        · rfl
    | dcoll cls xs =>
      simp only [getWith] at hg
      split at hg
      · simp at hg
      · rename_i vs hv
        simp at hg; subst hg
        have hpost : ∀ c t a, (c, t) ∈ h → Part E (.dcoll cls xs) c a → ∀ b,
            thenCoerce E cls (getT C E t a) = .ok b → getT C E t a = .ok b := by
          intro c t a _ hp b hb
          unfold thenCoerce at hb
          split at hb
          · simp at hb
          · rename_i v hv2
            have hca : E.coerceItem cls a = .ok a := by
              cases hcl with
              | dcoll h1 _ =>
                cases hp with
                | dcoll hm => exact h1 _ hm
                | step hc hs =>
                  have ht : tryIndex (.dcoll cls xs) c = true := by cases c <;> rfl
                  simp only [step, ht, if_true, getItem] at hs
                  cases hi : alookup xs c with
                  | none => simp [hi] at hs
                  | some v => simp [hi] at hs; subst hs; exact h1 _ (alookup_mem hi)
            have := getT_interch hF hv2 cls hca
            rw [this] at hb; rw [hv2]; exact hb
        rcases dict_get w (.inr ⟨_, rfl⟩) (.inr ⟨_, rfl⟩) (thenCoerce E cls) hpost (fun _ => rfl) hv ih hc with h1 | ⟨rfl, rfl⟩
        · exact h1
        · rfl
    | atom a =>
      simp only [getWith] at hg
      split at hg
      · simp at hg
      · rename_i h1
        split at hg
        · simp at hg; subst hg; rfl
        · rename_i hn
          split at hg
          · simp at hg
          · simp only [construct] at hg
            obtain ⟨b, rfl, _⟩ := hF.atom _ _ hg
            cases fs with
            | nil =>
              have hcomp := w.complete_iff.1 hc
              subst hcomp; simp [completeHeads, hasNone] at hn
            | cons c p =>
              obtain ⟨t, hm, _⟩ := (contains_cons w).1 hc
              have hn' : hasNone h = false := by simpa using hn
              rw [show headKey h c = c by simp [headKey, hn']] at hm
              cases c with
              | none => exact absurd rfl (not_hasNone_mem hn' hm)
              | int i =>
                exfalso
                have : hasInt h = true := by unfold hasInt; rw [List.any_eq_true]; exact ⟨_, hm, rfl⟩
                simp [this] at h1
              | str nm =>
                refine get_cons_congr (by simp) ⟨?_, ?_⟩
                · intro e he
                  have : ∀ z : Atom, step E (.atom z) (.str nm) = .error (.fsAttribute nm) := by
                    intro z; cases z <;> rfl
                  rw [this] at he ⊢; exact he
                · intro e he
                  have : ∀ z : Atom, step E (.atom z) (.str nm) = .error (.fsAttribute nm) := by
                    intro z; cases z <;> rfl
                  rw [this] at he; simp at he
    | rcd cls sl =>
      simp only [getWith] at hg
      split at hg
      · simp at hg
      · rename_i h1
        split at hg
        · simp at hg; subst hg; rfl
        · rename_i hn
          split at hg
          · simp at hg
          · rename_i kw hkw
            simp only [construct] at hg
            obtain ⟨sl', rfl, hsl⟩ := hF.rcd _ _ _ hg
            cases fs with
            | nil =>
              have hcomp := w.complete_iff.1 hc
              subst hcomp; simp [completeHeads, hasNone] at hn
            | cons c p =>
              obtain ⟨t, hm, hct⟩ := (contains_cons w).1 hc
              have hn' : hasNone h = false := by simpa using hn
              rw [show headKey h c = c by simp [headKey, hn']] at hm
              cases c with
              | none => exact absurd rfl (not_hasNone_mem hn' hm)
              | int i =>
                exfalso
                have : hasInt h = true := by unfold hasInt; rw [List.any_eq_true]; exact ⟨_, hm, rfl⟩
                simp [this] at h1
              | str nm =>
                have hk := kwVals_lookup hkw (by simpa [getters_eq, List.map_map, Function.comp_def] using w.nodup) nm
                rw [alookup_getters, lookup_of_mem w.nodup hm] at hk
                simp only [Option.map_some] at hk
                have hfall : alookup sl' nm = none → alookup sl nm = none →
                    step E (.rcd cls sl') (.str nm) = step E (.rcd cls sl) (.str nm) := by
                  intro e1 e2
                  simp only [step, tryIndex, getAttr, e1, e2, Bool.false_eq_true, if_false]
                cases hat : alookup sl nm with
                | some v =>
                  have hga : getAttr E (.rcd cls sl) (.str nm) = .ok v := by simp [getAttr, hat]
                  have hvn : v ≠ .none := by
                    cases hcl with
                    | rcd h1 _ => exact h1 _ (alookup_mem hat)
                  rw [hga] at hk
                  simp only [hvn, if_false] at hk
                  obtain ⟨v', e1, e2⟩ := hk
                  have hsx : step E (.rcd cls sl) (.str nm) = .ok v := by rw [step_rcd, hga]
                  refine get_cons_congr (by simp) ⟨fun e he => by rw [hsx] at he; simp at he, ?_⟩
                  intro u hu
                  rw [hsx] at hu; simp at hu; subst hu
                  refine ⟨v', ?_, ih _ t hm v v' (.step (by simp) hsx) e1 p hct⟩
                  rw [step_rcd, getAttr, hsl nm, e2]
                | none =>
                  cases hun : (E.attr cls nm).bind (·.unset) with
                  | none =>
                    have hga : getAttr E (.rcd cls sl) (.str nm) = .error .attributeError := by
                      simp [getAttr, hat, hun]
                    rw [hga] at hk
                    simp only at hk
                    have := hfall (by rw [hsl]; exact hk) hat
                    rw [get_cons (by simp), get_cons (by simp), this]
                  | some u =>
                    have hga : getAttr E (.rcd cls sl) (.str nm) = .ok (.atom u) := by
                      simp [getAttr, hat, hun]
                    rw [hga] at hk
                    simp only at hk
                    split at hk
                    · have := hfall (by rw [hsl]; exact hk) hat
                      rw [get_cons (by simp), get_cons (by simp), this]
                    · obtain ⟨v', e1, e2⟩ := hk
                      have hsx : step E (.rcd cls sl) (.str nm) = .ok (.atom u) := by rw [step_rcd, hga]
                      refine get_cons_congr (by simp) ⟨fun e he => by rw [hsx] at he; simp at he, ?_⟩
                      intro u' hu
                      rw [hsx] at hu; simp at hu; subst hu
                      refine ⟨v', ?_, ih _ t hm _ v' (.step (by simp) hsx) e1 p hct⟩
                      rw [step_rcd, getAttr, hsl nm, e2]

end Normalize.Mfs
