import Verif.Props.Coll

/-!
# C33, C35: typed dicts
-/

namespace Normalize.Coll

open Normalize.Py

variable {V K : Type} [DecidableEq K] (C : CT V)

theorem aset_values {d : List (K × V)} (hd : AllValues C d) {k : K} {v : V} (hv : C.inst v = true) :
    AllValues C (aset d k v) := by
  induction d with
  | nil => intro x hx; rw [List.mem_singleton.1 hx]; exact hv
  | cons y d ih =>
    obtain ⟨k', v'⟩ := y
    have hd' : AllValues C d := fun x hx => hd x (List.mem_cons_of_mem _ hx)
    unfold aset
    split
    · intro x hx
      rcases List.mem_cons.1 hx with rfl | hx
      · exact hv
      · exact hd' x hx
    · intro x hx
      rcases List.mem_cons.1 hx with rfl | hx
      · exact hd _ List.mem_cons_self
      · exact ih hd' x hx

theorem aerase_sub {d : List (K × V)} {k : K} : ∀ x ∈ aerase d k, x ∈ d := by
  induction d with
  | nil => intro x hx; cases hx
  | cons y d ih =>
    obtain ⟨k', v'⟩ := y
    unfold aerase
    split
    · exact fun x hx => List.mem_cons_of_mem _ (ih x hx)
    · intro x hx
      rcases List.mem_cons.1 hx with rfl | hx
      · exact List.mem_cons_self
      · exact List.mem_cons_of_mem _ (ih x hx)

theorem updateLoop_values (h : ItemOK C) : ∀ (kvs d : List (K × V)), AllValues C d →
    AllValues C (updateLoop C kvs d).2
  | [], d, hd => hd
  | (k, v) :: kvs, d, hd => by
    unfold updateLoop
    split
    · exact hd
    · split
      · exact hd
      · next w' hw => exact updateLoop_values h kvs _ (aset_values C hd (coerceValue_inst C h hw))

theorem updateDict_values (h : ItemOK C) (kvs : List (K × V)) (r : Option Exc) (kw : List (K × V))
    {d : List (K × V)} (hd : AllValues C d) : AllValues C (updateDict C kvs r kw d).2 := by
  have h1 := updateLoop_values C h kvs d hd
  unfold updateDict
  split
  · next heq => rw [heq] at h1; exact h1
  · next d' heq =>
    rw [heq] at h1
    split
    · exact h1
    · have h2 := updateLoop_values C h kw d' h1
      split
      · next heq => rw [heq] at h2; exact h2
      · next heq => rw [heq] at h2; exact h2

theorem dstep_values (h : ItemOK C) (o : DOp V K) {d : List (K × V)} (hd : AllValues C d) :
    AllValues C (dstep C o d).2 := by
  cases o with
  | getItem k => unfold dstep withKey; simp only; split <;> exact hd
  | setItem k v =>
    unfold dstep; simp only
    split
    · next hw => exact aset_values C hd (coerceValue_inst C h hw)
    · exact hd
  | delItem k =>
    unfold dstep withKey; simp only
    split
    · exact fun x hx => hd x (aerase_sub x hx)
    · exact hd
  | clear => intro x hx; cases hx
  | pop k =>
    unfold dstep withKey; simp only
    split
    · exact fun x hx => hd x (aerase_sub x hx)
    · exact hd
  | popitem =>
    unfold dstep popLast; simp only
    split
    · exact fun x hx => hd x ((List.dropLast_sublist d).subset hx)
    · exact hd
  | update kvs r kw => exact updateDict_values C h kvs r kw hd
  | _ => exact hd

theorem drun_values (h : ItemOK C) : ∀ (os : List (DOp V K)) {d : List (K × V)}, AllValues C d →
    AllValues C (drun C os d).2
  | [], _, hd => hd
  | o :: os, _, hd => drun_values h os (dstep_values C h o hd)

theorem dictOf_values (h : ItemOK C) : ∀ (kvs : List (K × V)) (r : Option Exc) {d d' : List (K × V)},
    AllValues C d → dictOf C kvs r d = .ok d' → AllValues C d'
  | [], none, d, d', hd, he => by cases he; exact hd
  | [], some e, d, d', hd, he => by cases he
  | (k, v) :: kvs, r, d, d', hd, he => by
    unfold dictOf at he
    split at he
    · cases he
    · next w hw => exact dictOf_values h kvs r (aset_values C hd (coerceValue_inst C h hw)) he

theorem dictInit_values (h : ItemOK C) {num : Nat → K} {inp : Input V K} {d : List (K × V)}
    (hd : dictInit C num inp = .ok d) : AllValues C d := by
  have nil : AllValues C ([] : List (K × V)) := by intro x hx; cases hx
  unfold dictInit at hd
  split at hd
  all_goals first | (cases hd; done) | exact dictOf_values C h _ _ nil hd | (cases hd; exact nil)

/-- **C33** for dicts: after any constructor call and any sequence of method calls, some of which may have
raised, every value is of the item type. -/
theorem C33_dict (h : ItemOK C) {num : Nat → K} {inp : Input V K} {d : List (K × V)}
    (hd : dictInit C num inp = .ok d) (os : List (DOp V K)) :
    ∀ x ∈ (drun C os d).2, C.inst x.2 = true :=
  drun_values C h os (dictInit_values C h hd)

/-! ## C35 -/

/-- Coercing one pair. -/
theorem coercePairs_cons {k : K} {v : V} {kvs kvs' : List (K × V)} (h : coercePairs C ((k, v) :: kvs) = .ok kvs') :
    ∃ w rest, coerceValue C v = .ok w ∧ coercePairs C kvs = .ok rest ∧ kvs' = (k, w) :: rest := by
  unfold coercePairs mapE at h
  cases hv : coerceValue C v with
  | error e => simp only [coercePair, hv] at h; cases h
  | ok w =>
    simp only [coercePair, hv] at h
    split at h
    · cases h
    · next rest hr => cases h; exact ⟨w, rest, rfl, hr, rfl⟩

theorem updateLoop_ok (h : ItemOK C) : ∀ {kvs kvs' : List (K × V)} (d : List (K × V)),
    coercePairs C kvs = .ok kvs' → updateLoop C kvs d = (none, setAll kvs' d)
  | [], kvs', d, hk => by cases hk; rfl
  | (k, v) :: kvs, kvs', d, hk => by
    obtain ⟨w, rest, hw, hr, rfl⟩ := coercePairs_cons C hk
    simp only [updateLoop, hw, coerceValue_of_inst C (coerceValue_inst C h hw), setAll]
    exact updateLoop_ok h _ hr

theorem aerase_absent {d : List (K × V)} {k : K} (h : alookup d k = none) : aerase d k = d := by
  induction d with
  | nil => rfl
  | cons y d ih =>
    obtain ⟨k', v'⟩ := y
    unfold alookup at h
    unfold aerase
    split at h
    · cases h
    · next hk => rw [if_neg hk, ih h]

/-- **C35** for method calls: the effect and the result are those of the dict method on the coerced
items. -/
theorem C35_step (h : ItemOK C) {o o' : DOp V K} {d : List (K × V)} (ho : coerceDOp C o = .ok o') :
    dstep C o d = pyDict o' d := by
  cases o with
  | getItem k => cases ho; simp only [dstep, withKey, pyDict]; cases alookup d k <;> rfl
  | setItem k v =>
    unfold coerceDOp at ho; simp only at ho
    split at ho
    · next hw => cases ho; simp only [dstep, hw, pyDict]
    · cases ho
  | delItem k =>
    cases ho; simp only [dstep, withKey, pyDict]
    cases hk : alookup d k with
    | none => simp [aerase_absent hk]
    | some v => simp
  | pop k =>
    cases ho; simp only [dstep, withKey, pyDict]
    cases hk : alookup d k with
    | none => simp [aerase_absent hk]
    | some v => simp
  | popitem => cases ho; rfl
  | update kvs r kw =>
    unfold coerceDOp at ho; simp only at ho
    split at ho
    · cases ho
    · next kvs' hk =>
      split at ho
      · cases ho
      · next kw' hkw =>
        cases ho
        cases r with
        | none => simp only [dstep, updateDict, updateLoop_ok C h d hk, updateLoop_ok C h _ hkw, pyDict]
        | some e => simp only [dstep, updateDict, updateLoop_ok C h d hk, pyDict]
  | _ => cases ho; rfl

/-- A history on a python dict. -/
def pyDictRun : List (DOp V K) → List (K × V) → List (Except Exc (DRet V K)) × List (K × V)
  | [], d => ([], d)
  | o :: os, d => ((pyDict o d).1 :: (pyDictRun os (pyDict o d).2).1, (pyDictRun os (pyDict o d).2).2)

/-- **C35** over a whole history. -/
theorem C35_history (h : ItemOK C) : ∀ {os os' : List (DOp V K)} {d : List (K × V)},
    mapE (coerceDOp C) os = .ok os' → drun C os d = pyDictRun os' d
  | [], os', d, ho => by cases ho; rfl
  | o :: os, os', d, ho => by
    unfold mapE at ho
    split at ho
    · cases ho
    · next o' ho1 =>
      split at ho
      · cases ho
      · next os'' ho2 =>
        cases ho
        simp only [drun, pyDictRun, C35_step C h ho1, C35_history h ho2]

/-- Uniqueness of keys. -/
def Keyed (d : List (K × V)) : Prop := (d.map (·.1)).Nodup

theorem aset_keys (d : List (K × V)) (k : K) (v : V) :
    (aset d k v).map (·.1) = if k ∈ d.map (·.1) then d.map (·.1) else d.map (·.1) ++ [k] := by
  induction d with
  | nil => simp [aset]
  | cons y d ih =>
    obtain ⟨k', v'⟩ := y
    unfold aset
    by_cases hk : k' = k
    · subst hk; simp
    · rw [if_neg hk]
      simp only [List.map_cons, ih, List.mem_cons]
      have : ¬ k = k' := fun h => hk h.symm
      by_cases hm : k ∈ d.map (·.1)
      · rw [if_pos hm, if_pos (.inr hm)]
      · rw [if_neg hm, if_neg (fun h => h.elim this hm)]; rfl

theorem aset_Keyed {d : List (K × V)} (h : Keyed d) (k : K) (v : V) : Keyed (aset d k v) := by
  unfold Keyed at *
  rw [aset_keys]
  split
  · exact h
  · next hk =>
    rw [List.nodup_append]
    refine ⟨h, by simp, ?_⟩
    intro a ha b hb
    rw [List.mem_singleton.1 hb]
    exact fun e => hk (e ▸ ha)

theorem aerase_keys_sublist (d : List (K × V)) (k : K) : ((aerase d k).map (·.1)).Sublist (d.map (·.1)) := by
  induction d with
  | nil => exact List.Sublist.slnil
  | cons y d ih =>
    obtain ⟨k', v'⟩ := y
    unfold aerase
    split
    · exact ih.cons _
    · exact ih.cons₂ _

theorem setAll_Keyed : ∀ (kvs : List (K × V)) {d : List (K × V)}, Keyed d → Keyed (setAll kvs d)
  | [], _, h => h
  | (k, v) :: kvs, _, h => setAll_Keyed kvs (aset_Keyed h k v)

theorem updateLoop_Keyed : ∀ (kvs : List (K × V)) {d : List (K × V)}, Keyed d → Keyed (updateLoop C kvs d).2
  | [], _, h => h
  | (k, v) :: kvs, d, h => by
    unfold updateLoop
    split
    · exact h
    · split
      · exact h
      · exact updateLoop_Keyed kvs (aset_Keyed h k _)

theorem dstep_Keyed (o : DOp V K) {d : List (K × V)} (h : Keyed d) : Keyed (dstep C o d).2 := by
  cases o with
  | getItem k => unfold dstep withKey; simp only; split <;> exact h
  | setItem k v =>
    unfold dstep; simp only
    split
    · exact aset_Keyed h k _
    · exact h
  | delItem k =>
    unfold dstep withKey; simp only
    split
    · exact List.Nodup.sublist (aerase_keys_sublist d k) h
    · exact h
  | clear => exact List.nodup_nil
  | pop k =>
    unfold dstep withKey; simp only
    split
    · exact List.Nodup.sublist (aerase_keys_sublist d k) h
    · exact h
  | popitem =>
    unfold dstep popLast; simp only
    split
    · exact List.Nodup.sublist ((List.dropLast_sublist d).map _) h
    · exact h
  | update kvs r kw =>
    have h1 := updateLoop_Keyed C kvs h
    unfold dstep updateDict; simp only
    split
    · next heq => rw [heq] at h1; exact h1
    · next d' heq =>
      rw [heq] at h1
      split
      · exact h1
      · have h2 := updateLoop_Keyed C kw h1
        split
        · next heq => rw [heq] at h2; exact h2
        · next heq => rw [heq] at h2; exact h2
  | _ => exact h

theorem dictOf_Keyed : ∀ (kvs : List (K × V)) (r : Option Exc) {d d' : List (K × V)},
    Keyed d → dictOf C kvs r d = .ok d' → Keyed d'
  | [], none, d, d', hd, he => by cases he; exact hd
  | [], some e, d, d', hd, he => by cases he
  | (k, v) :: kvs, r, d, d', hd, he => by
    unfold dictOf at he
    split at he
    · cases he
    · exact dictOf_Keyed kvs r (aset_Keyed hd k _) he

/-- **C35**: no key ever occurs twice. -/
theorem C35_keys_unique {num : Nat → K} {inp : Input V K} {d : List (K × V)}
    (hd : dictInit C num inp = .ok d) (os : List (DOp V K)) : ((drun C os d).2.map (·.1)).Nodup := by
  have h0 : Keyed d := by
    have nil : Keyed ([] : List (K × V)) := List.nodup_nil
    unfold dictInit at hd
    split at hd
    all_goals first | (cases hd; done) | exact dictOf_Keyed C _ _ nil hd | (cases hd; exact nil)
  have : ∀ (os : List (DOp V K)) {d : List (K × V)}, Keyed d → Keyed (drun C os d).2 := by
    intro os
    induction os with
    | nil => exact fun h => h
    | cons o os ih => exact fun h => ih (dstep_Keyed C o h)
  exact this os h0

theorem alookup_setAll : ∀ (kvs d : List (K × V)) (x : K),
    alookup (setAll kvs d) x =
      ((kvs.reverse.find? (fun (e : K × V) => decide (e.1 = x))).elim (alookup d x) (fun e => some e.2))
  | [], d, x => rfl
  | (k, v) :: kvs, d, x => by
    simp only [setAll, List.reverse_cons, List.find?_append]
    rw [alookup_setAll kvs (aset d k v) x, alookup_aset]
    cases hf : kvs.reverse.find? (fun (e : K × V) => decide (e.1 = x)) with
    | some e => rfl
    | none =>
      by_cases hk : k = x
      · subst hk; simp
      · have : ¬ x = k := fun h => hk h.symm
        simp [hk, this]

theorem alookup_dropLast {d : List (K × V)} (h : Keyed d) (x : K) :
    alookup d.dropLast x = if some x = d.getLast?.map (·.1) then none else alookup d x := by
  induction d with
  | nil => simp [alookup]
  | cons y d ih =>
    obtain ⟨k, v⟩ := y
    have hn : k ∉ d.map (·.1) ∧ Keyed d := by
      have := h; unfold Keyed at this; rw [List.map_cons, List.nodup_cons] at this; exact this
    cases d with
    | nil =>
      simp only [List.dropLast_singleton, List.getLast?_singleton, Option.map_some, alookup]
      by_cases hk : k = x
      · subst hk; simp
      · have : ¬ x = k := fun h => hk h.symm
        simp [hk]
    | cons z d =>
      have ih := ih hn.2
      rw [List.dropLast_cons_of_ne_nil (by simp), List.getLast?_cons_cons]
      show (if k = x then some v else alookup (z :: d).dropLast x) = _
      rw [ih]
      by_cases hk : k = x
      · subst hk
        rw [if_pos rfl]
        rw [if_neg]
        · simp [alookup]
        · intro he
          apply hn.1
          cases hl : (z :: d).getLast? with
          | none => rw [hl] at he; simp at he
          | some l =>
            rw [hl] at he
            simp only [Option.map_some, Option.some.injEq] at he
            rw [he]
            exact List.mem_map_of_mem (List.mem_of_getLast? hl)
      · rw [if_neg hk]
        split
        · rfl
        · show _ = (if k = x then some v else alookup (z :: d) x)
          rw [if_neg hk]

/-- **C35**, seen as a mapping: what each key is bound to after a call. -/
theorem C35_mapping (h : ItemOK C) {o o' : DOp V K} {d : List (K × V)} (hd : Keyed d)
    (ho : coerceDOp C o = .ok o') (x : K) :
    alookup (dstep C o d).2 x = mapAfter o' (alookup d) (d.getLast?.map (·.1)) x := by
  rw [C35_step C h ho]
  clear ho
  cases o' with
  | setItem k v =>
    simp only [pyDict, alookup_aset, mapAfter]
    by_cases hk : k = x
    · subst hk; simp
    · have : ¬ x = k := fun h => hk h.symm
      simp [hk, this]
  | delItem k =>
    simp only [pyDict, alookup_aerase, mapAfter]
    by_cases hk : k = x
    · subst hk; simp
    · have : ¬ x = k := fun h => hk h.symm
      simp [hk, this]
  | pop k =>
    simp only [pyDict, alookup_aerase, mapAfter]
    by_cases hk : k = x
    · subst hk; simp
    · have : ¬ x = k := fun h => hk h.symm
      simp [hk, this]
  | popitem =>
    simp only [pyDict, mapAfter]
    rw [← alookup_dropLast hd x]
    cases hl : d.getLast? with
    | none => rw [List.getLast?_eq_none_iff] at hl; subst hl; rfl
    | some l => rfl
  | update kvs r kw =>
    cases r with
    | none =>
      simp only [pyDict, mapAfter, alookup_setAll, List.reverse_append, List.find?_append]
      cases List.find? (fun e => decide (e.1 = x)) kw.reverse <;> simp
    | some e => simp only [pyDict, mapAfter, alookup_setAll]
  | _ => rfl

theorem dictOf_ok : ∀ {kvs kvs' : List (K × V)} (d : List (K × V)), coercePairs C kvs = .ok kvs' →
    dictOf C kvs none d = .ok (setAll kvs' d)
  | [], kvs', d, hk => by cases hk; rfl
  | (k, v) :: kvs, kvs', d, hk => by
    obtain ⟨w, rest, hw, hr, rfl⟩ := coercePairs_cons C hk
    simp only [dictOf, hw, setAll]
    exact dictOf_ok _ hr

/-- The entries of something that has entries: a mapping, or another collection of the dict kind. -/
def entries : Input V K → Option (List (K × V))
  | .mapping kvs _ => some kvs
  | .iterable _ kvs => kvs
  | _ => none

/-- The claim for construction from something that has entries. -/
def C35_construction_statement : Prop :=
  ∀ (V K : Type) [DecidableEq K] (C : CT V) (num : Nat → K) (inp : Input V K) (kvs kvs' : List (K × V)),
    ItemOK C → entries inp = some kvs → coercePairs C kvs = .ok kvs' →
    dictInit C num inp = .ok (setAll kvs' [])

/-- **C35** for construction, from a python mapping. -/
theorem C35_construction_partial {num : Nat → K} {kvs kvs' : List (K × V)} {s : Option (List (K × V))}
    (hk : coercePairs C kvs = .ok kvs') :
    dictInit C num (.mapping kvs s) = .ok (setAll kvs' []) :=
  dictOf_ok C [] hk

/-- **C35** for construction from a sequence: the keys are the positions, counted from 0. -/
theorem C35_construction_seq {num : Nat → K} (hn : Function.Injective num) {xs ws : List V}
    (hw : coerceAll C ⟨xs, none⟩ = .ok ws) :
    ∃ d, dictInit C num (.seq xs) = .ok d ∧ d.map (·.2) = ws ∧ d.map (·.1) = (List.range ws.length).map num := by
  have key : ∀ (xs ws : List V) (k : Nat) (d : List (K × V)), coerceIter C xs none = (ws, none) →
      (∀ e ∈ d, ∃ i < k, e.1 = num i) →
      dictOf C ((xs.zipIdx k).map (fun x => (num x.2, x.1))) none d =
        .ok (d ++ (ws.zipIdx k).map (fun x => (num x.2, x.1))) := by
    intro xs
    induction xs with
    | nil => intro ws k d h _; cases h; simp [dictOf]
    | cons x xs ih =>
      intro ws k d h hd
      simp only [coerceIter] at h
      cases hx : coerceValue C x with
      | error e => simp [hx] at h
      | ok w =>
        simp only [hx, Prod.mk.injEq] at h
        obtain ⟨rfl, h⟩ := h
        simp only [List.zipIdx_cons, List.map_cons, dictOf, hx]
        have hs : aset d (num k) w = d ++ [(num k, w)] := by
          have : ∀ e ∈ d, e.1 ≠ num k := by
            rintro e he hk
            obtain ⟨i, hi, h'⟩ := hd e he
            have := hn (h'.symm.trans hk)
            omega
          clear hd
          induction d with
          | nil => rfl
          | cons e d ih' =>
            simp only [aset, if_neg (this e (by simp)), List.cons_append]
            rw [ih' (fun f hf => this f (by simp [hf]))]
        rw [hs, ih (coerceIter C xs none).1 _ _ (Prod.ext rfl h) (by
          intro e he
          rcases List.mem_append.1 he with he | he
          · obtain ⟨i, hi, h'⟩ := hd e he
            exact ⟨i, by omega, h'⟩
          · exact ⟨k, by omega, by simp at he; rw [he]⟩)]
        simp
  have hi : coerceIter C xs none = (ws, none) := by
    simp only [coerceAll] at hw
    split at hw
    · rename_i h; cases hw; exact h
    · cases hw
  refine ⟨_, key xs ws 0 [] hi (by simp), ?_, ?_⟩
  · refine List.ext_getElem (by simp) (by intro i h1 h2; simp)
  · refine List.ext_getElem (by simp) (by intro i h1 h2; simp)

example : ∃ d, dictInit Demo.nums id (.seq [.inl 5, .inr [6]]) = .ok d ∧ d.map (·.2) = [.inl 5, .inl 6] ∧
    d.map (·.1) = [0, 1] := C35_construction_seq Demo.nums (num := id) Function.injective_id rfl

/-- **C35** fails for construction from another `DictCollection`: its items are lost without a word. -/
theorem C35_violated : ¬ C35_construction_statement := by
  intro h
  have := h _ Nat Demo.nums id (.iterable ⟨[.inl 3], none⟩ (some [(3, .inl 7)])) [(3, .inl 7)] [(3, .inl 7)]
    Demo.nums_ok rfl rfl
  cases this

theorem updateLoop_error : ∀ {kvs : List (K × V)} {e : Exc} (d : List (K × V)), ItemOK C →
    coercePairs C kvs = .error e →
    ∃ pre x post ws, kvs = pre ++ x :: post ∧ coercePairs C pre = .ok ws ∧ coerceValue C x.2 = .error e ∧
      updateLoop C kvs d = (some e, setAll ws d)
  | [], e, d, _, hk => by cases hk
  | (k, v) :: kvs, e, d, hC, hk => by
    unfold coercePairs mapE at hk
    cases hv : coerceValue C v with
    | error e' =>
      simp only [coercePair, hv] at hk
      cases hk
      exact ⟨[], (k, v), kvs, [], rfl, rfl, hv, by simp [updateLoop, hv, setAll]⟩
    | ok w =>
      simp only [coercePair, hv] at hk
      split at hk
      · next e' hr =>
        cases hk
        obtain ⟨pre, x, post, ws, h1, h2, h3, h4⟩ := updateLoop_error (aset d k w) hC hr
        refine ⟨(k, v) :: pre, x, post, (k, w) :: ws, by rw [h1]; rfl, ?_, h3, ?_⟩
        · unfold coercePairs at h2
          simp only [coercePairs, mapE, coercePair, hv, h2]
        · simp only [updateLoop, hv, coerceValue_of_inst C (coerceValue_inst C hC hv), h4, setAll]
      · cases hk

/-- An item that cannot be coerced: the call raises.  `update` has by then stored the entries before it, as a
dict would if its argument raised there; `coll[k] = v` leaves the dict as it was. -/
theorem C35_uncoercible (h : ItemOK C) {o : DOp V K} {d : List (K × V)} {e : Exc}
    (ho : coerceDOp C o = .error e) :
    (∃ k v, o = .setItem k v ∧ dstep C o d = (.error (badItem C), d)) ∨
    (∃ kvs r kw pre x post ws e', o = .update kvs r kw ∧ kvs ++ kw = pre ++ x :: post ∧
      coercePairs C pre = .ok ws ∧ (r = none ∨ pre.length ≤ kvs.length) ∧
      dstep C o d = (.error e', setAll ws d)) := by
  cases o with
  | setItem k v =>
    unfold coerceDOp at ho; simp only at ho
    split at ho
    · cases ho
    · next e' hv =>
      cases ho
      have := coerceValue_error C hv
      subst this
      exact .inl ⟨k, v, rfl, by simp only [dstep, hv]⟩
  | update kvs r kw =>
    right
    unfold coerceDOp at ho; simp only at ho
    split at ho
    · next e' hk =>
      obtain ⟨pre, x, post, ws, h1, h2, h3, h4⟩ := updateLoop_error C d h hk
      refine ⟨kvs, r, kw, pre, x, post ++ kw, ws, e', rfl, by rw [h1]; simp, h2, .inr ?_, ?_⟩
      · rw [h1]; simp
      · simp only [dstep, updateDict, h4]
    · next kvs' hk =>
      split at ho
      · next e' hkw =>
        obtain ⟨pre, x, post, ws, h1, h2, h3, h4⟩ := updateLoop_error C (setAll kvs' d) h hkw
        cases r with
        | some e'' =>
          refine ⟨kvs, some e'', kw, kvs, ?_⟩
          cases kw with
          | nil => cases hkw
          | cons y kw =>
            exact ⟨y, kw, kvs', e'', rfl, rfl, hk, .inr (Nat.le_refl _), by
              simp only [dstep, updateDict, updateLoop_ok C h d hk]⟩
        | none =>
          refine ⟨kvs, none, kw, kvs ++ pre, x, post, kvs' ++ ws, e', rfl, by rw [h1]; simp, ?_, .inl rfl, ?_⟩
          · unfold coercePairs at *
            rw [mapE_append, hk, h2]
          · have happ : ∀ (a b d : List (K × V)), setAll (a ++ b) d = setAll b (setAll a d) := by
              intro a
              induction a with
              | nil => intros; rfl
              | cons y a ih => intro b d; exact ih b _
            simp only [dstep, updateDict, updateLoop_ok C h d hk, h4, happ]
      · cases ho
  | _ => cases ho

/-! ## Examples -/

/-- A history on `NumMap({1: 5, 2: [6]})`, with exceptions. -/
example :
    dictInit Demo.nums id (.mapping [(1, .inl 5), (2, .inr [6])] none) = .ok [(1, .inl 5), (2, .inl 6)] ∧
    drun Demo.nums [.setItem 3 (.inr [7]), .setItem 1 (.inr []), .update [(1, .inr [8]), (4, .inr [1, 2])] none [],
      .pop 9, .popitem, .getItem 1, .keys] [(1, .inl 5), (2, .inl 6)] =
      ([.ok .unit, .error .collectionItemCoerce, .error .collectionItemCoerce, .error .keyError,
        .ok (.pair 3 (.inl 7)), .ok (.item (.inl 8)), .ok (.keys [1, 2])], [(1, .inl 8), (2, .inl 6)]) := by
  constructor <;> rfl

/-- The hypotheses of `C35_history` and `C35_mapping`. -/
example : mapE (coerceDOp Demo.nums) [.update [(1, .inr [8])] none [(2, .inl 3)], .popitem, .delItem 1] =
      .ok [.update [(1, .inl 8)] none [(2, .inl 3)], .popitem, .delItem 1] ∧
    Keyed [(1, (.inl 5 : Demo.W)), (2, .inl 6)] := ⟨rfl, by unfold Keyed; decide⟩

/-- The hypotheses of `C35_uncoercible`. -/
example : coerceDOp Demo.nums (.update [(1, .inr [8]), (4, .inr [1, 2])] none []) =
    .error .collectionItemCoerce := rfl

end Normalize.Coll
