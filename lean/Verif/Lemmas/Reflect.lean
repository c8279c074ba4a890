import Verif.Spec.Reflect
import Verif.Lemmas.AutoJson

/-!
# Facts about the model of `reflect`
-/

namespace Normalize.Reflect

open Spec

variable {W : World} {O : Opts}

theorem filtered_iff {cue : List Place} {p : RProp} : filtered O cue p = false ↔ Shown O cue p := by
  unfold filtered Shown
  cases p.extraneous <;> cases O.extraneous <;> cases O.passes cue p.name <;> simp

theorem goesTo_unique {p : RProp} {t t' : Cls} (h : GoesTo W p t) (h' : GoesTo W p t') : t = t' := by
  cases h with
  | one h hr =>
    cases h' with
    | one h' _ => rw [h] at h'; cases h'; rfl
    | union h' _ _ => rw [h] at h'; cases h'
  | union h hb hr =>
    cases h' with
    | one h' _ => rw [h] at h'; cases h'
    | union h' hb' hr' =>
      rename_i b a b' a'
      rw [h] at h'
      simp only [Isa.union.injEq] at h'
      rcases List.append_eq_append_iff.1 h' with ⟨c, rfl, hc⟩ | ⟨c, rfl, hc⟩
      · cases c with
        | nil => simp at hc; exact hc.1
        | cons x c =>
          simp at hc
          have := hb' t (by simp [hc.1])
          rw [hr] at this; cases this
      · cases c with
        | nil => simp at hc; exact hc.1.symm
        | cons x c =>
          simp at hc
          have := hb t' (by simp [hc.1])
          rw [hr'] at this; cases this

/-- What a property is described by, when there are no type errors. -/
theorem mapProp_cases {mp : Cls → Except RErr Info} (hm : ∀ t, mp t ≠ .error .typeError) (p : RProp) :
    (∃ t, GoesTo W p t ∧ mapProp W mp p = mp t) ∨ ((∀ t, ¬ GoesTo W p t) ∧ mapProp W mp p = .ok (propInfo W p)) := by
  have huni : ∀ ts before, p.isa = .union (before ++ ts) → (∀ b ∈ before, W.isRecord b = false) →
      (∃ t, GoesTo W p t ∧ mapUnion W mp p ts = mp t) ∨ ((∀ t, ¬ GoesTo W p t) ∧ mapUnion W mp p ts = .ok (propInfo W p)) := by
    intro ts
    induction ts with
    | nil =>
      intro before h hb
      right
      refine ⟨?_, rfl⟩
      rintro t (⟨h', _⟩ | ⟨h', _, hr⟩)
      · rw [h] at h'; cases h'
      · rw [h] at h'
        simp only [Isa.union.injEq, List.append_nil] at h'
        have := hb t (by simp [h'])
        rw [hr] at this; cases this
    | cons t ts ih =>
      intro before h hb
      simp only [mapUnion]
      by_cases hr : W.isRecord t = true
      · left
        refine ⟨t, .union h hb hr, ?_⟩
        simp only [hr, if_true]
        cases hmt : mp t with
        | ok i => rfl
        | error e =>
          cases e with
          | typeError => exact absurd hmt (hm t)
          | noItemtype => rfl
          | recursion => rfl
      · simp only [hr]
        exact ih (before ++ [t]) (by simp [h]) (by
          intro b hb'
          rcases List.mem_append.1 hb' with h1 | h1
          · exact hb b h1
          · simp at h1; subst h1; simpa using hr)
  unfold mapProp
  cases hi : p.isa with
  | none =>
    right
    refine ⟨?_, rfl⟩
    rintro t (⟨h, _⟩ | ⟨h, _⟩) <;> (rw [hi] at h; cases h)
  | one t =>
    by_cases hr : W.isRecord t = true
    · left; exact ⟨t, .one hi hr, by simp [hr]⟩
    · right
      refine ⟨?_, by simp [hr]⟩
      rintro t' (⟨h, hr'⟩ | ⟨h, _⟩)
      · rw [hi] at h; cases h; exact hr hr'
      · rw [hi] at h; cases h
  | union ts => exact huni ts [] (by simp [hi]) (by simp)

/-- The dict of the properties, if all can be described. -/
theorem mapRecord_ok {mp : List Place → Cls → Except RErr Info} {cue : List Place} : ∀ {ps : List RProp} {acc : List (String × Info)},
    (∀ p ∈ ps, Shown O cue p → ∃ i, mapProp W (mp (cue ++ [.prop p.name])) p = .ok i) → ∃ r, mapRecord W O mp cue ps acc = .ok r := by
  intro ps
  induction ps with
  | nil => exact fun _ => ⟨_, rfl⟩
  | cons p ps ih =>
    intro acc h
    simp only [mapRecord]
    split
    · exact ih (fun q hq => h q (List.mem_cons_of_mem _ hq))
    · rename_i hf
      obtain ⟨i, hi⟩ := h p List.mem_cons_self (filtered_iff.1 (by simpa using hf))
      simp only [hi]
      exact ih (fun q hq => h q (List.mem_cons_of_mem _ hq))

/-- What is in the dict. -/
theorem mapRecord_spec {mp : List Place → Cls → Except RErr Info} {cue : List Place} : ∀ {ps : List RProp} {acc r : List (String × Info)},
    (ps.map (·.name)).Nodup → mapRecord W O mp cue ps acc = .ok r →
    (∀ p ∈ ps, Shown O cue p → ∃ i, mapProp W (mp (cue ++ [.prop p.name])) p = .ok i ∧ alookup r p.name = some i) ∧
    (∀ a, (∀ p ∈ ps, Shown O cue p → p.name ≠ a) → alookup r a = alookup acc a) := by
  intro ps
  induction ps with
  | nil =>
    intro acc r _ h
    simp only [mapRecord] at h
    cases h
    simp
  | cons p ps ih =>
    intro acc r hn h
    simp only [List.map_cons, List.nodup_cons] at hn
    simp only [mapRecord] at h
    split at h
    · rename_i hf
      obtain ⟨h1, h2⟩ := ih hn.2 h
      refine ⟨?_, fun a ha => h2 a (fun q hq => ha q (List.mem_cons_of_mem _ hq))⟩
      intro q hq hs
      rcases List.mem_cons.1 hq with rfl | hq
      · rw [filtered_iff.2 hs] at hf; cases hf
      · exact h1 q hq hs
    · rename_i hf
      split at h
      · cases h
      · rename_i i hi
        obtain ⟨h1, h2⟩ := ih hn.2 h
        refine ⟨?_, ?_⟩
        · intro q hq hs
          rcases List.mem_cons.1 hq with rfl | hq
          · refine ⟨i, hi, ?_⟩
            rw [h2 q.name, alookup_aset]
            · simp
            · intro q' hq' _ he
              exact hn.1 (he ▸ List.mem_map.2 ⟨q', hq', rfl⟩)
          · exact h1 q hq hs
        · intro a ha
          rw [h2 a (fun q hq => ha q (List.mem_cons_of_mem _ hq)), alookup_aset, if_neg]
          exact ha p List.mem_cons_self (filtered_iff.1 (by simpa using hf))

theorem mapRecord_error {mp : List Place → Cls → Except RErr Info} {cue : List Place} {e : RErr} : ∀ {ps : List RProp} {acc : List (String × Info)},
    mapRecord W O mp cue ps acc = .error e → ∃ p ∈ ps, mapProp W (mp (cue ++ [.prop p.name])) p = .error e := by
  intro ps
  induction ps with
  | nil => intro acc h; cases h
  | cons p ps ih =>
    intro acc h
    simp only [mapRecord] at h
    split at h
    · obtain ⟨q, hq, h⟩ := ih h
      exact ⟨q, List.mem_cons_of_mem _ hq, h⟩
    · split at h
      · rename_i e' he
        cases h
        exact ⟨p, List.mem_cons_self, he⟩
      · obtain ⟨q, hq, h⟩ := ih h
        exact ⟨q, List.mem_cons_of_mem _ hq, h⟩

theorem mapItems_one {mp : List Place → Cls → Except RErr Info} {cue : List Place} {t t' : Cls} (h : W.items t = .one t') :
    mapItems W mp cue t = (mp (cue ++ [.item t']) t').map some := by
  simp only [mapItems, h]
  cases mp (cue ++ [.item t']) t' <;> rfl

/-- The only error is that of the recursion limit. -/
theorem map_error (hI : OneItemType W) : ∀ {n : Nat} {cue : List Place} {t : Cls} {e : RErr}, map W O n cue t = .error e → e = .recursion := by
  intro n
  induction n with
  | zero => intro cue t e h; cases h; rfl
  | succ n ih =>
    intro cue t e h
    have hm : ∀ cue t, map W O n cue t ≠ .error .typeError := fun cue t h => by have := ih h; cases this
    simp only [map] at h
    split at h
    · rename_i hr
      split at h
      · rename_i e' he
        cases h
        split at he
        · rename_i hc
          obtain ⟨t', ht'⟩ := hI t hr hc
          rw [mapItems_one ht'] at he
          cases hmm : map W O n (cue ++ [.item t']) t' with
          | ok i => rw [hmm] at he; cases he
          | error e2 =>
            rw [hmm] at he
            cases he
            exact ih hmm
        · cases he
      · split at h
        · rename_i e' he
          cases h
          obtain ⟨p, _, hp⟩ := mapRecord_error he
          rcases mapProp_cases (W := W) (hm (cue ++ [.prop p.name])) p with ⟨t', _, h2⟩ | ⟨_, h2⟩
          · rw [h2] at hp; exact ih hp
          · rw [h2] at hp; cases hp
        · cases h
    · cases h

theorem map_noType (hI : OneItemType W) (n : Nat) (cue : List Place) (t : Cls) : map W O n cue t ≠ .error .typeError := by
  intro h
  have := map_error hI h
  cases this

/-- A higher limit gives the same. -/
theorem map_mono (hI : OneItemType W) : ∀ {n : Nat} {cue : List Place} {t : Cls} {i : Info}, map W O n cue t = .ok i → map W O (n + 1) cue t = .ok i := by
  intro n
  induction n with
  | zero => intro cue t i h; cases h
  | succ n ih =>
    intro cue t i h
    have hprop : ∀ cue p j, mapProp W (map W O n cue) p = .ok j → mapProp W (map W O (n + 1) cue) p = .ok j := by
      intro cue p j hj
      rcases mapProp_cases (W := W) (map_noType (O := O) hI n cue) p with ⟨t', h1, h2⟩ | ⟨h1, h2⟩
      · rcases mapProp_cases (W := W) (map_noType (O := O) hI (n + 1) cue) p with ⟨t2, h3, h4⟩ | ⟨h3, _⟩
        · have := goesTo_unique h1 h3
          subst this
          rw [h4]
          rw [h2] at hj
          exact ih hj
        · exact absurd h1 (h3 t')
      · rcases mapProp_cases (W := W) (map_noType (O := O) hI (n + 1) cue) p with ⟨t2, h3, _⟩ | ⟨_, h4⟩
        · exact absurd h3 (h1 t2)
        · rw [h4, ← h2, hj]
    have hrec : ∀ ps acc r, mapRecord W O (map W O n) cue ps acc = .ok r → mapRecord W O (map W O (n + 1)) cue ps acc = .ok r := by
      intro ps
      induction ps with
      | nil => exact fun _ _ h => h
      | cons p ps ihp =>
        intro acc r h
        simp only [mapRecord] at h ⊢
        split at h
        · rename_i hf; simp only [hf, if_true]; exact ihp _ _ h
        · rename_i hf
          split at h
          · cases h
          · rename_i j hj
            simp only [hf, hprop _ _ _ hj]
            exact ihp _ _ h
    rw [map] at h ⊢
    split at h
    · rename_i hr
      simp only [hr, if_true]
      split at h
      · cases h
      · rename_i item hitem
        split at h
        · cases h
        · rename_i ps hps
          have h1 : (if W.isColl t = true then mapItems W (map W O (n + 1)) cue t else .ok none) = .ok item := by
            split at hitem
            · rename_i hc
              obtain ⟨t', ht'⟩ := hI t hr hc
              rw [mapItems_one ht'] at hitem
              simp only [hc, if_true]
              rw [mapItems_one ht']
              cases hmm : map W O n (cue ++ [.item t']) t' with
              | error e => rw [hmm] at hitem; cases hitem
              | ok j => rw [ih hmm]; rw [hmm] at hitem; exact hitem
            · rename_i hc
              simp only [hc]
              exact hitem
          simp only [h1, hrec _ _ _ hps]
          exact h
    · rename_i hr
      simp only [hr]
      exact h

theorem map_mono' (hI : OneItemType W) {n m : Nat} (hnm : n ≤ m) {cue : List Place} {t : Cls} {i : Info} (h : map W O n cue t = .ok i) : map W O m cue t = .ok i := by
  induction hnm with
  | refl => exact h
  | step _ ih => exact map_mono hI ih

/-- What a type uses is described at one less. -/
theorem uses_ok (hI : OneItemType W) (hN : PropsNamed W) {n : Nat} {a b : List Place × Cls} {i : Info} (h : map W O (n + 1) a.1 a.2 = .ok i) (hu : Uses W O a b) :
    ∃ j, map W O n b.1 b.2 = .ok j := by
  cases hu with
  | prop hr hp hs hg =>
    simp only [map, hr, if_true] at h
    split at h
    · cases h
    · split at h
      · cases h
      · rename_i ps hps
        obtain ⟨j, hj, _⟩ := (mapRecord_spec (hN _) hps).1 _ hp hs
        rcases mapProp_cases (W := W) (map_noType (O := O) hI n _) _ with ⟨t2, h3, h4⟩ | ⟨h3, _⟩
        · have := goesTo_unique hg h3
          subst this
          rw [h4] at hj
          exact ⟨j, hj⟩
        · exact absurd hg (h3 _)
  | @item cue' t₁ t₂ hr hc ht =>
    simp only [map, hr, hc, if_true, mapItems_one ht] at h
    split at h
    · cases h
    · rename_i item hitem
      simp only
      cases hmm : map W O n (cue' ++ [.item t₂]) t₂ with
      | error e => rw [hmm] at hitem; cases hitem
      | ok j => exact ⟨j, rfl⟩

theorem ok_acc (hI : OneItemType W) (hN : PropsNamed W) : ∀ {n : Nat} {a : List Place × Cls} {i : Info}, map W O n a.1 a.2 = .ok i → Acc (fun b a => Uses W O a b) a := by
  intro n
  induction n with
  | zero => intro a i h; cases h
  | succ n ih =>
    intro a i h
    refine ⟨_, fun b hb => ?_⟩
    obtain ⟨j, hj⟩ := uses_ok hI hN h hb
    exact ih hj

theorem acc_ok (hI : OneItemType W) {a : List Place × Cls} (h : Acc (fun b a => Uses W O a b) a) : ∃ n i, map W O n a.1 a.2 = .ok i := by
  induction h with
  | intro a _ ih =>
    obtain ⟨cue, t⟩ := a
    simp only
    by_cases hr : W.isRecord t = true
    · -- a limit that is enough for all properties
      have hps : ∀ ps : List RProp, (∀ p ∈ ps, p ∈ W.props t) →
          ∃ n, ∀ p ∈ ps, Shown O cue p → ∀ m, n ≤ m → ∃ i, mapProp W (map W O m (cue ++ [.prop p.name])) p = .ok i := by
        intro ps
        induction ps with
        | nil => exact fun _ => ⟨0, by simp⟩
        | cons p ps ihp =>
          intro hsub
          obtain ⟨n, hn⟩ := ihp (fun q hq => hsub q (List.mem_cons_of_mem _ hq))
          have hp : ∃ k, Shown O cue p → ∀ m, k ≤ m → ∃ i, mapProp W (map W O m (cue ++ [.prop p.name])) p = .ok i := by
            by_cases hs : Shown O cue p
            · by_cases hg : ∃ t', GoesTo W p t'
              · obtain ⟨t', hg⟩ := hg
                obtain ⟨k, i, hk⟩ := ih _ (.prop hr (hsub p List.mem_cons_self) hs hg)
                refine ⟨k, fun _ m hm => ⟨i, ?_⟩⟩
                rcases mapProp_cases (W := W) (map_noType (O := O) hI m (cue ++ [.prop p.name])) p with ⟨t2, h3, h4⟩ | ⟨h3, _⟩
                · have := goesTo_unique hg h3
                  subst this
                  rw [h4]
                  exact map_mono' hI hm hk
                · exact absurd hg (h3 _)
              · refine ⟨0, fun _ m _ => ⟨propInfo W p, ?_⟩⟩
                rcases mapProp_cases (W := W) (map_noType (O := O) hI m (cue ++ [.prop p.name])) p with ⟨t2, h3, _⟩ | ⟨_, h4⟩
                · exact absurd ⟨t2, h3⟩ hg
                · exact h4
            · exact ⟨0, fun h => absurd h hs⟩
          obtain ⟨k, hk⟩ := hp
          refine ⟨max n k, ?_⟩
          intro q hq hs m hm
          rcases List.mem_cons.1 hq with rfl | hq
          · exact hk hs m (by omega)
          · exact hn q hq hs m (by omega)
      obtain ⟨n, hn⟩ := hps (W.props t) (fun _ h => h)
      have hitem : ∃ k, ∀ m, k ≤ m → ∃ item, (if W.isColl t = true then mapItems W (map W O m) cue t else .ok none) = .ok item := by
        by_cases hc : W.isColl t = true
        · obtain ⟨t', ht'⟩ := hI t hr hc
          obtain ⟨k, i, hk⟩ := ih _ (.item hr hc ht')
          refine ⟨k, fun m hm => ⟨some i, ?_⟩⟩
          simp only [hc, if_true, mapItems_one ht']
          rw [map_mono' hI hm hk]
          rfl
        · exact ⟨0, fun m _ => ⟨none, by simp [hc]⟩⟩
      obtain ⟨k, hk⟩ := hitem
      obtain ⟨item, hi⟩ := hk (max n k) (by omega)
      obtain ⟨r, hrr⟩ := mapRecord_ok (acc := []) (fun p hp hs => hn p hp hs (max n k) (by omega))
      refine ⟨max n k + 1, typeInfo W t r item, ?_⟩
      simp only [map, hr, if_true, hi, hrr]
    · exact ⟨1, .obj [("name", .str (W.name t))], by simp [map, hr]⟩

theorem acc_iff {α : Type} {r : α → α → Prop} {a : α} : Acc r a ↔ ¬ ∃ f : Nat → α, f 0 = a ∧ ∀ k, r (f (k + 1)) (f k) := by
  constructor
  · intro h
    induction h with
    | intro a _ ih =>
      rintro ⟨f, rfl, hf⟩
      exact ih (f 1) (hf 0) ⟨fun k => f (k + 1), rfl, fun k => hf (k + 1)⟩
  · intro h
    by_contra hc
    have step : ∀ x : {x // ¬ Acc r x}, ∃ y : {x // ¬ Acc r x}, r y.1 x.1 := by
      rintro ⟨x, hx⟩
      by_contra hn
      exact hx ⟨_, fun y hy => by
        by_contra hy'
        exact hn ⟨⟨y, hy'⟩, hy⟩⟩
    choose g hg using step
    refine h ⟨fun k => (Nat.rec (motive := fun _ => {x // ¬ Acc r x}) ⟨a, hc⟩ (fun _ x => g x) k).1, rfl, fun k => hg _⟩


/-- A description that is returned is one. -/
theorem map_describes (hI : OneItemType W) (hN : PropsNamed W) : ∀ {n : Nat} {cue : List Place} {t : Cls} {i : Info}, map W O n cue t = .ok i → Describes W O cue t i := by
  intro n
  induction n with
  | zero => intro cue t i h; cases h
  | succ n ih =>
    intro cue t i h
    simp only [map] at h
    split at h
    · rename_i hr
      split at h
      · cases h
      · rename_i item hitem
        split at h
        · cases h
        · rename_i ps hps
          cases h
          obtain ⟨h1, h2⟩ := mapRecord_spec (hN t) hps
          -- what is said of a property
          have hp : ∀ p ∈ W.props t, Shown O cue p → ∃ j, alookup ps p.name = some j ∧ (∀ t', GoesTo W p t' → Describes W O (cue ++ [.prop p.name]) t' j) ∧
              ((∀ t', ¬ GoesTo W p t') → j = propInfo W p) := by
            intro p hp hs
            obtain ⟨j, hj, hl⟩ := h1 p hp hs
            refine ⟨j, hl, ?_, ?_⟩
            · intro t' hg
              rcases mapProp_cases (W := W) (map_noType (O := O) hI n (cue ++ [.prop p.name])) p with ⟨t2, h3, h4⟩ | ⟨h3, _⟩
              · have := goesTo_unique hg h3
                subst this
                rw [h4] at hj
                exact ih hj
              · exact absurd hg (h3 _)
            · intro hg
              rcases mapProp_cases (W := W) (map_noType (O := O) hI n (cue ++ [.prop p.name])) p with ⟨t2, h3, _⟩ | ⟨_, h4⟩
              · exact absurd h3 (hg t2)
              · rw [h4] at hj; cases hj; rfl
          -- what is said of the items
          have hit : (W.isColl t = false → item = none) ∧
              (∀ t', W.isColl t = true → W.items t = .one t' → ∃ d, item = some d ∧ Describes W O (cue ++ [.item t']) t' d) := by
            constructor
            · intro hc
              simp only [hc] at hitem
              cases hitem; rfl
            · intro t' hc ht'
              simp only [hc, if_true, mapItems_one ht'] at hitem
              cases hmm : map W O n (cue ++ [.item t']) t' with
              | error e => rw [hmm] at hitem; cases hitem
              | ok d => rw [hmm] at hitem; cases hitem; exact ⟨d, rfl, ih hmm⟩
          have hname : infoGet (typeInfo W t ps item) "name" = some (.str (W.name t)) := by
            simp [typeInfo, infoGet, alookup]
          have hprops : infoGet (typeInfo W t ps item) "properties" = if ps = [] then none else some (.obj ps) := by
            by_cases hps : ps = [] <;> cases item <;> simp [typeInfo, infoGet, alookup, hps]
          have hitems : infoGet (typeInfo W t ps item) "itemtype" = item := by
            by_cases hps : ps = [] <;> cases item <;> simp [typeInfo, infoGet, alookup, hps]
          refine .record (ps := .obj ps) (item := item.getD (.str "")) (fun p => (alookup ps p.name).getD (.str "")) hr hname ?_ ?_ ?_ ?_ ?_ ?_ ?_ ?_
          · rw [hprops]; split <;> simp
          · intro p hp' hs
            obtain ⟨j, hj, _⟩ := hp p hp' hs
            refine ⟨?_, by simp [infoGet, hj]⟩
            rw [hprops, if_neg]
            rintro rfl
            simp [alookup] at hj
          · intro a _ ha
            by_contra hc
            have := h2 a (fun p hp' hs he => hc ⟨p, hp', hs, he⟩)
            simp only [infoGet, this, alookup] at ha
            cases ha
          · intro p hp' hs t' hg
            obtain ⟨j, hj, hd, _⟩ := hp p hp' hs
            simp only [hj, Option.getD_some]
            exact hd t' hg
          · intro p hp' hs hg
            obtain ⟨j, hj, _, hd⟩ := hp p hp' hs
            simp only [hj, Option.getD_some]
            rw [hd hg]
            unfold propInfo TypesOf
            split <;> simp_all [infoGet, alookup]
          · intro d hd
            rw [hitems] at hd
            cases hc : W.isColl t with
            | false => rw [hit.1 hc] at hd; cases hd
            | true =>
              obtain ⟨t', ht'⟩ := hI t hr hc
              exact ⟨t', rfl, ht'⟩
          · intro t' hc ht'
            obtain ⟨d, hd, _⟩ := hit.2 t' hc ht'
            rw [hitems, hd]; rfl
          · intro t' hc ht'
            obtain ⟨d, hd, hdd⟩ := hit.2 t' hc ht'
            rw [hd]; exact hdd
    · rename_i hr
      cases h
      exact .plain (by simpa using hr) (by simp [infoGet, alookup]) (by simp [infoGet, alookup]) (by simp [infoGet, alookup])

/-- What a description that mentions nothing but these names looks like. -/
theorem describes_name {cue : List Place} {t : Cls} {i : Info} (h : Describes W O cue t i) : infoGet i "name" = some (.str (W.name t)) := by
  cases h with
  | plain _ h _ _ => exact h
  | record f _ h => exact h

/-- Types that are used are mentioned. -/
theorem uses_mentions {a b : List Place × Cls} {i : Info} (h : Describes W O a.1 a.2 i) (hu : Uses W O a b) :
    ∃ j, Describes W O b.1 b.2 j ∧ ∀ n, Mentions j n → Mentions i n := by
  cases hu with
  | @prop cue t t' p hr hp hs hg =>
    cases h with
    | plain h1 h2 h3 h4 => simp only at h1; rw [hr] at h1; cases h1
    | record f h1 h2 h3 h4 h5 h6 h7 h8 h9 h10 =>
      obtain ⟨e1, e2⟩ := h4 p hp hs
      exact ⟨f p, h6 p hp hs t' hg, fun n hn => .down e1 (.down e2 hn)⟩
  | @item cue t t' hr hc ht =>
    cases h with
    | plain h1 h2 h3 h4 => simp only at h1; rw [hr] at h1; cases h1
    | record f h1 h2 h3 h4 h5 h6 h7 h8 h9 h10 =>
      exact ⟨_, h10 t' hc ht, fun n hn => .down (h9 t' hc ht) hn⟩

end Normalize.Reflect
