import Verif.Lemmas.DiffExact

/-!
# Fuzzy matching
-/

namespace Normalize.Diff
open Ident (IProp ICls Ty ItemTy CollKind Schema readAttr)
open Spec (Labels Items Members nth Real PlainSlots KeysOK Leftover Shares similarity inBase inOther)
open Gen

variable {E F : Type} [DecidableEq E] [DecidableEq F] {H : Hooks E F} {o : Opts}

/-! ## The loop -/

theorem greedy_from : ∀ (l : List (Scored E)) (ra rb : List (Ent (Id E))) (p : Ent (Id E) × Ent (Id E)),
    p ∈ greedy l ra rb → ∃ s ∈ l, (s.a, s.b) = p
  | [], _, _, p, h => by simp [greedy] at h
  | s :: r, ra, rb, p, h => by
    unfold greedy at h
    split at h
    · rw [List.mem_cons] at h
      rcases h with rfl | h
      · exact ⟨s, by simp, rfl⟩
      · split at h
        · simp at h
        · obtain ⟨t, h1, h2⟩ := greedy_from r _ _ p h
          exact ⟨t, by simp [h1], h2⟩
    · split at h
      · simp at h
      · obtain ⟨t, h1, h2⟩ := greedy_from r _ _ p h
        exact ⟨t, by simp [h1], h2⟩

theorem greedy_nodup : ∀ (l : List (Scored E)) (ra rb : List (Ent (Id E))), ra.Nodup → rb.Nodup →
    ((greedy l ra rb).map (·.1)).Nodup ∧ ((greedy l ra rb).map (·.2)).Nodup
  | [], _, _, _, _ => by simp [greedy]
  | s :: r, ra, rb, ha, hb => by
    unfold greedy
    split
    · split
      · simp
      · obtain ⟨h1, h2⟩ := greedy_nodup r (ra.erase s.a) (rb.erase s.b) (ha.erase _) (hb.erase _)
        simp only [List.map_cons, List.nodup_cons]
        refine ⟨⟨fun h => ?_, h1⟩, ⟨fun h => ?_, h2⟩⟩
        · obtain ⟨p, hp, h⟩ := List.mem_map.1 h
          have := (greedy_mem r _ _ p hp).1
          rw [h] at this
          exact ha.not_mem_erase this
        · obtain ⟨p, hp, h⟩ := List.mem_map.1 h
          have := (greedy_mem r _ _ p hp).2
          rw [h] at this
          exact hb.not_mem_erase this
    · split
      · simp
      · exact greedy_nodup r ra rb ha hb

/-- A pair that is not chosen lost one of its items to a pair at least as good. -/
theorem greedy_best : ∀ (l : List (Scored E)) (ra rb : List (Ent (Id E))), l.Pairwise (fun x y => y.key ≤ x.key) →
    ∀ s ∈ l, s.a ∈ ra → s.b ∈ rb → ∃ t ∈ l, (t.a, t.b) ∈ greedy l ra rb ∧ (t.a = s.a ∨ t.b = s.b) ∧ s.key ≤ t.key
  | [], _, _, _, s, hs, _, _ => by simp at hs
  | t :: r, ra, rb, hl, s, hs, ha, hb => by
    rw [List.pairwise_cons] at hl
    have hle : s.key ≤ t.key := by
      rw [List.mem_cons] at hs
      rcases hs with rfl | hs
      · exact le_refl _
      · exact hl.1 s hs
    unfold greedy
    split
    · rename_i ht
      by_cases h1 : t.a = s.a
      · exact ⟨t, by simp, by simp, .inl h1, hle⟩
      by_cases h2 : t.b = s.b
      · exact ⟨t, by simp, by simp, .inr h2, hle⟩
      have hs' : s ∈ r := by
        rw [List.mem_cons] at hs
        rcases hs with rfl | hs
        · exact absurd rfl h1
        · exact hs
      have ha' : s.a ∈ ra.erase t.a := (List.mem_erase_of_ne (fun h => h1 h.symm)).2 ha
      have hb' : s.b ∈ rb.erase t.b := (List.mem_erase_of_ne (fun h => h2 h.symm)).2 hb
      have he : ((ra.erase t.a).isEmpty || (rb.erase t.b).isEmpty) = false := by
        rw [Bool.or_eq_false_iff]
        constructor
        · cases h : ra.erase t.a with
          | nil => rw [h] at ha'; simp at ha'
          | cons _ _ => rfl
        · cases h : rb.erase t.b with
          | nil => rw [h] at hb'; simp at hb'
          | cons _ _ => rfl
      obtain ⟨u, g1, g2, g3, g4⟩ := greedy_best r _ _ hl.2 s hs' ha' hb'
      exact ⟨u, by simp [g1], by simp [he, g2], g3, g4⟩
    · rename_i ht
      have hs' : s ∈ r := by
        rw [List.mem_cons] at hs
        rcases hs with rfl | hs
        · exact absurd ⟨ha, hb⟩ ht
        · exact hs
      have he : (ra.isEmpty || rb.isEmpty) = false := by
        rw [Bool.or_eq_false_iff]
        constructor
        · cases h : ra with
          | nil => rw [h] at ha; simp at ha
          | cons _ _ => rfl
        · cases h : rb with
          | nil => rw [h] at hb; simp at hb
          | cons _ _ => rfl
      obtain ⟨u, g1, g2, g3, g4⟩ := greedy_best r _ _ hl.2 s hs' ha hb
      exact ⟨u, by simp [g1], by simp [he, g2], g3, g4⟩

/-! ## Scores -/

theorem matchCount_zip (xs ys : List E) : matchCount H xs ys =
    (xs.zip ys).countP (fun p => decide (p.1 = p.2 ∧ H.falsyPart p.1 = false)) := by
  induction xs generalizing ys with
  | nil => simp [matchCount]
  | cons x xs ih =>
    cases ys with
    | nil => simp [matchCount]
    | cons y ys =>
      simp only [matchCount, List.zip_cons_cons, List.countP_cons, ih, decide_eq_true_eq]
      omega

theorem noMatchCount_zip (xs ys : List E) : noMatchCount xs ys =
    (xs.zip ys).countP (fun p => decide (p.1 ≠ p.2)) + (xs.length - ys.length) + (ys.length - xs.length) := by
  induction xs generalizing ys with
  | nil => simp [noMatchCount]
  | cons x xs ih =>
    cases ys with
    | nil => simp [noMatchCount]
    | cons y ys =>
      simp only [noMatchCount, List.zip_cons_cons, List.countP_cons, ih, List.length_cons, decide_eq_true_eq]
      by_cases h : x = y
      · simp [h]
      · simp [h]
        omega

theorem shares_iff {xs ys : List E} : matchCount H xs ys ≠ 0 ↔ Shares H (.tup xs) (.tup ys) := by
  rw [matchCount_zip, Nat.ne_zero_iff_zero_lt, List.countP_pos_iff]
  constructor
  · rintro ⟨⟨x, y⟩, hp, h⟩
    simp only [decide_eq_true_eq] at h
    obtain ⟨rfl, h⟩ := h
    obtain ⟨n, hn⟩ := List.mem_iff_getElem?.1 hp
    rw [List.getElem?_zip_eq_some] at hn
    exact ⟨xs, ys, n, x, rfl, rfl, hn.1, hn.2, h⟩
  · rintro ⟨_, _, n, e, h1, h2, h3, h4, h5⟩
    simp only [Id.tup.injEq] at h1 h2
    subst h1 h2
    refine ⟨(e, e), ?_, by simpa using h5⟩
    exact List.mem_iff_getElem?.2 ⟨n, List.getElem?_zip_eq_some.2 ⟨h3, h4⟩⟩

theorem mapE_mem {α β : Type} {f : α → Except Exc β} : ∀ {l : List α} {r : List β}, mapE f l = .ok r →
    (∀ y ∈ r, ∃ x ∈ l, f x = .ok y) ∧ (∀ x ∈ l, ∃ y ∈ r, f x = .ok y)
  | [], r, h => by
    simp [mapE] at h
    subst h
    simp
  | a :: l, r, h => by
    simp only [mapE] at h
    split at h
    · simp at h
    · rename_i b hb
      split at h
      · simp at h
      · rename_i bs hbs
        simp at h
        subst h
        obtain ⟨h1, h2⟩ := mapE_mem hbs
        constructor
        · intro y hy
          rw [List.mem_cons] at hy
          rcases hy with rfl | hy
          · exact ⟨a, by simp, hb⟩
          · obtain ⟨x, hx, hx'⟩ := h1 y hy
            exact ⟨x, by simp [hx], hx'⟩
        · intro x hx
          rw [List.mem_cons] at hx
          rcases hx with rfl | hx
          · exact ⟨b, by simp, hb⟩
          · obtain ⟨y, hy, hy'⟩ := h2 x hx
            exact ⟨y, by simp [hy], hy'⟩

theorem scoreOne_eq {p : Ent (Id E) × Ent (Id E)} {s : Scored E} (h : scoreOne H p = .ok s) :
    s.a = p.1 ∧ s.b = p.2 ∧ (s.hit ≠ 0 ↔ Shares H p.1.1.1 p.2.1.1) ∧ s.key = similarity H p.1.1.1 p.2.1.1 := by
  unfold scoreOne at h
  split at h
  · simp at h
  · rename_i r hr
    simp at h
    subst h
    obtain ⟨⟨⟨i, m⟩, ka⟩, ⟨⟨j, m'⟩, kb⟩⟩ := p
    simp only at hr
    cases i with
    | raw e => cases j <;> simp [score] at hr
    | tup xs =>
      cases j with
      | raw e => simp [score] at hr
      | tup ys =>
        simp only [score, Except.ok.injEq] at hr
        subst hr
        refine ⟨rfl, rfl, shares_iff, ?_⟩
        simp only [Scored.key, similarity]
        rw [matchCount_zip, noMatchCount_zip]

theorem rank_sorted (l : List (Scored E)) : (rank l).Pairwise (fun x y => y.key ≤ x.key) := by
  unfold rank
  have : Std.Total (fun x y : Scored E => y.key ≤ x.key) := ⟨fun a b => le_total _ _⟩
  have : IsTrans (Scored E) (fun x y => y.key ≤ x.key) := ⟨fun a b c h1 h2 => le_trans h2 h1⟩
  exact List.pairwise_insertionSort _ l

theorem fuzzy_facts (ho : OrdOK H) {A B : List (Ent (Id E))} (hA : A.Nodup) (hB : B.Nodup)
    {ps : List (Ent (Id E) × Ent (Id E))} (h : fuzzyMatch H A B = .ok ps) :
    (ps.map (·.1)).Nodup ∧ (ps.map (·.2)).Nodup ∧
    (∀ p ∈ ps, p.1 ∈ A ∧ p.2 ∈ B ∧ Shares H p.1.1.1 p.2.1.1) ∧
    ∀ a ∈ A, ∀ b ∈ B, Shares H a.1.1 b.1.1 → ∃ p ∈ ps, (p.1 = a ∨ p.2 = b) ∧
      similarity H a.1.1 b.1.1 ≤ similarity H p.1.1.1 p.2.1.1 := by
  unfold fuzzyMatch at h
  split at h
  · simp at h
  · rename_i l hl
    simp only [Except.ok.injEq] at h
    subst h
    obtain ⟨m1, m2⟩ := mapE_mem hl
    have hmem : ∀ s, s ∈ rank (l.filter (fun s => s.hit ≠ 0)) ↔ s ∈ l ∧ s.hit ≠ 0 := by
      intro s
      unfold rank
      rw [(List.perm_insertionSort _ _).mem_iff, List.mem_filter]
      simp
    have hsc : ∀ s ∈ rank (l.filter (fun s => s.hit ≠ 0)), Shares H s.a.1.1 s.b.1.1 ∧
        s.key = similarity H s.a.1.1 s.b.1.1 := by
      intro s hs
      obtain ⟨h1, h2⟩ := (hmem s).1 hs
      obtain ⟨p, hp, hp'⟩ := m1 s h1
      obtain ⟨g1, g2, g3, g4⟩ := scoreOne_eq hp'
      rw [g1, g2]
      exact ⟨g3.1 h2, g4⟩
    obtain ⟨n1, n2⟩ := greedy_nodup (rank (l.filter (fun s => s.hit ≠ 0))) A B hA hB
    refine ⟨n1, n2, fun p hp => ?_, fun a ha b hb hab => ?_⟩
    · obtain ⟨g1, g2⟩ := greedy_mem _ _ _ p hp
      obtain ⟨s, hs, rfl⟩ := greedy_from _ _ _ p hp
      exact ⟨g1, g2, (hsc s hs).1⟩
    · obtain ⟨s, hs, hs'⟩ := m2 (a, b) (List.pair_mem_product.2 ⟨ho.mem.2 ha, ho.mem.2 hb⟩)
      obtain ⟨g1, g2, g3, g4⟩ := scoreOne_eq hs'
      have hs2 : s ∈ rank (l.filter (fun s => s.hit ≠ 0)) := (hmem s).2 ⟨hs, g3.2 hab⟩
      obtain ⟨t, k1, k2, k3, k4⟩ := greedy_best _ A B (rank_sorted _) s hs2 (g1 ▸ ha) (g2 ▸ hb)
      refine ⟨(t.a, t.b), k2, ?_, ?_⟩
      · rw [g1, g2] at k3
        exact k3
      · rw [g4, (hsc t k1).2] at k4
        exact k4

/-! ## Leftovers -/

theorem nth_none {J α : Type} [DecidableEq J] {l : List (J × α)} {j : J} {m : Nat} :
    nth l j m = none ↔ (l.map (·.1)).count j ≤ m := by
  unfold nth
  rw [List.getElem?_eq_none_iff, List.length_map, List.count, List.countP_map, List.countP_eq_length_filter]
  rfl

theorem leftover_iff {J : Type} [DecidableEq J] {la lb : List (J × (Comp × Val))} {k : Comp} :
    Leftover la lb k ↔ ∃ e ∈ minus (number [] (keyed la)) (number [] (keyed lb)), e.2 = k := by
  constructor
  · rintro ⟨j, m, v, h1, h2⟩
    refine ⟨((j, m), k), mem_minus.2 ⟨nth_keyed.2 ⟨_, h1, rfl⟩, ?_⟩, rfl⟩
    rw [number_mem]
    rw [nth_none] at h2
    rw [keyed_ids]
    simp
    omega
  · rintro ⟨⟨⟨j, m⟩, k'⟩, he, rfl⟩
    rw [mem_minus] at he
    obtain ⟨u, hu, h1⟩ := nth_keyed.1 he.1
    refine ⟨j, m, u.2, ?_, ?_⟩
    · simp only at h1 ⊢
      rw [hu, ← h1]
    · rw [nth_none]
      have := he.2
      rw [number_mem, keyed_ids] at this
      simp at this
      omega

/-- Entries below a place have longer selectors. -/
theorem yields_deeper {a b : Option Val} {fa fb : FS} {d : DInfo} (h : Yields H o a b fa fb d) :
    (d.kind = .removed ∨ d.kind = .modified → ∃ q r, d.base = fa ++ q :: r) ∧
    (d.kind = .added ∨ d.kind = .modified → ∃ q r, d.other = fb ++ q :: r) := by
  induction h with
  | added => exact ⟨by simp, fun _ => ⟨_, [], rfl⟩⟩
  | removed => exact ⟨fun _ => ⟨_, [], rfl⟩, by simp⟩
  | modified => exact ⟨fun _ => ⟨_, [], rfl⟩, fun _ => ⟨_, [], rfl⟩⟩
  | netL => exact ⟨fun _ => ⟨_, [], rfl⟩, fun _ => ⟨_, [], rfl⟩⟩
  | netR => exact ⟨fun _ => ⟨_, [], rfl⟩, fun _ => ⟨_, [], rfl⟩⟩
  | sRemoved => exact ⟨fun _ => ⟨_, [], rfl⟩, by simp⟩
  | sAdded => exact ⟨by simp, fun _ => ⟨_, [], rfl⟩⟩
  | sModified => exact ⟨fun _ => ⟨_, [], rfl⟩, fun _ => ⟨_, [], rfl⟩⟩
  | rRemoved => exact ⟨fun _ => ⟨_, [], rfl⟩, by simp⟩
  | rAdded => exact ⟨by simp, fun _ => ⟨_, [], rfl⟩⟩
  | sub _ _ _ ih =>
    refine ⟨fun hk => ?_, fun hk => ?_⟩
    · obtain ⟨q, r, h⟩ := ih.1 hk
      exact ⟨_, q :: r, by rw [h, List.append_assoc]; rfl⟩
    · obtain ⟨q, r, h⟩ := ih.2 hk
      exact ⟨_, q :: r, by rw [h, List.append_assoc]; rfl⟩
  | item _ _ _ _ _ _ ih =>
    refine ⟨fun hk => ?_, fun hk => ?_⟩
    · obtain ⟨q, r, h⟩ := ih.1 hk
      exact ⟨_, q :: r, by rw [h, List.append_assoc]; rfl⟩
    · obtain ⟨q, r, h⟩ := ih.2 hk
      exact ⟨_, q :: r, by rw [h, List.append_assoc]; rfl⟩
  | itemR _ _ _ _ ih =>
    refine ⟨fun hk => ?_, fun hk => ?_⟩
    · obtain ⟨q, r, h⟩ := ih.1 hk
      exact ⟨_, q :: r, by rw [h, List.append_assoc]; rfl⟩
    · obtain ⟨q, r, h⟩ := ih.2 hk
      exact ⟨_, q :: r, by rw [h, List.append_assoc]; rfl⟩
  | itemL _ _ _ _ ih =>
    refine ⟨fun hk => ?_, fun hk => ?_⟩
    · obtain ⟨q, r, h⟩ := ih.1 hk
      exact ⟨_, q :: r, by rw [h, List.append_assoc]; rfl⟩
    · obtain ⟨q, r, h⟩ := ih.2 hk
      exact ⟨_, q :: r, by rw [h, List.append_assoc]; rfl⟩
  | _ => exact ⟨by simp, by simp⟩

/-- What a comparison of members yields, besides the members reported as removed or added. -/
structure Below (fa fb : FS) (d : DInfo) : Prop where
  base : d.kind = .removed ∨ d.kind = .modified → ∃ k q r, d.base = fa ++ k :: q :: r
  other : d.kind = .added ∨ d.kind = .modified → ∃ k q r, d.other = fb ++ k :: q :: r

theorem below_descend (ho : OrdOK H) {n : Nat} {a b : Option Val} {fa fb : FS} {k : Comp × Comp} {d : DInfo}
    (h : d ∈ (descend (diffIter H o n) a b fa fb k).out) : Below fa fb d := by
  obtain ⟨x, hx, h⟩ := mem_bindE h
  obtain ⟨y, hy, h⟩ := mem_bindE h
  have hd := yields_deeper (yields_diffIter ho n _ _ _ _ _ h)
  refine ⟨fun hk => ?_, fun hk => ?_⟩
  · obtain ⟨q, r, h⟩ := hd.1 hk
    exact ⟨k.1, q, r, by rw [h]; simp⟩
  · obtain ⟨q, r, h⟩ := hd.2 hk
    exact ⟨k.2, q, r, by rw [h]; simp⟩

theorem below_of_calm {fa fb : FS} {d : DInfo} (h : d.kind = .noChange ∨ d.kind = .moved) : Below fa fb d := by
  refine ⟨fun hk => ?_, fun hk => ?_⟩ <;> rcases h with h | h <;> simp [h] at hk

/-- The exact shape of a comparison by identity that ends. -/
theorem out_ids (ho : OrdOK H) {n : Nat} {a b : Option Val} {fa fb : FS} {A B : List (Ent (Id E))}
    (h : (compareIds H o (diffIter H o n) a b fa fb A B).exc = none) :
    ∃ ps D, pairsOf H o A B = .ok ps ∧ (∀ d ∈ D, Below fa fb d) ∧
      (compareIds H o (diffIter H o n) a b fa fb A B).out = D ++
        (H.ord _ ((minus A B).filter (fun e => !decide (e ∈ ps.map (·.1))))).map (fun e => ⟨.removed, fa ++ [e.2], fb⟩) ++
        (H.ord _ ((minus B A).filter (fun e => !decide (e ∈ ps.map (·.2))))).map (fun e => ⟨.added, fa, fb ++ [e.2]⟩) := by
  unfold compareIds at h ⊢
  obtain ⟨h1, h2⟩ := exc_append.1 h
  obtain ⟨ps, hps, h2⟩ := exc_bindE.1 h2
  rw [out_append h1, hps, bindE_ok]
  obtain ⟨h3, h6⟩ := exc_append.1 h2
  obtain ⟨h3, h5⟩ := exc_append.1 h3
  obtain ⟨h3, h4⟩ := exc_append.1 h3
  rw [out_append (exc_append.2 ⟨exc_append.2 ⟨h3, h4⟩, h5⟩), out_append (exc_append.2 ⟨h3, h4⟩), out_append h3,
    out_yields', out_yields']
  simp only [← List.append_assoc]
  refine ⟨ps, _, rfl, ?_, rfl⟩
  intro d hd
  rw [List.mem_append, List.mem_append] at hd
  rcases hd with (hd | hd) | hd
  · obtain ⟨k, _, hd⟩ := mem_forEach (mem_when hd).2
    exact below_descend ho hd
  · obtain ⟨p, _, hd⟩ := mem_forEach hd
    unfold fuzzyPair at hd
    rcases mem_append hd with hd | hd
    · exact below_descend ho hd
    · apply below_of_calm
      split at hd
      · rw [mem_yield hd]; simp
      · rw [mem_yield (mem_when hd).2]; simp
  · exact below_of_calm (matchedOut_kind hd)

end Normalize.Diff
