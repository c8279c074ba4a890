import Verif.Lemmas.DiffFuzzy
import Mathlib.Data.List.Induction

/-!
# Fuzzy matching from the other side
-/

namespace Normalize.Diff
open Ident (IProp ICls Ty ItemTy CollKind Schema readAttr)
open Gen

/-! ## The order of the elements of a list -/

section Before
variable {α : Type}

theorem before_total {l : List α} {x y : α} (hx : x ∈ l) (hy : y ∈ l) (hne : x ≠ y) :
    List.Sublist [x, y] l ∨ List.Sublist [y, x] l := by
  induction l with
  | nil => simp at hx
  | cons h t ih =>
    rw [List.mem_cons] at hx hy
    rcases hx with rfl | hx
    · rcases hy with rfl | hy
      · exact absurd rfl hne
      · exact .inl (List.Sublist.cons_cons _ (List.singleton_sublist.2 hy))
    · rcases hy with rfl | hy
      · exact .inr (List.Sublist.cons_cons _ (List.singleton_sublist.2 hx))
      · rcases ih hx hy with h | h
        · exact .inl (h.cons _)
        · exact .inr (h.cons _)

theorem before_cons {h x y : α} {t : List α} :
    List.Sublist [x, y] (h :: t) ↔ List.Sublist [x, y] t ∨ (x = h ∧ y ∈ t) := by
  rw [List.sublist_cons_iff]
  constructor
  · rintro (h1 | ⟨r, h1, h2⟩)
    · exact .inl h1
    · simp at h1
      obtain ⟨rfl, rfl⟩ := h1
      exact .inr ⟨rfl, List.singleton_sublist.1 h2⟩
  · rintro (h1 | ⟨rfl, h1⟩)
    · exact .inl h1
    · exact .inr ⟨[y], rfl, List.singleton_sublist.2 h1⟩

theorem before_mem {l : List α} {x y : α} (h : List.Sublist [x, y] l) : x ∈ l ∧ y ∈ l :=
  ⟨h.subset (by simp), h.subset (by simp)⟩

theorem before_antisymm {l : List α} (hn : l.Nodup) {x y : α} (h1 : List.Sublist [x, y] l)
    (h2 : List.Sublist [y, x] l) : False := by
  induction l with
  | nil => simp at h1
  | cons h t ih =>
    rw [List.nodup_cons] at hn
    rw [before_cons] at h1 h2
    rcases h1 with h1 | ⟨rfl, h1⟩
    · rcases h2 with h2 | ⟨rfl, h2⟩
      · exact ih hn.2 h1 h2
      · exact hn.1 (before_mem h1).2
    · rcases h2 with h2 | ⟨rfl, h2⟩
      · exact hn.1 (before_mem h2).2
      · exact hn.1 h1

theorem before_ne {l : List α} (hn : l.Nodup) {x y : α} (h : List.Sublist [x, y] l) : x ≠ y := by
  rintro rfl
  exact before_antisymm hn h h

theorem before_split {l1 l2 : List α} {x t : α} (hn : (l1 ++ x :: l2).Nodup)
    (h : List.Sublist [t, x] (l1 ++ x :: l2)) : t ∈ l1 := by
  induction l1 with
  | nil =>
    rw [List.nil_append] at h hn
    rw [List.nodup_cons] at hn
    rw [before_cons] at h
    rcases h with h | ⟨_, h⟩
    · exact absurd (before_mem h).2 hn.1
    · exact absurd h hn.1
  | cons a l1 ih =>
    rw [List.cons_append] at h hn
    rw [before_cons] at h
    rcases h with h | ⟨rfl, _⟩
    · exact List.mem_cons_of_mem _ (ih (List.nodup_cons.1 hn).2 h)
    · simp

end Before

section Product
variable {α β : Type}

theorem product_cons' (h : α) (t : List α) (B : List β) :
    (h :: t).product B = B.map (fun b => (h, b)) ++ t.product B := rfl

theorem row_sublist {A : List α} {B : List β} {a : α} (ha : a ∈ A) :
    List.Sublist (B.map (fun b => (a, b))) (A.product B) := by
  induction A with
  | nil => simp at ha
  | cons h t ih =>
    rw [product_cons']
    rw [List.mem_cons] at ha
    rcases ha with rfl | ha
    · exact List.sublist_append_left _ _
    · exact (ih ha).trans (List.sublist_append_right _ _)

theorem column_sublist {A : List α} {B : List β} {b : β} (hb : b ∈ B) :
    List.Sublist (A.map (fun a => (a, b))) (A.product B) := by
  induction A with
  | nil => simp
  | cons h t ih =>
    rw [product_cons', List.map_cons]
    exact List.Sublist.append (l₁ := [(h, b)]) (List.singleton_sublist.2 (List.mem_map.2 ⟨b, hb, rfl⟩)) ih

/-- Pairs that share a component come in the same order in the product and in the swapped product. -/
theorem product_order {A : List α} {B : List β} (hA : A.Nodup) (hB : B.Nodup) {s t : α × β}
    (hc : t.1 = s.1 ∨ t.2 = s.2) (h : List.Sublist [t, s] (A.product B)) :
    List.Sublist [t.swap, s.swap] (B.product A) := by
  have hn : (A.product B).Nodup := List.Nodup.product hA hB
  have hne := before_ne hn h
  obtain ⟨ht, hs⟩ := before_mem h
  obtain ⟨t1, t2⟩ := t
  obtain ⟨s1, s2⟩ := s
  rw [List.pair_mem_product] at ht hs
  rcases hc with hc | hc
  · simp at hc
    subst hc
    have h2 : t2 ≠ s2 := fun h => hne (by rw [h])
    rcases before_total ht.2 hs.2 h2 with hb | hb
    · exact (hb.map (fun b => (b, t1))).trans (column_sublist ht.1)
    · exact (before_antisymm hn h ((hb.map (fun b => (t1, b))).trans (row_sublist ht.1))).elim
  · simp at hc
    subst hc
    have h2 : t1 ≠ s1 := fun h => hne (by rw [h])
    rcases before_total ht.1 hs.1 h2 with hb | hb
    · exact (hb.map (fun a => (t2, a))).trans (row_sublist ht.2)
    · exact (before_antisymm hn h ((hb.map (fun a => (a, t2))).trans (column_sublist ht.2))).elim

end Product

/-! ## The loop -/

variable {E F : Type} [DecidableEq E] [DecidableEq F] {H : Hooks E F} {o : Opts}

theorem greedy_empty (l : List (Scored E)) {ra rb : List (Ent (Id E))} (h : (ra.isEmpty || rb.isEmpty) = true) :
    greedy l ra rb = [] := by
  cases l with
  | nil => rfl
  | cons s r =>
    unfold greedy
    rw [if_neg, if_pos h]
    rintro ⟨h1, h2⟩
    rw [Bool.or_eq_true] at h
    rcases h with h | h
    · rw [List.isEmpty_iff] at h; subst h; simp at h1
    · rw [List.isEmpty_iff] at h; subst h; simp at h2

/-- The loop without its early exits. -/
theorem greedy_cons (s : Scored E) (r : List (Scored E)) (ra rb : List (Ent (Id E))) : greedy (s :: r) ra rb =
    if s.a ∈ ra ∧ s.b ∈ rb then (s.a, s.b) :: greedy r (ra.erase s.a) (rb.erase s.b) else greedy r ra rb := by
  conv_lhs => unfold greedy
  split
  · split
    · rename_i h
      rw [greedy_empty r h]
    · rfl
  · split
    · rename_i h
      rw [greedy_empty r h]
    · rfl

/-- The pair of a score. -/
def Scored.pair (s : Scored E) : Ent (Id E) × Ent (Id E) := (s.a, s.b)

/-- Two pairs that cannot both be chosen. -/
def Scored.clash (s t : Scored E) : Prop := t.a = s.a ∨ t.b = s.b

/-- A pair is chosen exactly if no earlier pair that was chosen uses one of its items. -/
theorem greedy_iff : ∀ (l : List (Scored E)) (ra rb : List (Ent (Id E))), ra.Nodup → rb.Nodup →
    (l.map Scored.pair).Nodup → ∀ s ∈ l, (s.pair ∈ greedy l ra rb ↔ s.a ∈ ra ∧ s.b ∈ rb ∧
      ∀ t, List.Sublist [t, s] l → s.clash t → t.pair ∉ greedy l ra rb)
  | [], _, _, _, _, _, s, hs => by simp at hs
  | h :: r, ra, rb, ha, hb, hn, s, hs => by
    rw [List.map_cons, List.nodup_cons] at hn
    have hne : ∀ t ∈ r, t.pair ≠ h.pair := fun t ht he => hn.1 (he ▸ List.mem_map_of_mem ht)
    have hhr : h ∉ r := fun hh => hn.1 (List.mem_map_of_mem hh)
    rw [List.mem_cons] at hs
    rw [greedy_cons]
    by_cases hp : h.a ∈ ra ∧ h.b ∈ rb
    · rw [if_pos hp]
      rcases hs with rfl | hs
      · refine ⟨fun _ => ⟨hp.1, hp.2, fun t ht _ => ?_⟩, fun _ => by simp [Scored.pair]⟩
        rw [before_cons] at ht
        rcases ht with ht | ⟨_, ht⟩
        · exact absurd (before_mem ht).2 hhr
        · exact absurd ht hhr
      · have hmem : ∀ t ∈ r, (t.pair ∈ (h.a, h.b) :: greedy r (ra.erase h.a) (rb.erase h.b) ↔
            t.pair ∈ greedy r (ra.erase h.a) (rb.erase h.b)) := by
          intro t ht
          rw [List.mem_cons]
          exact ⟨fun g => g.resolve_left (hne t ht), .inr⟩
        rw [hmem s hs]
        by_cases hcl : s.clash h
        · constructor
          · intro g
            exfalso
            obtain ⟨g1, g2⟩ := greedy_mem _ _ _ _ g
            rcases hcl with hcl | hcl
            · rw [hcl] at g1
              exact ha.not_mem_erase g1
            · rw [hcl] at g2
              exact hb.not_mem_erase g2
          · rintro ⟨_, _, g⟩
            exact absurd (by simp [Scored.pair]) (g h (before_cons.2 (.inr ⟨rfl, hs⟩)) hcl)
        · have h1 : h.a ≠ s.a := fun e => hcl (.inl e)
          have h2 : h.b ≠ s.b := fun e => hcl (.inr e)
          rw [greedy_iff r _ _ (ha.erase _) (hb.erase _) hn.2 s hs, List.mem_erase_of_ne (fun e => h1 e.symm),
            List.mem_erase_of_ne (fun e => h2 e.symm)]
          refine and_congr_right (fun _ => and_congr_right (fun _ => ⟨fun g t ht hc => ?_, fun g t ht hc => ?_⟩))
          · rw [before_cons] at ht
            rcases ht with ht | ⟨rfl, _⟩
            · rw [hmem t (before_mem ht).1]
              exact g t ht hc
            · exact absurd hc hcl
          · rw [← hmem t (before_mem ht).1]
            exact g t (before_cons.2 (.inl ht)) hc
    · rw [if_neg hp]
      have hno : h.pair ∉ greedy r ra rb := fun g => hp (greedy_mem _ _ _ _ g)
      rcases hs with rfl | hs
      · exact ⟨fun g => absurd g hno, fun g => absurd ⟨g.1, g.2.1⟩ hp⟩
      · rw [greedy_iff r _ _ ha hb hn.2 s hs]
        refine and_congr_right (fun _ => and_congr_right (fun _ => ⟨fun g t ht hc => ?_, fun g t ht hc => ?_⟩))
        · rw [before_cons] at ht
          rcases ht with ht | ⟨rfl, _⟩
          · exact g t ht hc
          · exact hno
        · exact g t (before_cons.2 (.inl ht)) hc

/-- A score seen from the other side. -/
def Scored.flip (s : Scored E) : Scored E := ⟨s.hit, s.miss, s.b, s.a⟩

theorem flip_flip (s : Scored E) : s.flip.flip = s := rfl

theorem greedy_flip {l l' : List (Scored E)} {A B : List (Ent (Id E))} (hA : A.Nodup) (hB : B.Nodup)
    (hl : (l.map Scored.pair).Nodup) (hl' : (l'.map Scored.pair).Nodup) (hmem : ∀ s, s ∈ l ↔ s.flip ∈ l')
    (hord : ∀ s t, s.clash t → s ∈ l → t ∈ l → (List.Sublist [t, s] l ↔ List.Sublist [t.flip, s.flip] l')) :
    ∀ s ∈ l, (s.pair ∈ greedy l A B ↔ s.flip.pair ∈ greedy l' B A) := by
  have hln : l.Nodup := hl.of_map _
  have key : ∀ l1 l2, l = l1 ++ l2 → ∀ s ∈ l1, (s.pair ∈ greedy l A B ↔ s.flip.pair ∈ greedy l' B A) := by
    intro l1
    induction l1 using List.reverseRec with
    | nil => intro _ _ s hs; simp at hs
    | append_singleton l1 x ih =>
      intro l2 hl2 s hs
      rw [List.append_assoc] at hl2
      rw [List.mem_append, List.mem_singleton] at hs
      rcases hs with hs | rfl
      · exact ih _ hl2 s hs
      · have hsl : s ∈ l := by rw [hl2]; simp
        rw [greedy_iff l A B hA hB hl s hsl, greedy_iff l' B A hB hA hl' s.flip ((hmem s).1 hsl)]
        have hiff : ∀ t, List.Sublist [t, s] l → (t.pair ∈ greedy l A B ↔ t.flip.pair ∈ greedy l' B A) := by
          intro t ht
          refine ih _ hl2 t ?_
          rw [hl2] at ht hln
          exact before_split hln ht
        constructor
        · rintro ⟨g1, g2, g3⟩
          refine ⟨g2, g1, fun t ht hc hin => ?_⟩
          have htl : t.flip ∈ l := (hmem t.flip).2 (before_mem ht).1
          have ht' : List.Sublist [t.flip, s] l := (hord s t.flip hc.symm hsl htl).2 ht
          exact g3 t.flip ht' hc.symm ((hiff t.flip ht').2 hin)
        · rintro ⟨g1, g2, g3⟩
          refine ⟨g2, g1, fun t ht hc hin => ?_⟩
          have ht' : List.Sublist [t.flip, s.flip] l' := (hord s t hc hsl (before_mem ht).1).1 ht
          exact g3 t.flip ht' hc.symm ((hiff t ht).1 hin)
  exact key l [] (by simp)

theorem rank_mem {l : List (Scored E)} {s : Scored E} : s ∈ rank l ↔ s ∈ l :=
  (List.perm_insertionSort _ _).mem_iff

theorem rank_pairs {l : List (Scored E)} (h : (l.map Scored.pair).Nodup) : ((rank l).map Scored.pair).Nodup :=
  (((List.perm_insertionSort _ _).map _).nodup_iff).2 h

/-- Pairs that clash are ranked in the same order from either side. -/
theorem rank_order {l l' : List (Scored E)} (hl : (l.map Scored.pair).Nodup) (hmem : ∀ s, s ∈ l → s.flip ∈ l')
    (hord : ∀ s t, s.clash t → List.Sublist [t, s] l → List.Sublist [t.flip, s.flip] l') {s t : Scored E}
    (hc : s.clash t) (h : List.Sublist [t, s] (rank l)) : List.Sublist [t.flip, s.flip] (rank l') := by
  have hsort := rank_sorted l
  have hnr : (rank l).Nodup := (rank_pairs hl).of_map _
  obtain ⟨ht, hs⟩ := before_mem h
  have hne := before_ne hnr h
  have hle : s.key ≤ t.key := by
    have := hsort.sublist h
    rw [List.pairwise_cons] at this
    exact this.1 s (by simp)
  by_cases heq : s.key = t.key
  · have hb : List.Sublist [t, s] l := by
      rcases before_total (rank_mem.1 ht) (rank_mem.1 hs) hne with hb | hb
      · exact hb
      · exact (before_antisymm hnr h (List.pair_sublist_insertionSort (by rw [heq]) hb)).elim
    exact List.pair_sublist_insertionSort (by show s.key ≤ t.key; exact hle) (hord s t hc hb)
  · have h1 : t.flip ∈ rank l' := rank_mem.2 (hmem t (rank_mem.1 ht))
    have h2 : s.flip ∈ rank l' := rank_mem.2 (hmem s (rank_mem.1 hs))
    rcases before_total h1 h2 (fun e => hne (by rw [← flip_flip t, e, flip_flip])) with hb | hb
    · exact hb
    · exfalso
      have := (rank_sorted l').sublist hb
      rw [List.pairwise_cons] at this
      have h3 : t.key ≤ s.key := this.1 t.flip (by simp)
      exact heq (le_antisymm hle h3)

/-! ## Scores -/

theorem matchCount_comm (xs ys : List E) : matchCount H xs ys = matchCount H ys xs := by
  induction xs generalizing ys with
  | nil => cases ys <;> rfl
  | cons x xs ih =>
    cases ys with
    | nil => rfl
    | cons y ys =>
      simp only [matchCount, ih]
      congr 1
      by_cases h : x = y
      · subst h; rfl
      · have : ¬ y = x := fun e => h e.symm
        simp [h, this]

theorem noMatchCount_comm (xs ys : List E) : noMatchCount xs ys = noMatchCount ys xs := by
  induction xs generalizing ys with
  | nil => cases ys <;> rfl
  | cons x xs ih =>
    cases ys with
    | nil => rfl
    | cons y ys =>
      simp only [noMatchCount, ih]
      congr 1
      by_cases h : x = y
      · subst h; rfl
      · have : ¬ y = x := fun e => h e.symm
        simp [h, this]

/-- The score of a pair of tuples. -/
def scoreOf (H : Hooks E F) (p : Ent (Id E) × Ent (Id E)) : Scored E :=
  match p.1.1.1, p.2.1.1 with
  | .tup xs, .tup ys => ⟨matchCount H xs ys, noMatchCount xs ys, p.1, p.2⟩
  | _, _ => ⟨0, 0, p.1, p.2⟩

theorem scoreOf_pair (p : Ent (Id E) × Ent (Id E)) : (scoreOf H p).pair = p := by
  unfold scoreOf
  split <;> rfl

theorem scoreOf_flip (p : Ent (Id E) × Ent (Id E)) : (scoreOf H p).flip = scoreOf H p.swap := by
  obtain ⟨⟨⟨i, m⟩, k⟩, ⟨⟨j, m'⟩, k'⟩⟩ := p
  cases i <;> cases j <;> simp only [scoreOf, Scored.flip, Prod.swap]
  rw [matchCount_comm, noMatchCount_comm]

theorem scoreOne_tup {p : Ent (Id E) × Ent (Id E)} (h1 : p.1.1.1.isTup = true) (h2 : p.2.1.1.isTup = true) :
    scoreOne H p = .ok (scoreOf H p) := by
  obtain ⟨⟨⟨i, m⟩, k⟩, ⟨⟨j, m'⟩, k'⟩⟩ := p
  cases i <;> cases j <;> simp [Id.isTup] at h1 h2
  rfl

theorem mapE_scores {l : List (Ent (Id E) × Ent (Id E))} (h : ∀ p ∈ l, p.1.1.1.isTup = true ∧ p.2.1.1.isTup = true) :
    mapE (scoreOne H) l = .ok (l.map (scoreOf H)) := by
  induction l with
  | nil => rfl
  | cons p l ih =>
    have h1 := h p (by simp)
    simp only [mapE, scoreOne_tup h1.1 h1.2, ih (fun q hq => h q (by simp [hq])), List.map_cons]

/-- What `_fuzzy_match` finds for tuples. -/
theorem fuzzy_eq (ho : OrdOK H) {A B : List (Ent (Id E))} (hA : ∀ e ∈ A, e.1.1.isTup = true)
    (hB : ∀ e ∈ B, e.1.1.isTup = true) : fuzzyMatch H A B =
    .ok (greedy (rank ((((H.ord _ A).product (H.ord _ B)).map (scoreOf H)).filter (fun s => s.hit ≠ 0))) A B) := by
  unfold fuzzyMatch
  rw [mapE_scores]
  rintro ⟨a, b⟩ hp
  rw [List.pair_mem_product, ho.mem, ho.mem] at hp
  exact ⟨hA a hp.1, hB b hp.2⟩

/-- Fuzzy matching from the other side finds the same pairs. -/
theorem fuzzy_flip (ho : OrdOK H) {A B : List (Ent (Id E))} (hA : ∀ e ∈ A, e.1.1.isTup = true)
    (hB : ∀ e ∈ B, e.1.1.isTup = true) (nA : A.Nodup) (nB : B.Nodup) {ps qs : List (Ent (Id E) × Ent (Id E))}
    (h1 : fuzzyMatch H A B = .ok ps) (h2 : fuzzyMatch H B A = .ok qs) : qs.Perm (ps.map Prod.swap) := by
  rw [fuzzy_eq ho hA hB] at h1
  rw [fuzzy_eq ho hB hA] at h2
  simp only [Except.ok.injEq] at h1 h2
  subst h1 h2
  have oA : (H.ord _ A).Nodup := (ho _ A).nodup_iff.2 nA
  have oB : (H.ord _ B).Nodup := (ho _ B).nodup_iff.2 nB
  have hall : ∀ (P Q : List (Ent (Id E))), P.Nodup → Q.Nodup →
      let l := ((P.product Q).map (scoreOf H)).filter (fun s => s.hit ≠ 0)
      let l' := ((Q.product P).map (scoreOf H)).filter (fun s => s.hit ≠ 0)
      (l.map Scored.pair).Nodup ∧ (∀ s, s ∈ l → s.flip ∈ l') ∧
      (∀ s t, s.clash t → List.Sublist [t, s] l → List.Sublist [t.flip, s.flip] l') := by
    intro P Q nP nQ
    refine ⟨?_, ?_, ?_⟩
    · refine List.Nodup.sublist ((List.filter_sublist).map _) ?_
      rw [List.map_map]
      have : (Scored.pair ∘ scoreOf H : Ent (Id E) × Ent (Id E) → _) = id := funext (fun p => scoreOf_pair p)
      rw [this, List.map_id]
      exact List.Nodup.product nP nQ
    · intro s hs
      rw [List.mem_filter, List.mem_map] at hs ⊢
      obtain ⟨⟨p, hp, rfl⟩, hh⟩ := hs
      refine ⟨⟨p.swap, ?_, (scoreOf_flip p).symm⟩, hh⟩
      obtain ⟨a, b⟩ := p
      rw [List.pair_mem_product] at hp
      exact List.pair_mem_product.2 ⟨hp.2, hp.1⟩
    · intro s t hc hb
      have hh : ∀ u, u ∈ [t, s] → u.hit ≠ 0 := by
        intro u hu
        have := hb.subset hu
        rw [List.mem_filter] at this
        simpa using this.2
      have hb' := hb.trans List.filter_sublist
      rw [List.sublist_map_iff] at hb'
      obtain ⟨r, hr, hr'⟩ := hb'
      match r, hr' with
      | [p, q], hr' =>
        simp only [List.map_cons, List.map_nil, List.cons.injEq, and_true] at hr'
        obtain ⟨rfl, rfl⟩ := hr'
        have hcl : p.1 = q.1 ∨ p.2 = q.2 := by
          have e1 := scoreOf_pair (H := H) p
          have e2 := scoreOf_pair (H := H) q
          rw [← e1, ← e2]
          exact hc
        have h3 := (product_order nP nQ hcl hr).map (scoreOf H)
        simp only [List.map_cons, List.map_nil] at h3
        rw [← scoreOf_flip, ← scoreOf_flip] at h3
        have h4 := h3.filter (fun s => decide (s.hit ≠ 0))
        have e1 : (scoreOf H p).flip.hit ≠ 0 := hh (scoreOf H p) (by simp)
        have e2 : (scoreOf H q).flip.hit ≠ 0 := hh (scoreOf H q) (by simp)
        simpa [e1, e2] using h4
  obtain ⟨a1, a2, a3⟩ := hall _ _ oA oB
  obtain ⟨b1, b2, b3⟩ := hall _ _ oB oA
  generalize hl : (((H.ord _ A).product (H.ord _ B)).map (scoreOf H)).filter (fun s => s.hit ≠ 0) = l at a1 a2 a3 b1 b2 b3
  generalize hl' : (((H.ord _ B).product (H.ord _ A)).map (scoreOf H)).filter (fun s => s.hit ≠ 0) = l' at a1 a2 a3 b1 b2 b3
  have hmem : ∀ s, s ∈ rank l ↔ s.flip ∈ rank l' := by
    intro s
    rw [rank_mem, rank_mem]
    exact ⟨a2 s, fun h => b2 _ h⟩
  have hiff := greedy_flip nA nB (rank_pairs a1) (rank_pairs b1) hmem
    (fun s t hc _ _ => ⟨rank_order a1 a2 a3 hc, fun h => rank_order b1 b2 b3 (s := s.flip) (t := t.flip) hc.symm h⟩)
  obtain ⟨n1, _⟩ := greedy_nodup (rank l) A B nA nB
  obtain ⟨n2, _⟩ := greedy_nodup (rank l') B A nB nA
  rw [List.perm_ext_iff_of_nodup (n2.of_map _) ((n1.of_map _).map Prod.swap_injective)]
  intro p
  rw [List.mem_map]
  constructor
  · intro hp
    obtain ⟨s, hs, rfl⟩ := greedy_from _ _ _ _ hp
    have hs' : s.flip ∈ rank l := (hmem s.flip).2 hs
    exact ⟨s.flip.pair, (hiff s.flip hs').2 hp, rfl⟩
  · rintro ⟨q, hq, rfl⟩
    obtain ⟨s, hs, rfl⟩ := greedy_from _ _ _ _ hq
    exact (hiff s hs).1 hq

end Normalize.Diff
