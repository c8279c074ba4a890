import Verif.Lemmas.Traits

/-!
# Lemmas on the traits that a call asks for
-/

namespace Normalize.Traits
open Spec

theorem mem_duckOf {r : Reg} (h : Inv r) {a : String} {k : List String} {i : Nat} :
    (k, i) ∈ duckOf r a ↔ ∃ T, TypeAt r i T ∧ T.trait ≠ none ∧ T.traits = k ∧ a ∈ T.args := by
  rw [← h.duck]
  unfold duckOf
  simp only [List.mem_map, List.mem_filter, decide_eq_true_eq, Prod.exists, Prod.mk.injEq]
  constructor
  · rintro ⟨a', k', i', ⟨h1, rfl⟩, rfl, rfl⟩; exact h1
  · intro h1; exact ⟨a, k, i, ⟨h1, rfl⟩, rfl, rfl⟩

theorem accepts_iff {r : Reg} (h : Inv r) {i : Nat} (hi : i < r.types.length) {a : String} : Accepts r i a ↔ a ∈ allArgsT r i := by
  obtain ⟨T, hT⟩ := typeAt_of_lt hi
  rw [allArgsT_eq hT, h.args i T hT]
  constructor
  · rintro ⟨j, S, ⟨T', hT', hj⟩, h1, h2⟩
    cases typeAt_unique hT hT'
    exact ⟨j, S, hj, h1, h2⟩
  · rintro ⟨j, S, hj, h1, h2⟩
    exact ⟨j, S, ⟨T, hT, hj⟩, h1, h2⟩

theorem findSafe_iff {r : Reg} : ∀ {l : List Nat}, findSafe r l = true ↔
    ∃ pre j post S, l = pre ++ j :: post ∧ TypeAt r j S ∧ S.safe = some true ∧ ∀ d ∈ pre, ∀ D, TypeAt r d D → D.safe = none
  | [] => by simp [findSafe]
  | c :: cs => by
    have ih := findSafe_iff (r := r) (l := cs)
    have hgo : (∀ D, TypeAt r c D → D.safe = none) → (findSafe r cs = true ↔
        ∃ pre j post S, c :: cs = pre ++ j :: post ∧ TypeAt r j S ∧ S.safe = some true ∧ ∀ d ∈ pre, ∀ D, TypeAt r d D → D.safe = none) := by
      intro hc
      rw [ih]
      constructor
      · rintro ⟨pre, j, post, S, rfl, h1, h2, h3⟩
        exact ⟨c :: pre, j, post, S, rfl, h1, h2, by
          intro d hd
          rcases List.mem_cons.1 hd with rfl | hd
          · exact hc
          · exact h3 d hd⟩
      · rintro ⟨pre, j, post, S, he, h1, h2, h3⟩
        cases pre with
        | nil =>
          simp only [List.nil_append, List.cons.injEq] at he
          obtain ⟨rfl, _⟩ := he
          rw [hc S h1] at h2
          cases h2
        | cons p pre =>
          simp only [List.cons_append, List.cons.injEq] at he
          exact ⟨pre, j, post, S, he.2, h1, h2, fun d hd => h3 d (List.mem_cons_of_mem _ hd)⟩
    simp only [findSafe]
    cases hT : r.types[c]? with
    | none =>
      simp only
      exact hgo (fun D hD => by rw [hD] at hT; cases hT)
    | some T =>
      simp only
      cases hs : T.safe with
      | none =>
        simp only
        exact hgo (fun D hD => by cases typeAt_unique hT hD; exact hs)
      | some b =>
        simp only
        constructor
        · rintro rfl
          exact ⟨[], c, cs, T, rfl, hT, hs, by simp⟩
        · rintro ⟨pre, j, post, S, he, h1, h2, h3⟩
          cases pre with
          | nil =>
            simp only [List.nil_append, List.cons.injEq] at he
            obtain ⟨rfl, _⟩ := he
            cases typeAt_unique hT h1
            rw [hs] at h2
            exact Option.some.inj h2
          | cons p pre =>
            simp only [List.cons_append, List.cons.injEq] at he
            obtain ⟨rfl, _⟩ := he
            rw [h3 c (by simp) T hT] at hs
            cases hs

theorem safeT_iff {r : Reg} {i : Nat} : safeT r i = true ↔ SafeFlag r i := by
  unfold safeT SafeFlag
  rw [findSafe_iff]
  cases hT : r.types[i]? with
  | none =>
    unfold mroT
    rw [hT]
    constructor
    · rintro ⟨pre, j, post, S, he, _⟩; simp at he
    · rintro ⟨T, _, _, _, _, hT', _⟩
      rw [hT'] at hT
      cases hT
  | some T =>
    rw [mroT_eq hT]
    constructor
    · rintro ⟨pre, j, post, S, h⟩; exact ⟨T, pre, j, post, S, hT, h⟩
    · rintro ⟨T', pre, j, post, S, hT', h⟩
      cases typeAt_unique hT hT'
      exact ⟨pre, j, post, S, h⟩

/-- The argument is not accepted, and this type has it. -/
def Implies (r : Reg) (self : Nat) (kw : List (String × Kw)) (a : String) (k : List String) (i : Nat) : Prop :=
  (∃ v, (a, v) ∈ kw) ∧ a ∉ allArgsT r self ∧ (k, i) ∈ duckOf r a

theorem scanArgs_ok {r : Reg} {self : Nat} : ∀ {kw : List (String × Kw)} {extra : List String} {sf : Bool} {extra' : List String} {sf' : Bool},
    scanArgs r self kw extra sf = .ok (extra', sf') →
    (∀ t, t ∈ extra' ↔ t ∈ extra ∨ ∃ a k i, Implies r self kw a k i ∧ t ∈ k) ∧
    (sf' = true ↔ sf = true ∨ ∃ a k i, Implies r self kw a k i ∧ safeT r i = true) ∧
    ∀ a v, (a, v) ∈ kw → a ∈ allArgsT r self ∨ ∃ k i, (k, i) ∈ duckOf r a ∧ ∀ k' i', (k', i') ∈ duckOf r a → k' = k
  | [], extra, sf, extra', sf', h => by
    cases h
    refine ⟨fun t => ⟨.inl, ?_⟩, ⟨.inl, ?_⟩, by simp⟩
    · rintro (h | ⟨a, k, i, ⟨⟨v, hv⟩, _⟩, _⟩)
      · exact h
      · cases hv
    · rintro (h | ⟨a, k, i, ⟨⟨v, hv⟩, _⟩, _⟩)
      · exact h
      · cases hv
  | (a, v) :: rest, extra, sf, extra', sf', h => by
    simp only [scanArgs] at h
    have himp : ∀ a' k i, Implies r self ((a, v) :: rest) a' k i ↔ (a' = a ∧ a ∉ allArgsT r self ∧ (k, i) ∈ duckOf r a) ∨ Implies r self rest a' k i := by
      intro a' k i
      unfold Implies
      constructor
      · rintro ⟨⟨w, hw⟩, h1, h2⟩
        rcases List.mem_cons.1 hw with hw | hw
        · cases hw; exact .inl ⟨rfl, h1, h2⟩
        · exact .inr ⟨⟨w, hw⟩, h1, h2⟩
      · rintro (⟨rfl, h1, h2⟩ | ⟨⟨w, hw⟩, h1, h2⟩)
        · exact ⟨⟨v, List.mem_cons_self⟩, h1, h2⟩
        · exact ⟨⟨w, List.mem_cons_of_mem _ hw⟩, h1, h2⟩
    split at h
    · rename_i hacc
      have hacc : a ∈ allArgsT r self := by simpa using hacc
      obtain ⟨h1, h2, h3⟩ := scanArgs_ok h
      have hsame : ∀ a' k i, Implies r self ((a, v) :: rest) a' k i ↔ Implies r self rest a' k i := by
        intro a' k i
        rw [himp]
        exact ⟨fun h => h.elim (fun h => absurd hacc h.2.1) id, .inr⟩
      simp only [hsame]
      refine ⟨h1, h2, ?_⟩
      intro a' v' hv
      rcases List.mem_cons.1 hv with hv | hv
      · cases hv; exact .inl hacc
      · exact h3 a' v' hv
    · rename_i hacc
      have hacc : a ∉ allArgsT r self := by simpa using hacc
      split at h
      · cases h
      · rename_i ts hts
        have hall : ∀ k i, (k, i) ∈ duckOf r a → k = ts := by
          intro k i hk
          have : k ∈ distinct ((duckOf r a).map (·.1)) := mem_distinct.2 (List.mem_map.2 ⟨(k, i), hk, rfl⟩)
          rw [hts] at this
          simpa using this
        have hex : ∃ i, (ts, i) ∈ duckOf r a := by
          have : ts ∈ distinct ((duckOf r a).map (·.1)) := by rw [hts]; simp
          obtain ⟨⟨k, i⟩, h1, h2⟩ := List.mem_map.1 (mem_distinct.1 this)
          simp only at h2
          subst h2
          exact ⟨i, h1⟩
        obtain ⟨i0, hi0⟩ := hex
        obtain ⟨h1, h2, h3⟩ := scanArgs_ok h
        refine ⟨?_, ?_, ?_⟩
        · intro t
          rw [h1, List.mem_append]
          constructor
          · rintro ((h | h) | ⟨a', k, i, h, ht⟩)
            · exact .inl h
            · exact .inr ⟨a, ts, i0, (himp _ _ _).2 (.inl ⟨rfl, hacc, hi0⟩), h⟩
            · exact .inr ⟨a', k, i, (himp _ _ _).2 (.inr h), ht⟩
          · rintro (h | ⟨a', k, i, h, ht⟩)
            · exact .inl (.inl h)
            · rcases (himp _ _ _).1 h with ⟨_, _, h⟩ | h
              · rw [hall k i h] at ht
                exact .inl (.inr ht)
              · exact .inr ⟨a', k, i, h, ht⟩
        · rw [h2, Bool.or_eq_true, List.any_eq_true]
          constructor
          · rintro ((h | ⟨⟨k, i⟩, h, hs⟩) | ⟨a', k, i, h, hs⟩)
            · exact .inl h
            · exact .inr ⟨a, k, i, (himp _ _ _).2 (.inl ⟨rfl, hacc, h⟩), hs⟩
            · exact .inr ⟨a', k, i, (himp _ _ _).2 (.inr h), hs⟩
          · rintro (h | ⟨a', k, i, h, hs⟩)
            · exact .inl (.inl h)
            · rcases (himp _ _ _).1 h with ⟨_, _, h⟩ | h
              · exact .inl (.inr ⟨(k, i), h, hs⟩)
              · exact .inr ⟨a', k, i, h, hs⟩
        · intro a' v' hv
          rcases List.mem_cons.1 hv with hv | hv
          · cases hv; exact .inr ⟨ts, i0, hi0, hall⟩
          · exact h3 a' v' hv
      · cases h

theorem mem_adjustSafe {all : List String} {sf : Bool} {t : String} : t ∈ adjustSafe all sf ↔
    (t ∈ all ∧ (t ≠ "unsafe" ∨ "safe" ∈ all)) ∨ (t = "safe" ∧ sf = true ∧ "ro" ∉ all ∧ "unsafe" ∉ all) := by
  unfold adjustSafe
  simp only [Bool.and_eq_true, List.contains_iff_mem, Bool.not_eq_true', List.contains_eq_mem, decide_eq_false_iff_not, decide_eq_true_eq]
  split
  · rename_i h
    rw [List.mem_filter]
    simp only [ne_eq, decide_not, Bool.not_eq_true', decide_eq_false_iff_not]
    constructor
    · rintro ⟨h1, h2⟩; exact .inl ⟨h1, .inl h2⟩
    · rintro (⟨h1, h2 | h2⟩ | ⟨_, _, _, h2⟩)
      · exact ⟨h1, h2⟩
      · exact absurd h2 h.2
      · exact absurd h.1 h2
  · rename_i h
    by_cases hs : "safe" ∈ all
    · split
      · rw [List.mem_append, List.mem_singleton]
        constructor
        · rintro (h1 | rfl)
          · exact .inl ⟨h1, .inr hs⟩
          · exact .inl ⟨hs, .inr hs⟩
        · rintro (⟨h1, _⟩ | ⟨rfl, _⟩)
          · exact .inl h1
          · exact .inr rfl
      · constructor
        · intro h1; exact .inl ⟨h1, .inr hs⟩
        · rintro (⟨h1, _⟩ | ⟨rfl, _⟩)
          · exact h1
          · exact hs
    · have hu : "unsafe" ∉ all := fun hu => h ⟨hu, hs⟩
      have hne : ∀ t ∈ all, t ≠ "unsafe" := by rintro t ht rfl; exact hu ht
      split
      · rename_i h2
        rw [List.mem_append, List.mem_singleton]
        constructor
        · rintro (h1 | rfl)
          · exact .inl ⟨h1, .inl (hne _ h1)⟩
          · exact .inr ⟨rfl, h2.2, h2.1, hu⟩
        · rintro (⟨h1, _⟩ | ⟨rfl, _⟩)
          · exact .inl h1
          · exact .inr rfl
      · rename_i h2
        constructor
        · intro h1; exact .inl ⟨h1, .inl (hne _ h1)⟩
        · rintro (⟨h1, _⟩ | ⟨rfl, h3, h4, _⟩)
          · exact h1
          · exact absurd ⟨h4, h3⟩ h2

theorem mem_adjustV1 {all : List String} {kw : List (String × Kw)} {t : String} : t ∈ adjustV1 all kw ↔
    t ∈ all ∨ ((t = "v1" ∨ t = "safe") ∧ "v1" ∉ all ∧ alookup kw "default" = some .v1none) := by
  unfold adjustV1
  simp only [Bool.and_eq_true, Bool.not_eq_true', List.contains_eq_mem, decide_eq_false_iff_not, decide_eq_true_eq]
  split
  · rename_i h
    simp only [List.mem_append, List.mem_cons, List.not_mem_nil, or_false]
    exact ⟨fun h1 => h1.imp id (fun h1 => ⟨h1, h⟩), fun h1 => h1.imp id (fun h1 => h1.1)⟩
  · rename_i h
    exact ⟨.inl, fun h1 => h1.elim id (fun h1 => absurd h1.2 h)⟩

/-- What `traitKey` computes. -/
structure KeyOf (r : Reg) (me : Nat) (kw : List (String × Kw)) (key extra : List String) (sf : Bool) : Prop where
  sorted : key.Pairwise (· < ·)
  mem : ∀ t, t ∈ key ↔ t ∈ adjustV1 (adjustSafe (traitsT r me ++ extra) sf) kw
  extra : ∀ t, t ∈ extra ↔ (∃ l, alookup kw "traits" = some (.list l) ∧ t ∈ l) ∨
    ∃ a k i, Implies r me (kw.filter (fun e => e.1 ≠ "traits")) a k i ∧ t ∈ k
  safe : sf = true ↔ safeT r me = true ∨ wantsSafe kw = true ∨
    ∃ a k i, Implies r me (kw.filter (fun e => e.1 ≠ "traits")) a k i ∧ safeT r i = true
  known : ∀ a v, (a, v) ∈ kw → a ≠ "traits" → a ∈ allArgsT r me ∨ ∃ k i, (k, i) ∈ duckOf r a ∧ ∀ k' i', (k', i') ∈ duckOf r a → k' = k

theorem traitKey_ok {r : Reg} {self : Nat} {kw : List (String × Kw)} {key : List String} (h : traitKey r self kw = .ok key) :
    ∃ extra sf, KeyOf r self kw key extra sf := by
  unfold traitKey at h
  split at h
  · cases h
  · rename_i extra0 hpop
    split at h
    · cases h
    · rename_i extra sf hscan
      cases h
      obtain ⟨h1, h2, h3⟩ := scanArgs_ok hscan
      refine ⟨extra, sf, norm_sorted _, fun t => mem_norm, ?_, ?_, ?_⟩
      · intro t
        rw [h1]
        refine or_congr ?_ Iff.rfl
        unfold popTraits at hpop
        split at hpop
        · rename_i hn
          cases hpop
          rw [hn]
          simp
        · rename_i l hn
          cases hpop
          rw [hn]
          simp
        · cases hpop
      · rw [h2, Bool.or_eq_true, or_assoc]
      · intro a v hv hne
        exact h3 a v (List.mem_filter.2 ⟨hv, by simpa using hne⟩)

theorem KeyOf.mono {r : Reg} {self : Nat} {kw : List (String × Kw)} {key extra : List String} {sf : Bool} (h : KeyOf r self kw key extra sf)
    {t : String} (ht : t ∈ traitsT r self) (hu : t ≠ "unsafe" ∨ "safe" ∈ traitsT r self) : t ∈ key := by
  rw [h.mem, mem_adjustV1, mem_adjustSafe]
  refine .inl (.inl ⟨List.mem_append_left _ ht, hu.imp id ?_⟩)
  exact fun hs => List.mem_append_left _ hs

theorem KeyOf.tidy {r : Reg} {self : Nat} {kw : List (String × Kw)} {key extra : List String} {sf : Bool} (h : KeyOf r self kw key extra sf)
    (hu : "unsafe" ∈ key) : "safe" ∈ key := by
  rw [h.mem, mem_adjustV1, mem_adjustSafe] at hu ⊢
  rcases hu with (⟨h1, h2 | h2⟩ | ⟨h1, _⟩) | ⟨h1 | h1, _⟩
  · exact absurd rfl h2
  · exact .inl (.inl ⟨h2, .inr h2⟩)
  · exact absurd h1 (by decide)
  · exact absurd h1 (by decide)
  · exact absurd h1 (by decide)

/-! ## Default arguments -/

theorem mixKw_once : ∀ {kw d : List (String × Kw)}, KwOnce d → KwOnce (mixKw d kw)
  | [], _, h => h
  | (k, v) :: kw, d, h => mixKw_once (kw := kw) (d := aset d k v) (ClassMeta.Keys.aset h k v)

theorem mixKw_get : ∀ {kw d : List (String × Kw)} {k : String}, KwOnce kw → alookup (mixKw d kw) k =
    match alookup kw k with
    | some v => some v
    | none => alookup d k
  | [], d, k, _ => rfl
  | (k', w) :: e, d, k, h => by
    simp only [KwOnce, List.map_cons, List.nodup_cons] at h
    simp only [mixKw, alookup]
    rw [mixKw_get h.2, Normalize.alookup_aset]
    by_cases hk : k' = k
    · subst hk
      rw [ClassMeta.alookup_none.2 h.1]
      simp
    · simp [hk]

theorem passed_iff {r : Reg} (hi : Inv r) {cls : Nat} {kw : List (String × Kw)} (hk : KwOnce kw) {a : String} {v : Kw} :
    Passed r cls kw a v ↔ alookup (mixKw (defaultsT r cls) kw) a = some v := by
  have hm : ∀ {d : List (String × Kw)}, KwOnce d → ∀ {w}, (a, w) ∈ d ↔ alookup d a = some w := fun h => ClassMeta.Keys.mem_iff h
  rw [mixKw_get hk]
  unfold Passed
  simp only [hm hk]
  cases hl : alookup kw a with
  | some w =>
    simp only
    exact ⟨fun h => h.elim id (fun h => absurd rfl (h.1 w)), .inl⟩
  | none =>
    simp only [reduceCtorEq, not_false_eq_true, implies_true, true_and, false_or]
    constructor
    · rintro ⟨T, hT, hv⟩
      rw [defaultsT_eq hT]
      exact (hm (hi.defaults cls T hT)).1 hv
    · intro hv
      cases hT : r.types[cls]? with
      | none =>
        unfold defaultsT at hv
        rw [hT] at hv
        cases hv
      | some T =>
        rw [defaultsT_eq hT] at hv
        exact ⟨T, hT, (hm (hi.defaults cls T hT)).2 hv⟩

theorem passed_mem {r : Reg} (hi : Inv r) {cls : Nat} {kw : List (String × Kw)} (hk : KwOnce kw) {a : String} {v : Kw} :
    Passed r cls kw a v ↔ (a, v) ∈ mixKw (defaultsT r cls) kw := by
  rw [passed_iff hi hk]
  refine (ClassMeta.Keys.mem_iff (mixKw_once ?_)).symm
  cases hT : r.types[cls]? with
  | none =>
    unfold defaultsT
    rw [hT]
    exact List.nodup_nil
  | some T =>
    rw [defaultsT_eq hT]
    exact hi.defaults cls T hT

/-- The key of a call is the set of the wanted traits. -/
theorem key_wanted {r : Reg} (hi : Inv r) {cls : Nat} (hc : cls < r.types.length) {kw : List (String × Kw)} (hk : KwOnce kw)
    {key extra : List String} {sf : Bool} (h : KeyOf r cls (mixKw (defaultsT r cls) kw) key extra sf) (t : String) :
    t ∈ key ↔ WantedTrait r cls kw t := by
  obtain ⟨C, hC⟩ := typeAt_of_lt hc
  have himp : ∀ a j, ImpliesType r cls kw a j ↔ ∃ k, Implies r cls ((mixKw (defaultsT r cls) kw).filter (fun e => e.1 ≠ "traits")) a k j := by
    intro a j
    unfold ImpliesType Implies
    simp only [passed_mem hi hk, accepts_iff hi hc, mem_duckOf hi, List.mem_filter]
    constructor
    · rintro ⟨h1, ⟨v, hv⟩, h2, D, h3, h4, h5⟩
      exact ⟨D.traits, ⟨v, hv, by simpa using h1⟩, h2, D, h3, h5, rfl, h4⟩
    · rintro ⟨k, ⟨v, hv, h1⟩, h2, D, h3, h5, _, h4⟩
      exact ⟨by simpa using h1, ⟨v, hv⟩, h2, D, h3, h4, h5⟩
  have hasked : ∀ t, t ∈ traitsT r cls ++ extra ↔ Asked r cls kw t := by
    intro t
    rw [List.mem_append, h.extra, traitsT_eq hC]
    unfold Asked
    refine or_congr ?_ (or_congr ?_ ?_)
    · constructor
      · intro h; exact ⟨C, hC, h⟩
      · rintro ⟨T, hT, h⟩
        cases typeAt_unique hC hT
        exact h
    · simp only [passed_iff hi hk]
    · constructor
      · rintro ⟨a, k, i, h1, h2⟩
        obtain ⟨D, h3, _, h4, _⟩ := (mem_duckOf hi).1 h1.2.2
        exact ⟨a, i, (himp a i).2 ⟨k, h1⟩, D, h3, by rw [h4]; exact h2⟩
      · rintro ⟨a, j, h1, D, h2, h3⟩
        obtain ⟨k, h4⟩ := (himp a j).1 h1
        obtain ⟨D', h5, _, h6, _⟩ := (mem_duckOf hi).1 h4.2.2
        cases typeAt_unique h2 h5
        exact ⟨a, k, j, h4, by rw [← h6]; exact h3⟩
  have hsafe : sf = true ↔ SafeByDefault r cls kw := by
    rw [h.safe, safeT_iff]
    unfold SafeByDefault
    refine or_congr Iff.rfl (or_congr ?_ ?_)
    · unfold wantsSafe
      simp only [List.any_eq_true, Prod.exists, passed_mem hi hk]
      constructor
      · rintro ⟨a, v, h1, h2⟩; exact ⟨a, v, by simpa using h2, h1⟩
      · rintro ⟨a, v, h2, h1⟩; exact ⟨a, v, h1, by simpa using h2⟩
    · simp only [himp, safeT_iff]
      constructor
      · rintro ⟨a, k, i, h1, h2⟩; exact ⟨a, i, ⟨k, h1⟩, h2⟩
      · rintro ⟨a, i, ⟨k, h1⟩, h2⟩; exact ⟨a, k, i, h1, h2⟩
  rw [h.mem, mem_adjustV1, mem_adjustSafe]
  have hv1 : "v1" ∈ adjustSafe (traitsT r cls ++ extra) sf ↔ Asked r cls kw "v1" := by
    rw [mem_adjustSafe, hasked]
    constructor
    · rintro (⟨h, _⟩ | ⟨h, _⟩)
      · exact h
      · exact absurd h (by decide)
    · exact fun h => .inl ⟨h, .inl (by decide)⟩
  rw [hv1]
  simp only [hasked, hsafe, ← passed_iff hi hk]
  constructor
  · rintro ((⟨h1, h2⟩ | ⟨rfl, h1, h2, h3⟩) | ⟨h1, h2, h3⟩)
    · by_cases hu : t = "unsafe"
      · subst hu
        exact .both h1 (h2.elim (absurd rfl) id)
      · exact .asked h1 hu
    · exact .safe h1 h2 h3
    · exact .v1 h1 h2 h3
  · rintro (⟨h1, h2⟩ | ⟨h1, h2⟩ | ⟨h1, h2, h3⟩ | ⟨h1, h2, h3⟩)
    · exact .inl (.inl ⟨h1, .inl h2⟩)
    · exact .inl (.inl ⟨h1, .inr h2⟩)
    · exact .inl (.inr ⟨rfl, h1, h2, h3⟩)
    · exact .inr ⟨h1, h2, h3⟩

end Normalize.Traits
