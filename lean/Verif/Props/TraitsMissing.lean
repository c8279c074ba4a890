import Verif.Spec.TraitsMissing
import Verif.Props.Traits

/-!
# C125: when a property can be composed
-/

namespace Normalize.Traits

open Spec

variable {r r' r'' : Reg} {cls n pt : Nat} {kw : List (String × Kw)} {e : PErr}

theorem distinct_one {k : List String} : ∀ {l : List (List String)}, l ≠ [] → (∀ x ∈ l, x = k) → distinct l = [k]
  | [], h, _ => absurd rfl h
  | [x], _, h => by
    have := h x List.mem_cons_self
    subst this
    rfl
  | x :: y :: l, _, h => by
    have h1 := h x List.mem_cons_self
    have h2 := h y (List.mem_cons_of_mem _ List.mem_cons_self)
    subst h1
    subst h2
    have ih := distinct_one (l := y :: l) (by simp) (fun z hz => h z (List.mem_cons_of_mem _ hz))
    rw [distinct, if_pos (by simp)]
    exact ih

theorem scanArgs_total {self : Nat} : ∀ {kw : List (String × Kw)},
    (∀ a v, (a, v) ∈ kw → a ∈ allArgsT r self ∨ ∃ k i, (k, i) ∈ duckOf r a ∧ ∀ k' i', (k', i') ∈ duckOf r a → k' = k) →
    ∀ extra sf, ∃ p, scanArgs r self kw extra sf = .ok p
  | [], _, extra, sf => ⟨_, rfl⟩
  | (a, v) :: kw, h, extra, sf => by
    have ih := scanArgs_total (kw := kw) (fun b w hb => h b w (List.mem_cons_of_mem _ hb))
    simp only [scanArgs]
    split
    · exact ih _ _
    · rename_i hc
      rcases h a v List.mem_cons_self with h1 | ⟨k, i, h1, h2⟩
      · exact absurd (by simpa using h1) hc
      · have : distinct ((duckOf r a).map (·.1)) = [k] := by
          refine distinct_one ?_ ?_
          · intro hn
            have := List.mem_map_of_mem (f := (·.1)) h1
            rw [hn] at this
            cases this
          · intro x hx
            obtain ⟨⟨k', i'⟩, hk, rfl⟩ := List.mem_map.1 hx
            exact h2 k' i' hk
        rw [this]
        exact ih _ _

/-- The arguments mean something exactly if there is a key. -/
theorem traitKey_wellGiven (hi : Inv r) (hc : cls < r.types.length) (hk : KwOnce kw) :
    (∃ key, traitKey r cls (mixKw (defaultsT r cls) kw) = .ok key) ↔ WellGiven r cls kw := by
  constructor
  · rintro ⟨key, hkey⟩
    obtain ⟨extra, sf, hK⟩ := traitKey_ok hkey
    refine ⟨?_, ?_⟩
    · intro v hp
      have h1 := (passed_iff hi hk).1 hp
      unfold traitKey popTraits at hkey
      rw [h1] at hkey
      cases v with
      | list l => exact ⟨l, rfl⟩
      | v1none => cases hkey
      | other => cases hkey
    · intro a v hp ha
      by_cases hacc : Accepts r cls a
      · exact .inl hacc
      right
      rcases hK.known a v ((passed_mem hi hk).1 hp) ha with h2 | ⟨k, j, h2, h3⟩
      · exact absurd ((accepts_iff hi hc).2 h2) hacc
      · obtain ⟨D, h4, h5, h6, h7⟩ := (mem_duckOf hi).1 h2
        refine ⟨j, ⟨ha, ⟨v, hp⟩, hacc, D, h4, h7, h5⟩, ?_⟩
        rintro i ⟨_, _, _, E, h8, h9, h10⟩ t
        have := h3 E.traits i ((mem_duckOf hi).2 ⟨E, h8, h10, rfl, h9⟩)
        constructor
        · rintro ⟨E', hE', ht⟩
          cases typeAt_unique h8 hE'
          exact ⟨D, h4, by rw [h6, ← this]; exact ht⟩
        · rintro ⟨D', hD', ht⟩
          cases typeAt_unique h4 hD'
          exact ⟨E, h8, by rw [this, ← h6]; exact ht⟩
  · intro hw
    have hpop : ∃ l, popTraits (mixKw (defaultsT r cls) kw) = .ok l := by
      unfold popTraits
      cases hl : alookup (mixKw (defaultsT r cls) kw) "traits" with
      | none => exact ⟨_, rfl⟩
      | some v =>
        obtain ⟨l, rfl⟩ := hw.traits v ((passed_iff hi hk).2 hl)
        exact ⟨_, rfl⟩
    obtain ⟨l, hl⟩ := hpop
    have hknown : ∀ a v, (a, v) ∈ (mixKw (defaultsT r cls) kw).filter (fun e => e.1 ≠ "traits") →
        a ∈ allArgsT r cls ∨ ∃ k i, (k, i) ∈ duckOf r a ∧ ∀ k' i', (k', i') ∈ duckOf r a → k' = k := by
      intro a v hv
      obtain ⟨h1, h2⟩ := List.mem_filter.1 hv
      have h2 : a ≠ "traits" := by simpa using h2
      have hp := (passed_mem hi hk).2 h1
      by_cases hacc : Accepts r cls a
      · exact .inl ((accepts_iff hi hc).1 hacc)
      right
      rcases hw.known a v hp h2 with h3 | ⟨j, ⟨_, _, _, D, h4, h5, h6⟩, h7⟩
      · exact absurd h3 hacc
      · refine ⟨D.traits, j, (mem_duckOf hi).2 ⟨D, h4, h6, rfl, h5⟩, ?_⟩
        intro k' i' hk'
        obtain ⟨E, h8, h9, rfl, h10⟩ := (mem_duckOf hi).1 hk'
        have h11 := h7 i' ⟨h2, ⟨v, hp⟩, hacc, E, h8, h10, h9⟩
        refine sorted_ext (hi.sorted _ _ h8) (hi.sorted _ _ h4) (fun t => ⟨fun ht => ?_, fun ht => ?_⟩)
        · obtain ⟨D', hD', ht'⟩ := (h11 t).1 ⟨E, h8, ht⟩
          cases typeAt_unique h4 hD'
          exact ht'
        · obtain ⟨E', hE', ht'⟩ := (h11 t).2 ⟨D, h4, ht⟩
          cases typeAt_unique h8 hE'
          exact ht'
    obtain ⟨p, hp⟩ := scanArgs_total hknown l (safeT r cls || wantsSafe (mixKw (defaultsT r cls) kw))
    unfold traitKey
    rw [hl]
    simp only
    rw [hp]
    exact ⟨_, rfl⟩

theorem mem_stock (hi : Inv r) {key k : List String} :
    k ∈ stockTypes r key ↔ (∃ i T, TypeAt r i T ∧ T.traits = k) ∧ ∀ t ∈ k, t ∈ key := by
  unfold stockTypes
  simp only [List.mem_filter, List.all_eq_true, List.contains_iff_mem]
  refine and_congr ?_ Iff.rfl
  constructor
  · intro h
    obtain ⟨⟨k', i⟩, h3, rfl⟩ := List.mem_map.1 h
    have hsome : ∃ i', lookupT r.reg k' = some i' := by
      clear h
      generalize r.reg = l at h3
      induction l with
      | nil => cases h3
      | cons x l ih =>
        obtain ⟨k2, i2⟩ := x
        simp only [lookupT]
        split
        · exact ⟨_, rfl⟩
        · rename_i hne
          rcases List.mem_cons.1 h3 with h3 | h3
          · cases h3; exact absurd rfl hne
          · exact ih h3
    obtain ⟨i', hl⟩ := hsome
    obtain ⟨T, hT, ht⟩ := (hi.reg _ i').1 hl
    exact ⟨i', T, hT, ht⟩
  · rintro ⟨i, T, hT, rfl⟩
    have hl := (hi.reg _ i).2 ⟨T, hT, rfl⟩
    generalize r.reg = l at hl
    induction l with
    | nil => cases hl
    | cons x l ih =>
      obtain ⟨k2, i2⟩ := x
      simp only [lookupT] at hl
      split at hl
      · rename_i h; subst h; simp
      · exact List.mem_map.2 (by
          obtain ⟨y, h1, h2⟩ := List.mem_map.1 (ih hl)
          exact ⟨y, List.mem_cons_of_mem _ h1, h2⟩)

theorem mem_missing (hi : Inv r) {key : List String} {t : String} :
    t ∈ missing r key ↔ t ∈ key ∧ ∀ i, HasTrait r i t → ∃ t', HasTrait r i t' ∧ t' ∉ key := by
  unfold missing
  simp only [List.mem_filter, Bool.not_eq_true', List.any_eq_false, List.contains_iff_mem]
  refine and_congr Iff.rfl ?_
  constructor
  · rintro h i ⟨T, hT, ht⟩
    refine Classical.byContradiction fun hn => ?_
    refine h T.traits ((mem_stock hi).2 ⟨⟨i, T, hT, rfl⟩, fun t' ht' => ?_⟩) ht
    exact Classical.byContradiction fun hn' => hn ⟨t', ⟨T, hT, ht'⟩, hn'⟩
  · intro h k hk ht
    obtain ⟨⟨i, T, hT, rfl⟩, h2⟩ := (mem_stock hi).1 hk
    obtain ⟨t', ⟨T', hT', ht'⟩, hn⟩ := h i ⟨T, hT, ht⟩
    cases typeAt_unique hT hT'
    exact hn (h2 t' ht')

/-! ## Which exceptions composing raises -/

/-- What may go wrong in a round. -/
def InRound (e : PErr) : Prop := e = .keyError ∨ e = .typeClash ∨ e = .mroConflict ∨ e = .badId

theorem newType_error {d : Decl} (h : newType r d = (.error e, r')) : InRound e := by
  unfold newType at h
  split at h
  · cases h; exact .inr (.inr (.inr rfl))
  · split at h
    · cases h; exact .inr (.inl rfl)
    · split at h
      · cases h; exact .inr (.inr (.inl rfl))
      · cases h

theorem oneBase_error {wanted base : List String} {stock : List (List String)}
    (h : oneBase r wanted stock base = (.error e, r')) : InRound e := by
  unfold oneBase at h
  split at h
  · split at h
    · cases h; exact .inl rfl
    · split at h
      · cases h; exact .inl rfl
      · split at h
        · rename_i he; cases h; exact newType_error he
        · cases h
  · cases h

theorem eachBase_error {wanted : List String} {longest : Nat} : ∀ {bs : List (List String)} {r : Reg} {stock : List (List String)}
    {made : Bool}, eachBase wanted longest r stock made bs = (.error e, r') → InRound e
  | [], _, _, _, h => by cases h
  | b :: bs, r, stock, made, h => by
    simp only [eachBase] at h
    split at h
    · exact eachBase_error h
    · split at h
      · rename_i he; cases h; exact oneBase_error he
      · exact eachBase_error h

theorem compose_error {wanted : List String} : ∀ {n : Nat} {r : Reg} {stock : List (List String)},
    compose wanted n r stock = (.error e, r') → InRound e ∨ e = .diverge ∨ e = .valueError ∨ e = .mixinFailure
  | 0, _, _, h => by cases h; exact .inr (.inl rfl)
  | n + 1, r, stock, h => by
    simp only [compose] at h
    split at h
    · cases h
    · split at h
      · cases h; exact .inr (.inr (.inl rfl))
      · split at h
        · rename_i he; cases h; exact .inl (eachBase_error he)
        · split at h
          · exact compose_error h
          · cases h; exact .inr (.inr (.inr rfl))

/-! ## The call -/

theorem root_lt (hi : Inv r) : 0 < r.types.length := by
  obtain ⟨T, hT, _⟩ := hi.rootMro
  exact typeAt_lt hT

theorem call_root (hi : Inv r) (n : Nat) (kw : List (String × Kw)) :
    call (n + 1) r 0 kw = has r 0 (mixKw (defaultsT r 0) kw) := by
  have hk := has_keeps r 0 (mixKw (defaultsT r 0) kw) hi
  unfold call
  rw [if_neg (by have := root_lt hi; omega)]
  simp only [construct]
  cases hh : has r 0 (mixKw (defaultsT r 0) kw) with
  | mk q r1 =>
    cases q with
    | error e => rfl
    | ok pt =>
      rw [hh] at hk
      obtain ⟨T, hT, hm, _⟩ := hi.rootMro
      have : after 0 (mroT r1 0) = some [] := by
        rw [mroT_eq (hk.2.at hT), hm]
        simp [after]
      simp only [this]

/-- `Property(...)` raises `PropertyTypeMixinNotPossible` exactly if the arguments mean something and a trait that is
wanted is missing; and then no type has been made. -/
theorem C125_missing (hr : Registry r) (hk : KwOnce kw) :
    call (n + 1) r 0 kw = (.error .mixinNotPossible, r') ↔ r' = r ∧ WellGiven r 0 kw ∧ ∃ t, MissingTrait r 0 kw t := by
  have hi := registry_inv hr
  have hc := root_lt hi
  rw [call_root hi, ← traitKey_wellGiven hi hc hk]
  unfold has
  cases hkey : traitKey r 0 (mixKw (defaultsT r 0) kw) with
  | error e =>
    constructor
    · intro h
      simp only [Prod.mk.injEq, Except.error.injEq] at h
      obtain ⟨rfl, _⟩ := h
      exfalso
      unfold traitKey at hkey
      split at hkey
      · rename_i e' hp
        cases hkey
        unfold popTraits at hp
        split at hp <;> cases hp
      · split at hkey
        · rename_i e' hsc
          cases hkey
          have : ∀ (kw : List (String × Kw)) (extra : List String) (sf : Bool), scanArgs r 0 kw extra sf ≠ .error .mixinNotPossible := by
            intro kw
            induction kw with
            | nil => intro _ _ h; cases h
            | cons x kw ih =>
              intro extra sf
              obtain ⟨a, v⟩ := x
              simp only [scanArgs]
              split
              · exact ih _ _
              · split
                · simp
                · exact ih _ _
                · simp
          exact this _ _ _ hsc
        · cases hkey
    · rintro ⟨_, ⟨key, h⟩, _⟩
      cases h
  | ok key =>
    obtain ⟨extra, sf, hK⟩ := traitKey_ok hkey
    have hw : ∀ t, t ∈ key ↔ WantedTrait r 0 kw t := key_wanted hi hc hk hK
    have hmiss : (∃ t, MissingTrait r 0 kw t) ↔ missing r key ≠ [] := by
      constructor
      · rintro ⟨t, h1, h2⟩ hn
        have : t ∈ missing r key := (mem_missing hi).2 ⟨(hw t).2 h1, fun i hti => by
          obtain ⟨t', h3, h4⟩ := h2 i hti
          exact ⟨t', h3, fun h => h4 ((hw t').1 h)⟩⟩
        rw [hn] at this
        cases this
      · intro hn
        obtain ⟨t, ht⟩ := List.exists_mem_of_ne_nil _ hn
        obtain ⟨h1, h2⟩ := (mem_missing hi).1 ht
        refine ⟨t, (hw t).1 h1, fun i hti => ?_⟩
        obtain ⟨t', h3, h4⟩ := h2 i hti
        exact ⟨t', h3, fun h => h4 ((hw t').2 h)⟩
    have hreg : ∀ i, lookupT r.reg key = some i → missing r key = [] := by
      intro i hl
      rw [List.eq_nil_iff_forall_not_mem]
      intro t ht
      obtain ⟨h1, h2⟩ := (mem_missing hi).1 ht
      obtain ⟨T, hT, rfl⟩ := (hi.reg _ i).1 hl
      obtain ⟨t', ⟨T', hT', h3⟩, h4⟩ := h2 i ⟨T, hT, h1⟩
      cases typeAt_unique hT hT'
      exact h4 h3
    rw [hmiss]
    constructor
    · intro h
      simp only at h
      split at h
      · cases h
      · split at h
        · rename_i e r1 he
          cases h
          unfold create at he
          split at he
          · rename_i x xs hx
            cases he
            exact ⟨rfl, ⟨key, rfl⟩, by rw [hx]; simp⟩
          · rcases compose_error he with (h | h | h | h) | h | h | h <;> cases h
        · split at h <;> cases h
    · rintro ⟨rfl, _, hne⟩
      simp only
      cases hl : lookupT r'.reg key with
      | some i => exact absurd (hreg i hl) hne
      | none =>
        simp only
        unfold create
        cases hm : missing r' key with
        | nil => exact absurd hm hne
        | cons x xs => rfl

/-! ## Two traits -/

theorem traits_one (hi : Inv r) {i : Nat} {T : PType} {a : String} (hT : TypeAt r i T) (ht : T.traits = [a]) :
    i ≠ 0 ∧ T.mro = [i, 0] := by
  obtain ⟨R, hR, _, hRt⟩ := hi.rootMro
  have hne : i ≠ 0 := by
    rintro rfl
    cases typeAt_unique hT hR
    rw [hRt] at ht
    cases ht
  obtain ⟨tl, htl⟩ := hi.head i T hT
  have hnd := hi.nodup i T hT
  have hroot := hi.root i T hT
  have hmem : ∀ j ∈ tl, j = 0 := by
    intro j hj
    have hjm : j ∈ T.mro := by rw [htl]; exact List.mem_cons_of_mem _ hj
    obtain ⟨J, hJ⟩ := typeAt_of_lt (hi.lt i T hT j hjm)
    have hsub := (hi.up i j T J hT hjm hJ).1
    rw [ht] at hsub
    have hs := sublist_of_sorted (hi.sorted j J hJ) (List.pairwise_singleton _ a) hsub
    rcases List.sublist_cons_iff.1 hs with h | ⟨l, h, h'⟩
    · have h : J.traits = [] := List.sublist_nil.1 h
      exact hi.same hJ hR (by rw [h, hRt])
    · have h' : l = [] := List.sublist_nil.1 h'
      subst h'
      have : j = i := hi.same hJ hT (by rw [h, ht])
      subst this
      rw [htl] at hnd
      exact absurd hj (List.nodup_cons.1 hnd).1
  refine ⟨hne, ?_⟩
  rw [htl] at hnd hroot ⊢
  have h0 : 0 ∈ tl := by
    rcases List.mem_cons.1 hroot with h | h
    · exact absurd h.symm hne
    · exact h
  cases tl with
  | nil => cases h0
  | cons x tl =>
    have hx := hmem x List.mem_cons_self
    subst hx
    cases tl with
    | nil => rfl
    | cons y tl =>
      have hy := hmem y (List.mem_cons_of_mem _ List.mem_cons_self)
      subst hy
      simp at hnd

theorem newType_pair (hi : Inv r) {i j : Nat} {T S : PType} {a b : String} (hT : TypeAt r i T) (hS : TypeAt r j S)
    (ht : T.traits = [a]) (hs : S.traits = [b]) (hab : a < b) (hn : lookupT r.reg [a, b] = none) :
    ∃ r', newType r { bases := [i, j] } = (.ok r.types.length, r') ∧ lookupT r'.reg [a, b] = some r.types.length := by
  obtain ⟨hi0, him⟩ := traits_one hi hT ht
  obtain ⟨hj0, hjm⟩ := traits_one hi hS hs
  have hij : i ≠ j := by
    rintro rfl
    cases typeAt_unique hT hS
    rw [ht] at hs
    cases hs
    exact absurd hab (String.lt_irrefl _)
  have hnt : newTraits r { bases := [i, j] } = [a, b] := by
    unfold newTraits
    simp only [Option.toList_none, List.nil_append, List.flatMap_cons, List.flatMap_nil, List.append_nil]
    rw [traitsT_eq hT, traitsT_eq hS, ht, hs]
    refine sorted_ext (norm_sorted _) ?_ (fun x => mem_norm)
    simpa using hab
  have hmerge : ClassMeta.merge (ClassMeta.total ([i, j].map (mroT r) ++ [[i, j]])) ([i, j].map (mroT r) ++ [[i, j]]) = some [i, j, 0] := by
    simp only [List.map_cons, List.map_nil, mroT_eq hT, mroT_eq hS, him, hjm, List.cons_append, List.nil_append]
    simp [ClassMeta.total, ClassMeta.merge, ClassMeta.pick, ClassMeta.goodHead, ClassMeta.takeOff, hij, hij.symm, hi0, hj0, hi0.symm, hj0.symm]
  have hlen : [i, j].any (fun b => decide (r.types.length ≤ b)) = false := by
    have h1 := typeAt_lt hT
    have h2 := typeAt_lt hS
    simp
    omega
  have hok : (newType r { bases := [i, j] }).1 = .ok r.types.length := by
    simp only [newType, hlen, hnt, hn, hmerge]
    rfl
  have hreg : (newType r { bases := [i, j] }).2.reg = r.reg ++ [([a, b], r.types.length)] := by
    simp only [newType, hlen, hnt, hn, hmerge]
    rfl
  refine ⟨(newType r { bases := [i, j] }).2, Prod.ext hok rfl, ?_⟩
  rw [hreg, lookupT_append, hn]
  simp [lookupT]

theorem sub_two {a b : String} {k : List String} (h : k.Sublist [a, b]) : k = [] ∨ k = [a] ∨ k = [b] ∨ k = [a, b] := by
  have := List.mem_sublists.2 h
  simp [List.sublists] at this
  tauto

theorem scan_two (hi : Inv r) {a b : String} (hab : a < b) (hn : lookupT r.reg [a, b] = none)
    (ha : ∃ i, lookupT r.reg [a] = some i) : ∀ {os : List (List String)} {last : Option (List String)}, Parts [a, b] os →
    (∀ k ∈ os, k ≠ [a, b]) → [b] ∈ os → scanOthers r [a, b] [a] os 1 none last = (some ([b], [a, b]), some [b])
  | [], _, _, _, h => by cases h
  | o :: os, last, hp, hne, hb => by
    have hp' : Parts [a, b] os := fun k hk => hp k (List.mem_cons_of_mem _ hk)
    have hne' : ∀ k ∈ os, k ≠ [a, b] := fun k hk => hne k (List.mem_cons_of_mem _ hk)
    obtain ⟨i, hia⟩ := ha
    have hnorm : ∀ o, o = [] ∨ o = [a] → norm ([a] ++ o) = [a] := by
      intro o ho
      refine sorted_ext (norm_sorted _) (List.pairwise_singleton _ _) (fun x => ?_)
      rw [mem_norm]
      rcases ho with rfl | rfl <;> simp
    have hskip : ∀ o, (o = [] ∨ o = [a]) → scanOthers r [a, b] [a] (o :: os) 1 none last = scanOthers r [a, b] [a] os 1 none (some o) := by
      intro o ho
      rw [scanOthers, hnorm o ho, hia]
      rfl
    have hne_ab : a ≠ b := by rintro rfl; exact absurd hab (String.lt_irrefl _)
    rcases sub_two (hp o List.mem_cons_self) with h | h | h | h
    · subst h
      rw [hskip _ (.inl rfl)]
      exact scan_two hi hab hn ⟨i, hia⟩ hp' hne' (by simpa using hb)
    · subst h
      rw [hskip _ (.inr rfl)]
      exact scan_two hi hab hn ⟨i, hia⟩ hp' hne' (by
        rcases List.mem_cons.1 hb with hb | hb
        · cases hb; exact absurd rfl hne_ab
        · exact hb)
    · subst h
      have hmix : norm ([a] ++ [b]) = [a, b] := by
        refine sorted_ext (norm_sorted _) (by simpa using hab) (fun x => ?_)
        rw [mem_norm]
        simp
      have hsf : shortfall [a, b] ([a] ++ [b]) = 0 := by simp [shortfall]
      rw [scanOthers, hmix, hn, hsf]
      simp
    · exact absurd h (hne o List.mem_cons_self)

theorem compose_done {wanted : List String} {i : Nat} {stock : List (List String)} (h : lookupT r.reg wanted = some i)
    (n : Nat) : compose wanted (n + 1) r stock = (.ok (), r) := by
  rw [compose, h]
  rfl

theorem create_two (hi : Inv r) {a b : String} (hab : a < b) (hn : lookupT r.reg [a, b] = none)
    (hm : missing r [a, b] = []) : ∃ i r', create r [a, b] = (.ok (), r') ∧ lookupT r'.reg [a, b] = some i := by
  have hne : a ≠ b := by rintro rfl; exact absurd hab (String.lt_irrefl _)
  have hw : [a, b].Pairwise (· < ·) := by simpa using hab
  have hfree : ∀ k ∈ stockTypes r [a, b], k ≠ [a, b] := by
    rintro k hk rfl
    obtain ⟨⟨i, T, hT, ht⟩, _⟩ := (mem_stock hi).1 hk
    rw [(hi.reg _ i).2 ⟨T, hT, ht⟩] at hn
    cases hn
  have hparts := stock_parts hi hw
  have havail : ∀ t ∈ [a, b], ∃ k ∈ stockTypes r [a, b], t ∈ k := by
    intro t ht
    refine Classical.byContradiction fun hc => ?_
    have : t ∈ missing r [a, b] := by
      unfold missing
      simp only [List.mem_filter, Bool.not_eq_true', List.any_eq_false, List.contains_iff_mem]
      exact ⟨ht, fun k hk htk => hc ⟨k, hk, htk⟩⟩
    rw [hm] at this
    cases this
  have ha : [a] ∈ stockTypes r [a, b] := by
    obtain ⟨k, hk, hak⟩ := havail a (by simp)
    rcases sub_two (hparts k hk) with rfl | rfl | rfl | rfl
    · cases hak
    · exact hk
    · exact absurd (List.mem_singleton.1 hak) hne
    · exact absurd rfl (hfree _ hk)
  have hb : [b] ∈ stockTypes r [a, b] := by
    obtain ⟨k, hk, hak⟩ := havail b (by simp)
    rcases sub_two (hparts k hk) with rfl | rfl | rfl | rfl
    · cases hak
    · exact absurd (List.mem_singleton.1 hak).symm hne
    · exact hk
    · exact absurd rfl (hfree _ hk)
  obtain ⟨⟨i, T, hT, ht⟩, _⟩ := (mem_stock hi).1 ha
  obtain ⟨⟨j, S, hS, hs⟩, _⟩ := (mem_stock hi).1 hb
  have hia := (hi.reg _ i).2 ⟨T, hT, ht⟩
  have hjb := (hi.reg _ j).2 ⟨S, hS, hs⟩
  obtain ⟨r1, hnew, hl1⟩ := newType_pair hi hT hS ht hs hab hn
  -- those to start with are all `[a]`
  have hstart : ∀ k ∈ startWith [a, b] (stockTypes r [a, b]), k = [a] := by
    intro k hk
    unfold startWith at hk
    obtain ⟨h1, h2⟩ := List.mem_filter.1 hk
    rcases sub_two (hparts k h1) with rfl | rfl | rfl | rfl
    · simp at h2
    · rfl
    · simp at h2; exact absurd h2.symm hne
    · exact absurd rfl (hfree _ h1)
  have hone : oneBase r [a, b] (stockTypes r [a, b]) [a] = (.ok (addKey (stockTypes r [a, b]) [a, b], true), r1) := by
    unfold oneBase
    have hscan := scan_two hi hab hn ⟨i, hia⟩ (os := sortK (stockTypes r [a, b])) (last := none)
      (fun k hk => hparts k (mem_sortK.1 hk)) (fun k hk => hfree k (mem_sortK.1 hk)) (mem_sortK.2 hb)
    have : [a, b].length - [a].length = 1 := rfl
    rw [this, hscan]
    simp only [hia, hjb, hnew]
  obtain ⟨hi1, hx1⟩ : Inv r1 ∧ CExt r r1 := by
    have := newType_keeps r i j hi
    rw [hnew] at this
    exact this
  -- the rest of the round finds nothing to do
  have hrest : ∀ (bs : List (List String)) (stock : List (List String)), (∀ k ∈ bs, k = [a]) → Parts [a, b] stock →
      eachBase [a, b] 1 r1 stock true bs = (.ok (stock, true), r1) := by
    intro bs
    induction bs with
    | nil => intro stock _ _; rfl
    | cons x bs ih =>
      intro stock hbs hst
      have hx := hbs x List.mem_cons_self
      subst hx
      have hnone : oneBase r1 [a, b] stock [a] = (.ok (stock, false), r1) := by
        have hscan : ∀ (os : List (List String)) (last : Option (List String)), Parts [a, b] os →
            (scanOthers r1 [a, b] [a] os 1 none last).1 = none := by
          intro os
          induction os with
          | nil => intro last _; rfl
          | cons o os iho =>
            intro last hp
            have hreg : (lookupT r1.reg (norm ([a] ++ o))).isSome = true := by
              have hia1 := lookup_keeps hi hi1 hx1 hia
              rcases sub_two (hp o List.mem_cons_self) with rfl | rfl | rfl | rfl
              · rw [show norm ([a] ++ []) = [a] from sorted_ext (norm_sorted _) (List.pairwise_singleton _ _) (fun x => by rw [mem_norm]; simp), hia1]; rfl
              · rw [show norm ([a] ++ [a]) = [a] from sorted_ext (norm_sorted _) (List.pairwise_singleton _ _) (fun x => by rw [mem_norm]; simp), hia1]; rfl
              · rw [show norm ([a] ++ [b]) = [a, b] from sorted_ext (norm_sorted _) hw (fun x => by rw [mem_norm]; simp), hl1]; rfl
              · rw [show norm ([a] ++ [a, b]) = [a, b] from sorted_ext (norm_sorted _) hw (fun x => by rw [mem_norm]; simp), hl1]; rfl
            rw [scanOthers, if_pos hreg]
            exact iho _ (fun k hk => hp k (List.mem_cons_of_mem _ hk))
        unfold oneBase
        have h1 := hscan (sortK stock) none (fun k hk => hst k (mem_sortK.1 hk))
        have : [a, b].length - [a].length = 1 := rfl
        rw [this]
        cases hq : scanOthers r1 [a, b] [a] (sortK stock) 1 none none with
        | mk q1 q2 =>
          rw [hq] at h1
          simp only at h1
          subst h1
          rfl
      rw [eachBase, if_neg (by simp), hnone]
      simp only [Bool.true_or]
      exact ih stock (fun k hk => hbs k (List.mem_cons_of_mem _ hk)) hst
  have hsw : [a] ∈ startWith [a, b] (stockTypes r [a, b]) := by
    unfold startWith
    exact List.mem_filter.2 ⟨ha, by simp⟩
  have hmax : ∀ (ks : List (List String)), ks ≠ [] → (∀ k ∈ ks, k = [a]) → maxLen ks = 1 := by
    intro ks
    induction ks with
    | nil => intro h; exact absurd rfl h
    | cons k ks ih =>
      intro _ hks
      have hk := hks k List.mem_cons_self
      subst hk
      simp only [maxLen, List.length_cons, List.length_nil]
      cases ks with
      | nil => rfl
      | cons k' ks => rw [ih (by simp) (fun x hx => hks x (List.mem_cons_of_mem _ hx))]; rfl
  refine ⟨r.types.length, r1, ?_, hl1⟩
  unfold create
  rw [hm]
  simp only
  have hpow : ∃ m, 2 ^ [a, b].length + 1 = m + 1 + 1 := ⟨3, rfl⟩
  obtain ⟨m, hm'⟩ := hpow
  rw [hm', compose, hn]
  simp only [Option.isSome_none, Bool.false_eq_true, if_false]
  cases hst : startWith [a, b] (stockTypes r [a, b]) with
  | nil => rw [hst] at hsw; cases hsw
  | cons k ks =>
    rw [hst] at hstart
    simp only
    rw [hmax (k :: ks) (by simp) hstart]
    have hsort : ∀ x ∈ sortK (k :: ks), x = [a] := fun x hx => hstart x (mem_sortK.1 hx)
    have hk1 : k ∈ sortK (k :: ks) := mem_sortK.2 List.mem_cons_self
    cases hso : sortK (k :: ks) with
    | nil => rw [hso] at hk1; cases hk1
    | cons x xs =>
      rw [hso] at hsort
      have hx := hsort x List.mem_cons_self
      subst hx
      have hstock : Parts [a, b] (addKey (stockTypes r [a, b]) [a, b]) := by
        intro k hk
        unfold addKey at hk
        split at hk
        · exact hparts k hk
        · rcases List.mem_append.1 hk with hk | hk
          · exact hparts k hk
          · rw [List.mem_singleton] at hk; subst hk; exact List.Sublist.refl _
      rw [eachBase, if_neg (by simp), hone]
      simp only [Bool.or_true]
      rw [hrest xs _ (fun y hy => hsort y (List.mem_cons_of_mem _ hy)) hstock]
      simp only [if_true]
      exact compose_done hl1 m

/-- Whoever wants at most two traits, of which none is missing, gets a property. -/
theorem C125_two_partial (hr : Registry r) (hk : KwOnce kw) (hg : WellGiven r 0 kw) (hm : ∀ t, ¬ MissingTrait r 0 kw t)
    (h2 : AtMostTwo r 0 kw) : ∃ pt r', call (n + 1) r 0 kw = (.ok pt, r') := by
  have hi := registry_inv hr
  have hc := root_lt hi
  rw [call_root hi]
  obtain ⟨key, hkey⟩ := (traitKey_wellGiven hi hc hk).2 hg
  obtain ⟨extra, sf, hK⟩ := traitKey_ok hkey
  have hw : ∀ t, t ∈ key ↔ WantedTrait r 0 kw t := key_wanted hi hc hk hK
  have hmiss : missing r key = [] := by
    rw [List.eq_nil_iff_forall_not_mem]
    intro t ht
    obtain ⟨h3, h4⟩ := (mem_missing hi).1 ht
    refine hm t ⟨(hw t).1 h3, fun i hti => ?_⟩
    obtain ⟨t', h5, h6⟩ := h4 i hti
    exact ⟨t', h5, fun h => h6 ((hw t').2 h)⟩
  unfold has
  rw [hkey]
  simp only
  cases hl : lookupT r.reg key with
  | some i => exact ⟨i, r, rfl⟩
  | none =>
    simp only
    have hlen : key.length ≤ 2 := by
      obtain ⟨a, b, hab⟩ := h2
      exact (List.subperm_of_subset (sorted_nodup hK.sorted) (l₂ := [a, b]) (fun t ht => by
        rcases hab t ((hw t).1 ht) with rfl | rfl <;> simp)).length_le
    match key, hlen, hl, hmiss, hK.sorted with
    | [], _, hl, _, _ =>
      obtain ⟨R, hR, _, hRt⟩ := hi.rootMro
      rw [(hi.reg [] 0).2 ⟨R, hR, hRt⟩] at hl
      cases hl
    | [a], _, hl, hmiss, _ =>
      exfalso
      have : a ∈ missing r [a] := by
        refine (mem_missing hi).2 ⟨by simp, ?_⟩
        rintro i ⟨T, hT, ht⟩
        refine Classical.byContradiction fun hn => ?_
        have hT1 : T.traits = [a] := by
          refine sorted_ext (hi.sorted i T hT) (List.pairwise_singleton _ _) (fun x => ?_)
          constructor
          · intro hx; exact Classical.byContradiction fun hx' => hn ⟨x, ⟨T, hT, hx⟩, hx'⟩
          · intro hx; rw [List.mem_singleton] at hx; subst hx; exact ht
        rw [(hi.reg [a] i).2 ⟨T, hT, hT1⟩] at hl
        cases hl
      rw [hmiss] at this
      cases this
    | [a, b], _, hl, hmiss, hs =>
      obtain ⟨i, r1, h3, h4⟩ := create_two hi (by simpa using hs) hl hmiss
      rw [h3]
      simp only [h4]
      exact ⟨i, r1, rfl⟩

/-! ## The exceptions -/

theorem newType_known {d : Decl} (hb : ∀ b ∈ d.bases, b < r.types.length) (h : newType r d = (.error e, r')) :
    e = .typeClash ∨ e = .mroConflict := by
  unfold newType at h
  split at h
  · rename_i hany
    simp only [List.any_eq_true, decide_eq_true_eq] at hany
    obtain ⟨b, h1, h2⟩ := hany
    have := hb b h1
    omega
  · split at h
    · cases h; exact .inl rfl
    · split at h
      · cases h; exact .inr rfl
      · cases h

/-- What may go wrong in a round, if the types are in order. -/
def RoundError (e : PErr) : Prop := e = .keyError ∨ e = .typeClash ∨ e = .mroConflict

theorem oneBase_known (hi : Inv r) {wanted base : List String} {stock : List (List String)} :
    (∀ e, (oneBase r wanted stock base).1 = .error e → RoundError e) ∧
    ∀ stock' m, (oneBase r wanted stock base).1 = .ok (stock', m) → ∀ k ∈ stock, k ∈ stock' := by
  unfold oneBase
  split
  · split
    · exact ⟨by rintro e ⟨⟩; exact .inl rfl, by rintro _ _ ⟨⟩⟩
    · rename_i bt hbt
      split
      · exact ⟨by rintro e ⟨⟩; exact .inl rfl, by rintro _ _ ⟨⟩⟩
      · rename_i ot hot
        obtain ⟨B, hB, _⟩ := (hi.reg _ bt).1 hbt
        obtain ⟨O, hO, _⟩ := (hi.reg _ ot).1 hot
        split
        · rename_i e1 r1 he
          refine ⟨?_, by rintro _ _ ⟨⟩⟩
          rintro e ⟨⟩
          refine .inr (newType_known ?_ he)
          intro b hb
          simp only [List.mem_cons, List.not_mem_nil, or_false] at hb
          rcases hb with rfl | rfl
          · exact typeAt_lt hB
          · exact typeAt_lt hO
        · refine ⟨by rintro e ⟨⟩, ?_⟩
          rintro stock' m h k hk
          simp only [Except.ok.injEq, Prod.mk.injEq] at h
          obtain ⟨rfl, _⟩ := h
          unfold addKey
          split
          · exact hk
          · exact List.mem_append_left _ hk
  · refine ⟨by rintro e ⟨⟩, ?_⟩
    rintro stock' m h k hk
    simp only [Except.ok.injEq, Prod.mk.injEq] at h
    obtain ⟨rfl, _⟩ := h
    exact hk

theorem eachBase_known {wanted : List String} {longest : Nat} : ∀ {bs : List (List String)} {r : Reg} {stock : List (List String)}
    {made : Bool}, Inv r → (∀ e, (eachBase wanted longest r stock made bs).1 = .error e → RoundError e) ∧
    ∀ stock' m, (eachBase wanted longest r stock made bs).1 = .ok (stock', m) → ∀ k ∈ stock, k ∈ stock'
  | [], _, _, _, _ => ⟨by rintro e ⟨⟩, by
      rintro stock' m h k hk
      simp only [eachBase, Except.ok.injEq, Prod.mk.injEq] at h
      obtain ⟨rfl, _⟩ := h
      exact hk⟩
  | b :: bs, r, stock, made, hi => by
    simp only [eachBase]
    split
    · exact eachBase_known hi
    · have h1 := oneBase_known hi (wanted := wanted) (stock := stock) (base := b)
      have h2 := (oneBase_keeps r wanted stock b hi).1
      split
      · rename_i e1 r1 he
        rw [he] at h1
        exact ⟨h1.1, by rintro _ _ ⟨⟩⟩
      · rename_i stock1 m1 r1 he
        rw [he] at h1 h2
        obtain ⟨h3, h4⟩ := eachBase_known (wanted := wanted) (longest := longest) (bs := bs) (stock := stock1) (made := made || m1) h2
        exact ⟨h3, fun stock' m h k hk => h4 stock' m h k (h1.2 stock1 m1 rfl k hk)⟩

theorem compose_known {wanted : List String} : ∀ {n : Nat} {r : Reg} {stock : List (List String)}, Inv r →
    (∃ k ∈ stock, k ≠ [] ∧ k.head? = wanted.head?) →
    ∀ e, (compose wanted n r stock).1 = .error e → RoundError e ∨ e = .diverge ∨ e = .mixinFailure
  | 0, _, _, _, _, e, h => by cases h; exact .inr (.inl rfl)
  | n + 1, r, stock, hi, hst, e, h => by
    simp only [compose] at h
    split at h
    · cases h
    · split at h
      · rename_i hnil
        obtain ⟨k, hk, h1, h2⟩ := hst
        have : k ∈ startWith wanted stock := by
          unfold startWith
          refine List.mem_filter.2 ⟨hk, ?_⟩
          simp [h1, h2]
        rw [hnil] at this
        cases this
      · rename_i k ks hstart
        have h1 := eachBase_known (wanted := wanted) (longest := maxLen (k :: ks)) (bs := sortK (k :: ks)) (stock := stock) (made := false) hi
        have h2 := (eachBase_keeps wanted (maxLen (k :: ks)) (sortK (k :: ks)) r stock false hi).1
        split at h
        · rename_i e1 r1 he
          cases h
          rw [he] at h1
          exact .inl (h1.1 _ rfl)
        · rename_i stock1 m1 r1 he
          rw [he] at h1 h2
          split at h
          · obtain ⟨x, hx, h3⟩ := hst
            exact compose_known h2 ⟨x, h1.2 _ _ rfl x hx, h3⟩ e h
          · cases h; exact .inr (.inr rfl)

/-- With arguments that mean something, `Property(...)` gives a property or raises one of these: there is always a type
to start with. -/
theorem C125_errors (hr : Registry r) (hk : KwOnce kw) (hg : WellGiven r 0 kw) (h : call (n + 1) r 0 kw = (.error e, r')) :
    e ∈ [PErr.mixinNotPossible, .mixinFailure, .typeClash, .keyError, .mroConflict] := by
  have hi := registry_inv hr
  have hc := root_lt hi
  rw [call_root hi] at h
  have hnd := has_noDiverge hi 0 (mixKw (defaultsT r 0) kw)
  rw [h] at hnd
  obtain ⟨key, hkey⟩ := (traitKey_wellGiven hi hc hk).2 hg
  obtain ⟨extra, sf, hK⟩ := traitKey_ok hkey
  unfold has at h
  rw [hkey] at h
  simp only at h
  split at h
  · cases h
  · rename_i hl
    split at h
    · rename_i e1 r1 he
      cases h
      unfold create at he
      split at he
      · cases he; simp
      · rename_i hm
        cases hkk : key with
        | nil =>
          obtain ⟨R, hR, _, hRt⟩ := hi.rootMro
          rw [hkk, (hi.reg [] 0).2 ⟨R, hR, hRt⟩] at hl
          cases hl
        | cons a rest =>
          subst hkk
          have hsorted := hK.sorted
          have hstart : ∃ k ∈ stockTypes r (a :: rest), k ≠ [] ∧ k.head? = (a :: rest).head? := by
            have hna : a ∉ missing r (a :: rest) := by rw [hm]; simp
            have : ∃ k ∈ stockTypes r (a :: rest), a ∈ k := by
              refine Classical.byContradiction fun hcon => hna ?_
              unfold missing
              simp only [List.mem_filter, Bool.not_eq_true', List.any_eq_false, List.contains_iff_mem]
              exact ⟨List.mem_cons_self, fun k hk hak => hcon ⟨k, hk, hak⟩⟩
            obtain ⟨k, hk, hak⟩ := this
            refine ⟨k, hk, (fun hnil => by rw [hnil] at hak; cases hak), ?_⟩
            have hs := stock_parts hi hsorted k hk
            rcases List.sublist_cons_iff.1 hs with h1 | ⟨l, rfl, _⟩
            · exact absurd (List.rel_of_pairwise_cons hsorted (h1.subset hak)) (String.lt_irrefl _)
            · rfl
          have := compose_known hi hstart e (by rw [he])
          rcases this with (h | h | h) | h | h <;> subst h <;> simp_all
    · rename_i u r1 he
      split at h
      · cases h
      · cases h; simp

/-! ## What goes wrong -/

/-- C125 in full: a property can be composed unless a trait is missing. -/
def C125_statement : Prop := ∀ (r : Reg) (n : Nat) (kw : List (String × Kw)), Registry r → KwOnce kw → WellGiven r 0 kw →
  (∀ t, ¬ MissingTrait r 0 kw t) → ∃ pt r', call (n + 1) r 0 kw = (.ok pt, r')

theorem exJsonLazy_fails : (call 1 stock 0 exJsonLazy).1 = .error .keyError := by decide +kernel

theorem wellGiven_of {kw : List (String × Kw)} {key : List String} (hr : Registry r) (hk : KwOnce kw)
    (h : traitKey r 0 (mixKw (defaultsT r 0) kw) = .ok key) : WellGiven r 0 kw :=
  (traitKey_wellGiven (registry_inv hr) (root_lt (registry_inv hr)) hk).1 ⟨key, h⟩

/-- C125 is false of the code: all the traits of `Property(json_name="x", lazy=True, default=None)` are there, but it
raises a `KeyError`. -/
theorem C125_violated : ¬ C125_statement := by
  intro hst
  have hk : KwOnce exJsonLazy := by decide
  have hkey : ∃ key, traitKey stock 0 (mixKw (defaultsT stock 0) exJsonLazy) = .ok key := by
    refine ⟨["json", "lazy", "safe", "v1"], by decide +kernel⟩
  obtain ⟨key, hkey⟩ := hkey
  have hg := wellGiven_of registry_stock hk hkey
  obtain ⟨pt, r', h⟩ := hst stock 0 exJsonLazy registry_stock hk hg (by
    intro t ht
    have := (C125_missing (n := 0) registry_stock hk).2 ⟨rfl, hg, t, ht⟩
    have h2 := exJsonLazy_fails
    rw [show (1 : Nat) = 0 + 1 from rfl, this] at h2
    cases h2)
  have h2 := exJsonLazy_fails
  rw [show (1 : Nat) = 0 + 1 from rfl, h] at h2
  cases h2

/-! ## The theorems apply -/

-- Property(traits=["ro", "json"])
def exRoJson : List (String × Kw) := [("traits", .list ["ro", "json"])]

-- Property(traits=["ro", "shiny"])
def exShiny : List (String × Kw) := [("traits", .list ["ro", "shiny"])]

/-- No type stands for the trait. -/
example : ∃ t, MissingTrait stock 0 exShiny t :=
  ((C125_missing (n := 0) registry_stock (by decide)).1
    (Prod.ext (by decide +kernel) rfl : call 1 stock 0 exShiny = (.error .mixinNotPossible, (call 1 stock 0 exShiny).2))).2.2

/-- Two traits. -/
example (n : Nat) : ∃ pt r', call (n + 1) stock 0 exRoJson = (.ok pt, r') := by
  have hkey : traitKey stock 0 (mixKw (defaultsT stock 0) exRoJson) = .ok ["json", "ro"] := by decide +kernel
  have hg := wellGiven_of registry_stock (by decide) hkey
  refine C125_two_partial registry_stock (by decide) hg ?_ ⟨"json", "ro", fun t ht => ?_⟩
  · intro t ht
    have h1 := (C125_missing (n := 0) registry_stock (by decide)).2 ⟨rfl, hg, t, ht⟩
    have h2 : (call 1 stock 0 exRoJson).1 ≠ .error .mixinNotPossible := by decide +kernel
    rw [show (1 : Nat) = 0 + 1 from rfl, h1] at h2
    exact h2 rfl
  · have := (wanted_of_key (key := ["json", "ro"]) registry_stock (by decide +kernel) (by decide) hkey t).1 ht
    simpa using this

/-- The exception of the counterexample is one of these. -/
example (hg : WellGiven stock 0 exJsonLazy) : PErr.keyError ∈ [PErr.mixinNotPossible, .mixinFailure, .typeClash, .keyError, .mroConflict] :=
  C125_errors (n := 0) registry_stock (by decide) hg (Prod.ext exJsonLazy_fails rfl : call 1 stock 0 exJsonLazy = (.error .keyError, (call 1 stock 0 exJsonLazy).2))

end Normalize.Traits
