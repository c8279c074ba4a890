import Verif.Lemmas.DiffFuzzy
import Verif.Props.DiffCount

/-!
# C42 for collections of records; C47: fuzzy matching pairs items one to one
-/

namespace Normalize.Diff
open Ident (IProp Schema readAttr)
open Spec (Real PlainSlots KeysOK Items Members labelAt pointsAt Lost Gained Leftover Shares similarity inBase inOther)
open Gen

variable {E F : Type} [DecidableEq E] [DecidableEq F] {H : Hooks E F} {o : Opts}

theorem lost_below {la : List (Id E × (Comp × Val))} {j : Id E} {d : DInfo} (h : Below [] [] d) :
    Lost la j d = false ∧ Gained la j d = false := by
  constructor
  · unfold Lost
    by_cases hk : d.kind = .removed ∨ d.kind = .modified
    · obtain ⟨k, q, r, hb⟩ := h.base hk
      simp [hb, pointsAt]
    · simp [hk]
  · unfold Gained
    by_cases hk : d.kind = .added ∨ d.kind = .modified
    · obtain ⟨k, q, r, hb⟩ := h.other hk
      simp [hb, pointsAt]
    · simp [hk]

/-- C42 for collections of records, without fuzzy matching: for every identity `j` the members of `base` with that
identity that are reported `REMOVED` are as many as there are more of them in `base` than in `other`; and so
for `ADDED`, with the sides exchanged. -/
theorem C42_records (ho : OrdOK H) (hp : PlainSlots H) (hd : o.duckType = false) (hf : o.compareFilter = none)
    (hr : o.recurse = false) (hz : o.fuzzyMatch = false) {x y : Val} {c m : String} (hk : RecordsPair H x y c m)
    (hx : KeysOK x) (hy : KeysOK y) {la lb : List (Id E × (Comp × Val))} (ha : Members H o x la)
    (hb : Members H o y lb) (n : Nat) (hend : (diff H o (n + 1) x y).exc = none) (j : Id E) :
    (diff H o (n + 1) x y).out.countP (Lost la j) =
      la.countP (fun e => decide (e.1 = j)) - lb.countP (fun e => decide (e.1 = j)) ∧
    (diff H o (n + 1) x y).out.countP (Gained lb j) =
      lb.countP (fun e => decide (e.1 = j)) - la.countP (fun e => decide (e.1 = j)) := by
  have hka := members_keys hx ha
  have hkb := members_keys hy hb
  unfold diff at hend ⊢
  rw [diff_records hp hd hf hk ha hb] at hend ⊢
  unfold compareMembers at hend ⊢
  simp only [hr, Bool.false_eq_true, if_false, Option.isNone_some, Bool.or_self] at hend ⊢
  obtain ⟨ps, D, hps, hD, hout⟩ := out_ids ho hend
  have hps' : ps = [] := by
    unfold pairsOf at hps
    simp only [hz, Bool.and_false, Bool.false_eq_true, if_false, Except.ok.injEq] at hps
    exact hps.symm
  subst hps'
  rw [hout]
  constructor
  · rw [List.countP_append, List.countP_append, countP_zero (l := D) (fun d hd => (lost_below (hD d hd)).1),
      countP_zero (l := List.map (fun e : Ent (Id E) => DInfo.mk .added [] ([] ++ [e.2])) _), List.countP_map,
      (ho _ _).countP_eq, ← countP_keys hka [] j (by simp)]
    · simp only [Nat.zero_add, Nat.add_zero, List.countP_nil]
      rfl
    · intro d hd
      obtain ⟨e, _, rfl⟩ := List.mem_map.1 hd
      simp [Lost]
  · rw [List.countP_append, List.countP_append, countP_zero (l := D) (fun d hd => (lost_below (hD d hd)).2),
      countP_zero (l := List.map (fun e : Ent (Id E) => DInfo.mk .removed ([] ++ [e.2]) []) _), List.countP_map,
      (ho _ _).countP_eq, ← countP_keys hkb [] j (by simp)]
    · simp only [Nat.zero_add, Nat.add_zero, List.countP_nil]
      rfl
    · intro d hd
      obtain ⟨e, _, rfl⟩ := List.mem_map.1 hd
      simp [Gained]

/-! ## C47 -/

theorem ents_nodup {J : Type} [DecidableEq J] (l : List (J × Comp)) (B : List (Ent J)) :
    (minus (number [] l) B).Nodup :=
  (List.Nodup.of_map _ (number_nodup l [])).filter _

theorem count_one {α β : Type} {l : List α} (g : α → DInfo) (key : α → β) (p : DInfo → Bool)
    (hn : (l.map key).Nodup) (k : β) (hg : ∀ e ∈ l, p (g e) = true ↔ key e = k) :
    ((∃ e ∈ l, key e = k) → (l.map g).countP p = 1) ∧ ((¬ ∃ e ∈ l, key e = k) → (l.map g).countP p = 0) := by
  classical
  have h1 : (l.map g).countP p = (l.map key).count k := by
    rw [List.countP_map, List.count, List.countP_map]
    apply List.countP_congr
    intro e he
    simp [hg e he]
  rw [h1]
  constructor
  · rintro ⟨e, he, rfl⟩
    exact List.count_eq_one_of_mem hn (List.mem_map_of_mem he)
  · intro h
    rw [List.count_eq_zero]
    intro hk
    obtain ⟨e, he, h'⟩ := List.mem_map.1 hk
    exact h ⟨e, he, h'⟩

theorem at_below {d : DInfo} (h : Below [] [] d) (k : Comp) :
    inBase .removed [k] d = false ∧ inOther .added [k] d = false := by
  constructor
  · unfold inBase
    by_cases hk : d.kind = .removed
    · obtain ⟨k', q, r, hb⟩ := h.base (.inl hk)
      simp [hb]
    · simp [hk]
  · unfold inOther
    by_cases hk : d.kind = .added
    · obtain ⟨k', q, r, hb⟩ := h.other (.inl hk)
      simp [hb]
    · simp [hk]

/-- C47: in a comparison of two collections of records by identity that runs to its end there is a set of pairs
`ps` of keys of members without counterpart such that no member is used twice, the members of a pair share
something, a possible pair that is not in `ps` lost a member to a pair at least as similar, and the members
reported `REMOVED` and `ADDED` are exactly those without counterpart that are in no pair, each once. -/
theorem C47_pairs (ho : OrdOK H) (hp : PlainSlots H) (hd : o.duckType = false) (hf : o.compareFilter = none)
    (hr : o.recurse = false) (hz : o.fuzzyMatch = true) {x y : Val} {c m : String} (hk : RecordsPair H x y c m)
    (hx : KeysOK x) (hy : KeysOK y) {la lb : List (Id E × (Comp × Val))} (ha : Members H o x la)
    (hb : Members H o y lb) (htup : ∀ e ∈ la ++ lb, e.1.isTup = true) (n : Nat)
    (hend : (diff H o (n + 1) x y).exc = none) :
    ∃ ps : List (Comp × Comp),
      (ps.map (·.1)).Nodup ∧ (ps.map (·.2)).Nodup ∧
      (∀ p ∈ ps, Leftover la lb p.1 ∧ Leftover lb la p.2 ∧
        ∃ i j, labelAt la p.1 = some i ∧ labelAt lb p.2 = some j ∧ Shares H i j) ∧
      (∀ ka kb i j, Leftover la lb ka → Leftover lb la kb → labelAt la ka = some i → labelAt lb kb = some j →
        Shares H i j → ∃ p ∈ ps, (p.1 = ka ∨ p.2 = kb) ∧ ∃ i' j', labelAt la p.1 = some i' ∧
          labelAt lb p.2 = some j' ∧ similarity H i j ≤ similarity H i' j') ∧
      (∀ k, (Leftover la lb k ∧ k ∉ ps.map (·.1) → (diff H o (n + 1) x y).out.countP (inBase .removed [k]) = 1) ∧
        (¬ (Leftover la lb k ∧ k ∉ ps.map (·.1)) → (diff H o (n + 1) x y).out.countP (inBase .removed [k]) = 0)) ∧
      (∀ k, (Leftover lb la k ∧ k ∉ ps.map (·.2) → (diff H o (n + 1) x y).out.countP (inOther .added [k]) = 1) ∧
        (¬ (Leftover lb la k ∧ k ∉ ps.map (·.2)) → (diff H o (n + 1) x y).out.countP (inOther .added [k]) = 0)) := by
  have hka := members_keys hx ha
  have hkb := members_keys hy hb
  unfold diff at hend ⊢
  rw [diff_records hp hd hf hk ha hb] at hend ⊢
  unfold compareMembers at hend ⊢
  simp only [hr, Bool.false_eq_true, if_false, Option.isNone_some, Bool.or_self] at hend ⊢
  obtain ⟨ps, D, hps, hD, hout⟩ := out_ids ho hend
  rw [hout]
  simp only [leftover_iff]
  have hAm : ∀ e ∈ minus (number [] (keyed la)) (number [] (keyed lb)), labelAt la e.2 = some e.1.1 :=
    fun e he => labelAt_mem hka (mem_minus.1 he).1
  have hBm : ∀ e ∈ minus (number [] (keyed lb)) (number [] (keyed la)), labelAt lb e.2 = some e.1.1 :=
    fun e he => labelAt_mem hkb (mem_minus.1 he).1
  have hnA := minus_keys_nodup hka (number [] (keyed lb))
  have hnB := minus_keys_nodup hkb (number [] (keyed la))
  have hfz : (ps.map (·.1)).Nodup ∧ (ps.map (·.2)).Nodup ∧
    (∀ p ∈ ps, p.1 ∈ minus (number [] (keyed la)) (number [] (keyed lb)) ∧
      p.2 ∈ minus (number [] (keyed lb)) (number [] (keyed la)) ∧ Shares H p.1.1.1 p.2.1.1) ∧
    ∀ a ∈ minus (number [] (keyed la)) (number [] (keyed lb)),
      ∀ b ∈ minus (number [] (keyed lb)) (number [] (keyed la)), Shares H a.1.1 b.1.1 →
        ∃ p ∈ ps, (p.1 = a ∨ p.2 = b) ∧ similarity H a.1.1 b.1.1 ≤ similarity H p.1.1.1 p.2.1.1 := by
    unfold pairsOf at hps
    cases hcv : compareValues (number [] (keyed la)) (number [] (keyed lb)) with
    | true =>
      simp only [hcv, hz, Bool.and_self, if_true] at hps
      exact fuzzy_facts ho (ents_nodup _ _) (ents_nodup _ _) hps
    | false =>
      have hA : number [] (keyed la) ++ number [] (keyed lb) = [] := by
        unfold compareValues at hcv
        split at hcv
        · rename_i e he
          have he := List.mem_of_head? he
          have : e.1.1.isTup = true := by
            rw [List.mem_append] at he
            rcases he with he | he
            · obtain ⟨u, hu, h1, _⟩ := mem_of_entry he
              rw [← h1]
              exact htup u (by simp [hu])
            · obtain ⟨u, hu, h1, _⟩ := mem_of_entry he
              rw [← h1]
              exact htup u (by simp [hu])
          rw [this] at hcv
          simp at hcv
        · rename_i he
          exact List.head?_eq_none_iff.1 he
      simp only [hcv, Bool.false_and, Bool.false_eq_true, if_false, Except.ok.injEq] at hps
      subst hps
      rw [List.append_eq_nil_iff] at hA
      rw [hA.1, hA.2]
      simp [minus]
  obtain ⟨n1, n2, hin, hbest⟩ := hfz
  have hkeyA : ∀ e ∈ minus (number [] (keyed la)) (number [] (keyed lb)),
      (e ∈ ps.map (·.1) ↔ e.2 ∈ (ps.map (fun p => (p.1.2, p.2.2))).map (·.1)) := by
    intro e he
    rw [List.map_map]
    constructor
    · intro h
      obtain ⟨p, hp, rfl⟩ := List.mem_map.1 h
      exact List.mem_map.2 ⟨p, hp, rfl⟩
    · intro h
      obtain ⟨p, hp, h⟩ := List.mem_map.1 h
      have : p.1 = e := List.inj_on_of_nodup_map hnA (hin p hp).1 he h
      exact List.mem_map.2 ⟨p, hp, this⟩
  have hkeyB : ∀ e ∈ minus (number [] (keyed lb)) (number [] (keyed la)),
      (e ∈ ps.map (·.2) ↔ e.2 ∈ (ps.map (fun p => (p.1.2, p.2.2))).map (·.2)) := by
    intro e he
    rw [List.map_map]
    constructor
    · intro h
      obtain ⟨p, hp, rfl⟩ := List.mem_map.1 h
      exact List.mem_map.2 ⟨p, hp, rfl⟩
    · intro h
      obtain ⟨p, hp, h⟩ := List.mem_map.1 h
      have : p.2 = e := List.inj_on_of_nodup_map hnB (hin p hp).2.1 he h
      exact List.mem_map.2 ⟨p, hp, this⟩
  refine ⟨ps.map (fun p => (p.1.2, p.2.2)), ?_, ?_, ?_, ?_, ?_, ?_⟩
  · have := List.Nodup.map_on (f := fun e : Ent (Id E) => e.2) (l := ps.map (·.1)) (fun a ha b hb h => by
      obtain ⟨p, hp, rfl⟩ := List.mem_map.1 ha
      obtain ⟨q, hq, rfl⟩ := List.mem_map.1 hb
      exact List.inj_on_of_nodup_map hnA (hin p hp).1 (hin q hq).1 h) n1
    rw [List.map_map] at this ⊢
    exact this
  · have := List.Nodup.map_on (f := fun e : Ent (Id E) => e.2) (l := ps.map (·.2)) (fun a ha b hb h => by
      obtain ⟨p, hp, rfl⟩ := List.mem_map.1 ha
      obtain ⟨q, hq, rfl⟩ := List.mem_map.1 hb
      exact List.inj_on_of_nodup_map hnB (hin p hp).2.1 (hin q hq).2.1 h) n2
    rw [List.map_map] at this ⊢
    exact this
  · intro q hq
    obtain ⟨p, hp, rfl⟩ := List.mem_map.1 hq
    obtain ⟨h1, h2, h3⟩ := hin p hp
    exact ⟨⟨p.1, h1, rfl⟩, ⟨p.2, h2, rfl⟩, p.1.1.1, p.2.1.1, hAm _ h1, hBm _ h2, h3⟩
  · rintro ka kb i j ⟨ea, h1, rfl⟩ ⟨eb, h2, rfl⟩ h3 h4 h5
    rw [hAm ea h1] at h3
    rw [hBm eb h2] at h4
    simp only [Option.some.injEq] at h3 h4
    subst h3 h4
    obtain ⟨p, hp, h6, h7⟩ := hbest ea h1 eb h2 h5
    refine ⟨_, List.mem_map_of_mem hp, ?_, p.1.1.1, p.2.1.1, hAm _ (hin p hp).1, hBm _ (hin p hp).2.1, h7⟩
    rcases h6 with h6 | h6
    · exact .inl (by rw [h6])
    · exact .inr (by rw [h6])
  · intro k
    rw [List.countP_append, List.countP_append, countP_zero (l := D) (fun d hd => (at_below (hD d hd) k).1),
      countP_zero (l := List.map (fun e : Ent (Id E) => DInfo.mk .added [] ([] ++ [e.2])) _)]
    · simp only [Nat.zero_add, Nat.add_zero]
      rw [((ho _ _).map _).countP_eq]
      have hc := count_one (l := (minus (number [] (keyed la)) (number [] (keyed lb))).filter
          (fun e => !decide (e ∈ ps.map (·.1)))) (fun e => DInfo.mk .removed ([] ++ [e.2]) []) (fun e => e.2)
          (inBase .removed [k]) (List.Nodup.sublist (List.Sublist.map _ List.filter_sublist) hnA) k
          (by intro e _; simp [inBase])
      have hiff : (∃ e ∈ (minus (number [] (keyed la)) (number [] (keyed lb))).filter
          (fun e => !decide (e ∈ ps.map (·.1))), e.2 = k) ↔
          ((∃ e ∈ minus (number [] (keyed la)) (number [] (keyed lb)), e.2 = k) ∧
            k ∉ (ps.map (fun p => (p.1.2, p.2.2))).map (·.1)) := by
        constructor
        · rintro ⟨e, he, rfl⟩
          obtain ⟨h1, h2⟩ := List.mem_filter.1 he
          refine ⟨⟨e, h1, rfl⟩, ?_⟩
          rw [← hkeyA e h1]
          simpa using h2
        · rintro ⟨⟨e, he, rfl⟩, h2⟩
          rw [← hkeyA e he] at h2
          exact ⟨e, List.mem_filter.2 ⟨he, by simpa using h2⟩, rfl⟩
      rw [← hiff]
      exact hc
    · intro d hd
      obtain ⟨e, _, rfl⟩ := List.mem_map.1 hd
      simp [inBase]
  · intro k
    rw [List.countP_append, List.countP_append, countP_zero (l := D) (fun d hd => (at_below (hD d hd) k).2),
      countP_zero (l := List.map (fun e : Ent (Id E) => DInfo.mk .removed ([] ++ [e.2]) []) _)]
    · simp only [Nat.zero_add]
      rw [((ho _ _).map _).countP_eq]
      have hc := count_one (l := (minus (number [] (keyed lb)) (number [] (keyed la))).filter
          (fun e => !decide (e ∈ ps.map (·.2)))) (fun e => DInfo.mk .added [] ([] ++ [e.2])) (fun e => e.2)
          (inOther .added [k]) (List.Nodup.sublist (List.Sublist.map _ List.filter_sublist) hnB) k
          (by intro e _; simp [inOther])
      have hiff : (∃ e ∈ (minus (number [] (keyed lb)) (number [] (keyed la))).filter
          (fun e => !decide (e ∈ ps.map (·.2))), e.2 = k) ↔
          ((∃ e ∈ minus (number [] (keyed lb)) (number [] (keyed la)), e.2 = k) ∧
            k ∉ (ps.map (fun p => (p.1.2, p.2.2))).map (·.2)) := by
        constructor
        · rintro ⟨e, he, rfl⟩
          obtain ⟨h1, h2⟩ := List.mem_filter.1 he
          refine ⟨⟨e, h1, rfl⟩, ?_⟩
          rw [← hkeyB e h1]
          simpa using h2
        · rintro ⟨⟨e, he, rfl⟩, h2⟩
          rw [← hkeyB e he] at h2
          exact ⟨e, List.mem_filter.2 ⟨he, by simpa using h2⟩, rfl⟩
      rw [← hiff]
      exact hc
    · intro d hd
      obtain ⟨e, _, rfl⟩ := List.mem_map.1 hd
      simp [inOther]

/-- C47 for the default methods of DiffOptions. -/
theorem C47_default (D : Setup) (hc : Spec.CompareFlat D) (ho : OrdOK D.hooks) (hd : o.duckType = false)
    (hf : o.compareFilter = none) (hr : o.recurse = false) (hz : o.fuzzyMatch = true) {x y : Val} {c m : String}
    (hk : RecordsPair D.hooks x y c m) (hx : Real D.S x) (hy : Real D.S y)
    {la lb : List (Id Ident.Key × (Comp × Val))} (ha : Members D.hooks o x la) (hb : Members D.hooks o y lb) (n : Nat)
    (hend : (diff D.hooks o (n + 1) x y).exc = none) :
    ∃ ps : List (Comp × Comp),
      (ps.map (·.1)).Nodup ∧ (ps.map (·.2)).Nodup ∧
      (∀ p ∈ ps, Leftover la lb p.1 ∧ Leftover lb la p.2 ∧
        ∃ i j, labelAt la p.1 = some i ∧ labelAt lb p.2 = some j ∧ Shares D.hooks i j) ∧
      (∀ k, (Leftover la lb k ∧ k ∉ ps.map (·.1) → (diff D.hooks o (n + 1) x y).out.countP (inBase .removed [k]) = 1) ∧
        (¬ (Leftover la lb k ∧ k ∉ ps.map (·.1)) →
          (diff D.hooks o (n + 1) x y).out.countP (inBase .removed [k]) = 0)) ∧
      (∀ k, (Leftover lb la k ∧ k ∉ ps.map (·.2) → (diff D.hooks o (n + 1) x y).out.countP (inOther .added [k]) = 1) ∧
        (¬ (Leftover lb la k ∧ k ∉ ps.map (·.2)) →
          (diff D.hooks o (n + 1) x y).out.countP (inOther .added [k]) = 0)) := by
  have htup : ∀ e ∈ la ++ lb, e.1.isTup = true := by
    obtain ⟨kd, hcoll⟩ := hk.kind
    intro e he
    rw [List.mem_append] at he
    rcases he with he | he
    · obtain ⟨xs, h2, h3, h4⟩ := members_mem ha he
      exact tupIds_default D x c m kd xs e.2.1 e.2.2 none none e.1 hx hk.left hcoll h2 h3 (.inl rfl) h4
    · obtain ⟨xs, h2, h3, h4⟩ := members_mem hb he
      exact tupIds_default D y c m kd xs e.2.1 e.2.2 none none e.1 hy hk.right hcoll h2 h3 (.inl rfl) h4
  obtain ⟨ps, h1, h2, h3, _, h5, h6⟩ := C47_pairs ho (plain_default D hc) hd hf hr hz hk
    (dictsOK_real hx [] x .here) (dictsOK_real hy [] y .here) ha hb htup n hend
  exact ⟨ps, h1, h2, h3, h5, h6⟩

/-- Python's `not v`: a falsy object without parts, or an empty list, dict or collection. -/
inductive FalsyValue (S : Schema) : Val → Prop
  | atom {a : Atom} : S.falsy a = true → FalsyValue S (.atom a)
  | list : FalsyValue S (.list [])
  | dict : FalsyValue S (.dict [])
  | lcoll {c : String} : FalsyValue S (.lcoll c [])
  | dcoll {c : String} : FalsyValue S (.dcoll c [])

/-- A part of an identity that is an unset or falsy value, or a tuple with such a part. -/
inductive FalsyWithin (S : Schema) : Ident.Key → Prop
  | unset : FalsyWithin S (.raw nothingVal)
  | value {v : Val} : FalsyValue S v → FalsyWithin S (.raw v)
  | tup {k : Ident.Key} {ks : List Ident.Key} : k ∈ ks → FalsyWithin S k → FalsyWithin S (.tup ks)

theorem falsyVal_iff {D : Setup} {v : Val} : falsyVal D v = true ↔ FalsyValue D.S v := by
  constructor
  · intro h
    cases v with
    | atom a => exact .atom h
    | list xs => cases xs <;> simp [falsyVal] at h; exact .list
    | dict xs => cases xs <;> simp [falsyVal] at h; exact .dict
    | rcd c s => simp [falsyVal] at h
    | lcoll c xs => cases xs <;> simp [falsyVal] at h; exact .lcoll
    | dcoll c xs => cases xs <;> simp [falsyVal] at h; exact .dcoll
  · intro h
    cases h <;> simp_all [falsyVal]

mutual
theorem nestedFalsy_iff {D : Setup} : (k : Ident.Key) → (nestedFalsy D k = true ↔ FalsyWithin D.S k)
  | .raw v => by
    simp only [nestedFalsy, Bool.or_eq_true, decide_eq_true_eq, falsyVal_iff]
    constructor
    · rintro (rfl | h)
      · exact .unset
      · exact .value h
    · intro h
      cases h with
      | unset => exact .inl rfl
      | value h => exact .inr h
  | .tup ks => by
    simp only [nestedFalsy, nestedFalsyL_iff ks]
    constructor
    · rintro ⟨k, hk, h⟩
      exact .tup hk h
    · intro h
      cases h with
      | tup hk h => exact ⟨_, hk, h⟩
theorem nestedFalsyL_iff {D : Setup} : (ks : List Ident.Key) →
    (nestedFalsyL D ks = true ↔ ∃ k ∈ ks, FalsyWithin D.S k)
  | [] => by simp [nestedFalsyL]
  | k :: ks => by simp [nestedFalsyL, nestedFalsy_iff k, nestedFalsyL_iff ks]
end

/-- C47: with the default methods, two identities have something in common iff they have the same part in the same
place, and no value in that part is unset or falsy. -/
theorem C47_shares (D : Setup) (xs ys : List Ident.Key) :
    Shares D.hooks (.tup xs) (.tup ys) ↔ ∃ (n : Nat) (k : Ident.Key), xs[n]? = some k ∧ ys[n]? = some k ∧
      ¬ FalsyWithin D.S k := by
  constructor
  · rintro ⟨_, _, n, k, h1, h2, h3, h4, h5⟩
    simp only [Id.tup.injEq] at h1 h2
    subst h1 h2
    refine ⟨n, k, h3, h4, fun h => ?_⟩
    have h5 : nestedFalsy D k = false := h5
    rw [(nestedFalsy_iff k).2 h] at h5
    simp at h5
  · rintro ⟨n, k, h3, h4, h5⟩
    refine ⟨xs, ys, n, k, rfl, rfl, h3, h4, ?_⟩
    show nestedFalsy D k = false
    cases h : nestedFalsy D k with
    | false => rfl
    | true => exact absurd ((nestedFalsy_iff k).1 h) h5

/-! ## Example -/

namespace Ex

/-- Two lists of words. -/
def wordsA : Val := .lcoll "Words" [word "red" "en", word "rot" "de", word "blu" "it"]
def wordsB : Val := .lcoll "Words" [word "red" "en", word "rouge" "de", word "green" "en"]

/-- The identity of a word, with its properties in order. -/
def wordId (t l : String) : Id Ident.Key := .tup [.raw (.str l), .raw (.str t)]

/-- Words with the same language share it, unless it is empty. -/
example : Shares (hooks {}) (wordId "rot" "de") (wordId "rouge" "de") ∧ ¬ Shares (hooks {}) (wordId "rot" "") (wordId "rouge" "") := by
  unfold wordId
  rw [C47_shares, C47_shares]
  constructor
  · refine ⟨0, _, rfl, rfl, fun h => ?_⟩
    cases h with
    | value h =>
      cases h with
      | atom h => revert h; decide +kernel
  · rintro ⟨n, k, h1, h2, h3⟩
    match n with
    | 0 =>
      simp only [List.getElem?_cons_zero, Option.some.injEq] at h1
      exact h3 (h1 ▸ .value (.atom (by decide +kernel)))
    | 1 =>
      simp only [List.getElem?_cons_succ, List.getElem?_cons_zero, Option.some.injEq] at h1 h2
      rw [← h1] at h2
      revert h2
      decide +kernel
    | n + 2 => simp at h1

/-- The hypotheses hold; `rot` is paired with `rouge` (they share `de`), `blu` is removed and `green` added. -/
example : RecordsPair (hooks {}) wordsA wordsB "Words" "Word" ∧ Real schema wordsA ∧
    Members (hooks {}) {} wordsA [(wordId "red" "en", .int 0, word "red" "en"),
      (wordId "rot" "de", .int 1, word "rot" "de"), (wordId "blu" "it", .int 2, word "blu" "it")] ∧
    (diff (hooks {}) {} 9 wordsA wordsB) =
      { out := [⟨.modified, [.int 1, .str "text"], [.int 1, .str "text"]⟩, ⟨.removed, [.int 2], []⟩,
          ⟨.added, [], [.int 2]⟩] } := by
  refine ⟨⟨rfl, rfl, _, rfl⟩, real_words ?_, ⟨_, rfl, ?_⟩, by decide +kernel⟩
  · intro w hw
    simp only [List.mem_cons, List.not_mem_nil, or_false] at hw
    rcases hw with rfl | rfl | rfl <;> exact ⟨_, _, rfl⟩
  · exact .keep (by decide +kernel) rfl (.keep (by decide +kernel) rfl (.keep (by decide +kernel) rfl .nil))

end Ex

end Normalize.Diff
