import Verif.Props.DiffFuzzy

/-!
# C41: is the diff of two dicts exact?
-/

namespace Normalize.Diff
open Ident (IProp Schema readAttr)
open Spec (nth Real PlainSlots KeysOK Items Members labelAt inBase inOther)
open Gen

variable {E F : Type} [DecidableEq E] [DecidableEq F] {H : Hooks E F} {o : Opts}

/-- What an exact diff of two dicts (with labels `la` and `lb`) is: a key only in `base` is `REMOVED` once, a key
only in `other` is `ADDED` once, a key in both is `MODIFIED` once iff its values differ, and no other difference
is reported. -/
structure DictExact {ι : Type} [DecidableEq ι] (la lb : List (ι × (Comp × Val))) (out : List DInfo) : Prop where
  removed : ∀ k, out.countP (inBase .removed [k]) =
    if labelAt la k ≠ none ∧ labelAt lb k = none then 1 else 0
  added : ∀ k, out.countP (inOther .added [k]) =
    if labelAt lb k ≠ none ∧ labelAt la k = none then 1 else 0
  modified : ∀ k, out.countP (fun d => decide (d = ⟨.modified, [k], [k]⟩)) =
    if labelAt la k ≠ none ∧ labelAt lb k ≠ none ∧ labelAt la k ≠ labelAt lb k then 1 else 0
  only : ∀ d ∈ out, (d.kind = .noChange ∨ d.kind = .moved) ∨
    ∃ k, d = ⟨.removed, [k], []⟩ ∨ d = ⟨.added, [], [k]⟩ ∨ d = ⟨.modified, [k], [k]⟩

/-- C41 for plain dicts. -/
def C41_statement : Prop := ∀ (D : Setup) (o : Opts) (xs ys : List (Comp × Val))
    (la lb : List (Option Val × (Comp × Val))) (n : Nat), (∀ p, D.compareAs p = none) → OrdOK D.hooks →
    o.duckType = false → KeysOK (.dict xs) → KeysOK (.dict ys) → Items D.hooks o (.dict xs) la →
    Items D.hooks o (.dict ys) lb → DictExact la lb (diff D.hooks o (n + 1) (.dict xs) (.dict ys)).out

/-- C41 is false of the code: items are matched by value, whatever their keys.  `{"a": 1}` and `{"b": 1}` do not
differ. -/
theorem C41_violated : ¬ C41_statement := by
  intro h
  have h1 := h (Ex.setup {}) {} [(.str "a", .int 1)] [(.str "b", .int 1)]
    [(some (.int 1), .str "a", .int 1)] [(some (.int 1), .str "b", .int 1)] 0 (fun _ => rfl) (Ex.ordOK {}) rfl
    (by simp [KeysOK]) (by simp [KeysOK])
    ⟨_, rfl, .keep (by decide +kernel) rfl .nil⟩ ⟨_, rfl, .keep (by decide +kernel) rfl .nil⟩
  have h2 := h1.removed (.str "a")
  revert h2
  decide +kernel

section
variable {J : Type} [DecidableEq J]

theorem labelAt_none {la : List (J × (Comp × Val))} {k : Comp} :
    labelAt la k = none ↔ ∀ e ∈ la, e.2.1 ≠ k := by
  unfold labelAt
  rw [Option.map_eq_none_iff, List.find?_eq_none]
  simp

theorem labelAt_some {la : List (J × (Comp × Val))} {k : Comp} {j : J} (h : labelAt la k = some j) :
    ∃ v, (j, k, v) ∈ la := by
  unfold labelAt at h
  rw [Option.map_eq_some_iff] at h
  obtain ⟨e, he, rfl⟩ := h
  have h1 := List.find?_some he
  simp only [decide_eq_true_eq] at h1
  subst h1
  exact ⟨e.2.2, List.mem_of_find?_eq_some he⟩

/-- A label in both lists has one key. -/
def NoCrossing (la lb : List (J × (Comp × Val))) : Prop :=
  ∀ e ∈ la, ∀ f ∈ lb, e.1 = f.1 → e.2.1 = f.2.1

theorem nth_zero_of_mem {la : List (J × (Comp × Val))} {j : J} {u : Comp × Val} (h : (j, u) ∈ la) :
    ∃ w, nth la j 0 = some w := by
  cases hn : nth la j 0 with
  | some w => exact ⟨w, rfl⟩
  | none =>
    rw [nth_none] at hn
    have : 0 < (la.map (·.1)).count j := List.count_pos_iff.2 (List.mem_map.2 ⟨_, h, rfl⟩)
    omega

/-- The keys that are left over, if no value has moved to another key. -/
theorem leftKeys_iff {la lb : List (J × (Comp × Val))} (hna : ((keyed la).map (·.2)).Nodup)
    (hnb : ((keyed lb).map (·.2)).Nodup) (hc : NoCrossing la lb) (k : Comp) :
    (∃ e ∈ minus (number [] (keyed la)) (number [] (keyed lb)), e.2 = k) ↔
      labelAt la k ≠ none ∧ labelAt la k ≠ labelAt lb k := by
  constructor
  · rintro ⟨⟨⟨j, m⟩, k'⟩, he, rfl⟩
    have h1 := labelAt_mem hna (mem_minus.1 he).1
    simp only at h1 ⊢
    rw [h1]
    refine ⟨by simp, fun h => ?_⟩
    -- the label is at the same key on the other side, and nowhere else
    obtain ⟨w, hw⟩ := labelAt_some h.symm
    obtain ⟨v, hv⟩ := labelAt_some h1
    obtain ⟨hA, hB⟩ := mem_minus.1 he
    obtain ⟨u, hu, hu'⟩ := nth_keyed.1 hA
    have hm : m = 0 := by
      by_contra hm
      obtain ⟨u0, hu0⟩ := nth_zero_of_mem hv
      have hk0 : u0.1 = k' := hc _ (nth_mem hu0) _ hw rfl
      have e0 : ((j, 0), k') ∈ number [] (keyed la) := nth_keyed.2 ⟨u0, hu0, hk0⟩
      have hnk : ((number [] (keyed la)).map (·.2)).Nodup := by rw [number_keys]; exact hna
      have := List.inj_on_of_nodup_map hnk e0 hA rfl
      simp only [Prod.mk.injEq, true_and, and_true] at this
      exact hm this.symm
    subst hm
    obtain ⟨w0, hw0⟩ := nth_zero_of_mem hw
    exact hB (List.mem_map.2 ⟨((j, 0), w0.1), nth_keyed.2 ⟨w0, hw0, rfl⟩, rfl⟩)
  · rintro ⟨h1, h2⟩
    cases hj : labelAt la k with
    | none => exact absurd hj h1
    | some j =>
      obtain ⟨v, hv⟩ := labelAt_some hj
      obtain ⟨m, hm⟩ := nth_of_mem hv
      have hA : ((j, m), k) ∈ number [] (keyed la) := nth_keyed.2 ⟨_, hm, rfl⟩
      refine ⟨((j, m), k), mem_minus.2 ⟨hA, fun hB => ?_⟩, rfl⟩
      obtain ⟨f, hf, hf'⟩ := List.mem_map.1 hB
      obtain ⟨⟨j', m'⟩, k'⟩ := f
      simp only [Prod.mk.injEq] at hf'
      obtain ⟨rfl, rfl⟩ := hf'
      obtain ⟨w, hw, hw'⟩ := nth_keyed.1 hf
      have hkk : k = w.1 := hc _ hv _ (nth_mem hw) rfl
      apply h2
      rw [hj]
      have := labelAt_mem hnb hf
      simp only at this
      rw [hkk, hw', this]

end

theorem count_if {n : Nat} {p : Prop} [Decidable p] (h1 : p → n = 1) (h0 : ¬ p → n = 0) : n = if p then 1 else 0 := by
  by_cases h : p
  · simp [h, h1 h]
  · simp [h, h0 h]

/-- C41 (partial): simple dicts (and lists) are compared exactly if no value that is on both sides is at different
keys.  What is missing: values that move between keys (`C41_violated`). -/
theorem C41_partial (ho : OrdOK H) (hp : PlainSlots H) (hd : o.duckType = false) {x y : Val} (hk : SimplePair H x y)
    (hx : KeysOK x) (hy : KeysOK y) {la lb : List (Option F × (Comp × Val))} (ha : Items H o x la)
    (hb : Items H o y lb) (hc : NoCrossing la lb) (n : Nat) :
    (diff H o (n + 1) x y).exc = none ∧ DictExact la lb (diff H o (n + 1) x y).out := by
  have hka := items_keys hx ha
  have hkb := items_keys hy hb
  have hc' : NoCrossing lb la := fun e he f hf h => (hc f hf e he h.symm).symm
  have hA := leftKeys_iff hka hkb hc
  have hB := leftKeys_iff hkb hka hc'
  have hnA := minus_keys_nodup hka (number [] (keyed lb))
  have hnB := minus_keys_nodup hkb (number [] (keyed la))
  have hM : ∀ k, k ∈ modifiedKeys (minus (number [] (keyed la)) (number [] (keyed lb)))
      (minus (number [] (keyed lb)) (number [] (keyed la))) ↔
      labelAt la k ≠ none ∧ labelAt lb k ≠ none ∧ labelAt la k ≠ labelAt lb k := by
    intro k
    rw [mem_modifiedKeys, hA, hB]
    constructor
    · rintro ⟨⟨h1, h2⟩, h3, _⟩
      exact ⟨h1, h3, h2⟩
    · rintro ⟨h1, h3, h2⟩
      exact ⟨⟨h1, h2⟩, h3, fun h => h2 h.symm⟩
  unfold diff
  rw [diff_simple hp hd hk ha hb]
  refine ⟨exc_bags _ _ _ _, ?_⟩
  rw [out_bags]
  refine ⟨fun k => ?_, fun k => ?_, fun k => ?_, fun d hd => ?_⟩
  · rw [List.countP_append, List.countP_append, List.countP_append, countP_zero (l := matchedOut _ _ _ _ _ _),
      countP_zero (l := List.map (fun e : Ent (Option F) => DInfo.mk .added [] ([] ++ [e.2])) _),
      countP_zero (l := List.map (fun e : Comp => DInfo.mk .modified ([] ++ [e]) ([] ++ [e])) _)]
    · simp only [Nat.zero_add, Nat.add_zero]
      rw [(((ho _ _).filter _).map _).countP_eq]
      have hco := count_one (l := (minus (number [] (keyed la)) (number [] (keyed lb))).filter
          (fun e => !decide (e.2 ∈ modifiedKeys (minus (number [] (keyed la)) (number [] (keyed lb)))
            (minus (number [] (keyed lb)) (number [] (keyed la))))))
          (fun e => DInfo.mk .removed ([] ++ [e.2]) []) (fun e => e.2)
          (inBase .removed [k]) (List.Nodup.sublist (List.Sublist.map _ List.filter_sublist) hnA) k
          (by intro e _; simp [inBase])
      have hiff : (∃ e ∈ (minus (number [] (keyed la)) (number [] (keyed lb))).filter
          (fun e => !decide (e.2 ∈ modifiedKeys (minus (number [] (keyed la)) (number [] (keyed lb)))
            (minus (number [] (keyed lb)) (number [] (keyed la))))), e.2 = k) ↔
          labelAt la k ≠ none ∧ labelAt lb k = none := by
        constructor
        · rintro ⟨e, he, rfl⟩
          obtain ⟨h1, h2⟩ := List.mem_filter.1 he
          have h3 := (hA e.2).1 ⟨e, h1, rfl⟩
          refine ⟨h3.1, ?_⟩
          by_contra h4
          have := (hM e.2).2 ⟨h3.1, h4, h3.2⟩
          simp [this] at h2
        · rintro ⟨h1, h2⟩
          obtain ⟨e, he, rfl⟩ := (hA k).2 ⟨h1, by rw [h2]; exact h1⟩
          refine ⟨e, List.mem_filter.2 ⟨he, ?_⟩, rfl⟩
          have : e.2 ∉ modifiedKeys (minus (number [] (keyed la)) (number [] (keyed lb)))
            (minus (number [] (keyed lb)) (number [] (keyed la))) := fun h => ((hM e.2).1 h).2.1 h2
          simpa using this
      rw [hiff] at hco
      exact count_if hco.1 hco.2
    · intro d hd
      obtain ⟨e, _, rfl⟩ := List.mem_map.1 hd
      simp [inBase]
    · intro d hd
      obtain ⟨e, _, rfl⟩ := List.mem_map.1 hd
      simp [inBase]
    · intro d hd
      rcases matchedOut_kind hd with h | h <;> simp [inBase, h]
  · rw [List.countP_append, List.countP_append, List.countP_append, countP_zero (l := matchedOut _ _ _ _ _ _),
      countP_zero (l := List.map (fun e : Ent (Option F) => DInfo.mk .removed ([] ++ [e.2]) []) _),
      countP_zero (l := List.map (fun e : Comp => DInfo.mk .modified ([] ++ [e]) ([] ++ [e])) _)]
    · simp only [Nat.zero_add, Nat.add_zero]
      rw [(((ho _ _).filter _).map _).countP_eq]
      have hco := count_one (l := (minus (number [] (keyed lb)) (number [] (keyed la))).filter
          (fun e => !decide (e.2 ∈ modifiedKeys (minus (number [] (keyed la)) (number [] (keyed lb)))
            (minus (number [] (keyed lb)) (number [] (keyed la))))))
          (fun e => DInfo.mk .added [] ([] ++ [e.2])) (fun e => e.2)
          (inOther .added [k]) (List.Nodup.sublist (List.Sublist.map _ List.filter_sublist) hnB) k
          (by intro e _; simp [inOther])
      have hiff : (∃ e ∈ (minus (number [] (keyed lb)) (number [] (keyed la))).filter
          (fun e => !decide (e.2 ∈ modifiedKeys (minus (number [] (keyed la)) (number [] (keyed lb)))
            (minus (number [] (keyed lb)) (number [] (keyed la))))), e.2 = k) ↔
          labelAt lb k ≠ none ∧ labelAt la k = none := by
        constructor
        · rintro ⟨e, he, rfl⟩
          obtain ⟨h1, h2⟩ := List.mem_filter.1 he
          have h3 := (hB e.2).1 ⟨e, h1, rfl⟩
          refine ⟨h3.1, ?_⟩
          by_contra h4
          have := (hM e.2).2 ⟨h4, h3.1, fun h => h3.2 h.symm⟩
          simp [this] at h2
        · rintro ⟨h1, h2⟩
          obtain ⟨e, he, rfl⟩ := (hB k).2 ⟨h1, by rw [h2]; exact h1⟩
          refine ⟨e, List.mem_filter.2 ⟨he, ?_⟩, rfl⟩
          have : e.2 ∉ modifiedKeys (minus (number [] (keyed la)) (number [] (keyed lb)))
            (minus (number [] (keyed lb)) (number [] (keyed la))) := fun h => ((hM e.2).1 h).1 h2
          simpa using this
      rw [hiff] at hco
      exact count_if hco.1 hco.2
    · intro d hd
      obtain ⟨e, _, rfl⟩ := List.mem_map.1 hd
      simp [inOther]
    · intro d hd
      obtain ⟨e, _, rfl⟩ := List.mem_map.1 hd
      simp [inOther]
    · intro d hd
      rcases matchedOut_kind hd with h | h <;> simp [inOther, h]
  · rw [List.countP_append, List.countP_append, List.countP_append, countP_zero (l := matchedOut _ _ _ _ _ _),
      countP_zero (l := List.map (fun e : Ent (Option F) => DInfo.mk .removed ([] ++ [e.2]) []) _),
      countP_zero (l := List.map (fun e : Ent (Option F) => DInfo.mk .added [] ([] ++ [e.2])) _)]
    · simp only [Nat.zero_add]
      rw [((ho _ _).map _).countP_eq]
      have hco := count_one (l := modifiedKeys (minus (number [] (keyed la)) (number [] (keyed lb)))
            (minus (number [] (keyed lb)) (number [] (keyed la))))
          (fun e => DInfo.mk .modified ([] ++ [e]) ([] ++ [e])) (fun e => e)
          (fun d => decide (d = ⟨.modified, [k], [k]⟩)) (by rw [List.map_id']; exact (List.nodup_dedup _).filter _) k
          (by intro e _; simp)
      simp only [exists_eq_right, hM] at hco
      exact count_if hco.1 hco.2
    · intro d hd
      obtain ⟨e, _, rfl⟩ := List.mem_map.1 hd
      simp
    · intro d hd
      obtain ⟨e, _, rfl⟩ := List.mem_map.1 hd
      simp
    · intro d hd
      have h : d ≠ ⟨.modified, [k], [k]⟩ := by
        rintro rfl
        rcases matchedOut_kind hd with h | h <;> simp at h
      simp [h]
  · rw [List.mem_append, List.mem_append, List.mem_append] at hd
    rcases hd with ((hd | hd) | hd) | hd
    · exact .inl (matchedOut_kind hd)
    · obtain ⟨e, _, rfl⟩ := List.mem_map.1 hd
      exact .inr ⟨e.2, .inl rfl⟩
    · obtain ⟨e, _, rfl⟩ := List.mem_map.1 hd
      exact .inr ⟨e.2, .inr (.inl rfl)⟩
    · obtain ⟨e, _, rfl⟩ := List.mem_map.1 hd
      exact .inr ⟨e, .inr (.inr rfl)⟩

theorem flatMap_key {α β : Type} {lb : List (β × (Comp × Val))} (hn : ((keyed lb).map (·.2)).Nodup)
    (g : β × (Comp × Val) → List α) {f : β × (Comp × Val)} (hf : f ∈ lb) :
    lb.flatMap (fun f' => if f.2.1 = f'.2.1 then g f' else []) = g f := by
  induction lb with
  | nil => simp at hf
  | cons h lb ih =>
    simp only [keyed, List.map_cons, List.nodup_cons] at hn
    rw [List.flatMap_cons]
    rw [List.mem_cons] at hf
    rcases hf with rfl | hf
    · have : lb.flatMap (fun f' => if f.2.1 = f'.2.1 then g f' else []) = [] := by
        rw [List.flatMap_eq_nil_iff]
        intro f' hf'
        rw [if_neg]
        intro e
        apply hn.1
        rw [e]
        exact List.mem_map.2 ⟨(f'.1, f'.2.1), List.mem_map.2 ⟨f', hf', rfl⟩, rfl⟩
      rw [this]
      simp
    · have : f.2.1 ≠ h.2.1 := by
        intro e
        apply hn.1
        rw [← e]
        exact List.mem_map.2 ⟨(f.1, f.2.1), List.mem_map.2 ⟨f, hf, rfl⟩, rfl⟩
      rw [if_neg this, ih hn.2 hf]
      simp

theorem flatMap_filter' {α β : Type} (p : α → Bool) (g : α → List β) (l : List α) :
    (l.filter p).flatMap g = l.flatMap (fun x => if p x = true then g x else []) := by
  induction l with
  | nil => rfl
  | cons x l ih => cases h : p x <;> simp [h, ih]

theorem mem_keys_iff {J : Type} [DecidableEq J] {la : List (J × (Comp × Val))} {k : Comp} :
    k ∈ (number [] (keyed la)).map (·.2) ↔ labelAt la k ≠ none := by
  rw [number_keys, keyed_keys, Ne, labelAt_none]
  simp only [List.map_map, List.mem_map, Function.comp_def]
  constructor
  · rintro ⟨e, he, rfl⟩ h
    exact h e he rfl
  · intro h
    by_contra h'
    exact h (fun e he hk => h' ⟨e, he, hk⟩)

/-- C41 with `recurse=True`, for collections of records: members are matched by key.  A key only in `base` is
`REMOVED` once, a key only in `other` is `ADDED` once, a key in both contributes exactly the differences of its
members, and nothing else is reported. -/
theorem C41_recurse (ho : OrdOK H) (hp : PlainSlots H) (hd : o.duckType = false) (hf : o.compareFilter = none)
    (hr : o.recurse = true) {x y : Val} {c m : String} (hk : RecordsPair H x y c m)
    (hx : Real H.S x) (hy : Real H.S y) {la lb : List (Id E × (Comp × Val))} (ha : Members H o x la)
    (hb : Members H o y lb) (n : Nat) (hend : (diff H o (n + 1) x y).exc = none) :
    (diff H o (n + 1) x y).out.Perm
      ((la.flatMap (fun e => lb.flatMap (fun f => if e.2.1 = f.2.1 then
          (diffIter H o n (some e.2.2) (some f.2.2) [e.2.1] [e.2.1]).out else []))) ++
        (la.filter (fun e => decide (labelAt lb e.2.1 = none))).map (fun e => ⟨.removed, [e.2.1], []⟩) ++
        (lb.filter (fun e => decide (labelAt la e.2.1 = none))).map (fun e => ⟨.added, [], [e.2.1]⟩)) := by
  have hka := members_keys (dictsOK_real hx [] x .here) ha
  have hkb := members_keys (dictsOK_real hy [] y .here) hb
  unfold diff at hend ⊢
  rw [diff_records hp hd hf hk ha hb] at hend ⊢
  unfold compareMembers at hend ⊢
  simp only [hr, if_true] at hend ⊢
  unfold compareKeys at hend ⊢
  obtain ⟨h1, h3⟩ := exc_append.1 hend
  obtain ⟨h1, h2⟩ := exc_append.1 h1
  rw [out_append (exc_append.2 ⟨h1, h2⟩), out_append h1, out_yields', out_yields', out_forEach (exc_forEach.1 h1)]
  have hdA : ((number [] (keyed la)).map (·.2)).dedup = la.map (fun e => e.2.1) := by
    rw [List.dedup_eq_self.2 (by rw [number_keys]; exact hka), number_keys, keyed_keys, List.map_map]
    rfl
  have hdB : ((number [] (keyed lb)).map (·.2)).dedup = lb.map (fun e => e.2.1) := by
    rw [List.dedup_eq_self.2 (by rw [number_keys]; exact hkb), number_keys, keyed_keys, List.map_map]
    rfl
  rw [hdA, hdB]
  refine List.Perm.append (List.Perm.append ?_ ?_) ?_
  · refine ((ho _ _).flatMap_right _).trans (.of_eq ?_)
    rw [List.filter_map, List.flatMap_map, flatMap_filter']
    apply List.flatMap_congr
    intro e he
    obtain ⟨xs, h4, h5, _⟩ := members_mem ha he
    have hi : itemAt (some x) e.2.1 = .ok e.2.2 := itemAt_member hx h4 h5
    by_cases hm : e.2.1 ∈ (number [] (keyed lb)).map (·.2)
    · simp only [Function.comp_apply, hm, decide_true, if_true]
      cases hj : labelAt lb e.2.1 with
      | none => exact absurd hj (mem_keys_iff.1 hm)
      | some j =>
        obtain ⟨w, hw⟩ := labelAt_some hj
        obtain ⟨ys, h6, h7, _⟩ := members_mem hb hw
        have hi' : itemAt (some y) e.2.1 = .ok w := itemAt_member hy h6 h7
        simp only [Option.isSome_some, Bool.and_self, when_true, hi, hi', bindE_ok]
        exact (flatMap_key hkb (fun f => (diffIter H o n (some e.2.2) (some f.2.2) [e.2.1] [e.2.1]).out) hw).symm
    · simp only [Function.comp_apply, hm, decide_false, Bool.false_eq_true, if_false]
      symm
      rw [List.flatMap_eq_nil_iff]
      intro f hf
      rw [if_neg]
      intro hef
      rw [mem_keys_iff, not_not, labelAt_none] at hm
      exact hm f hf hef.symm
  · refine ((ho _ _).map _).trans (.of_eq ?_)
    rw [List.filter_map, List.map_map]
    congr 1
    apply List.filter_congr
    intro e _
    simp only [Function.comp_apply, mem_keys_iff]
    simp
  · refine ((ho _ _).map _).trans (.of_eq ?_)
    rw [List.filter_map, List.map_map]
    congr 1
    apply List.filter_congr
    intro e _
    simp only [Function.comp_apply, mem_keys_iff]
    simp

/-! ## Examples -/

namespace Ex

/-- `{"a": 1, "b": 2}` and `{"b": 3, "c": 4}` have no value at two keys. -/
example : SimplePair (hooks {}) (.dict [(.str "a", .int 1), (.str "b", .int 2)])
      (.dict [(.str "b", .int 3), (.str "c", .int 4)]) ∧
    Items (hooks {}) {} (.dict [(.str "a", .int 1), (.str "b", .int 2)])
      [(some (.int 1), .str "a", .int 1), (some (.int 2), .str "b", .int 2)] ∧
    Items (hooks {}) {} (.dict [(.str "b", .int 3), (.str "c", .int 4)])
      [(some (.int 3), .str "b", .int 3), (some (.int 4), .str "c", .int 4)] ∧
    NoCrossing [(some (Val.int 1), Comp.str "a", Val.int 1), (some (.int 2), .str "b", .int 2)]
      [(some (Val.int 3), Comp.str "b", Val.int 3), (some (.int 4), .str "c", .int 4)] :=
  ⟨⟨rfl, by simp [clsOf]⟩, ⟨_, rfl, .keep (by decide +kernel) rfl (.keep (by decide +kernel) rfl .nil)⟩,
    ⟨_, rfl, .keep (by decide +kernel) rfl (.keep (by decide +kernel) rfl .nil)⟩, by simp [NoCrossing, Val.int]⟩

example : diff (hooks {}) {} 1 (.dict [(.str "a", .int 1), (.str "b", .int 2)])
      (.dict [(.str "b", .int 3), (.str "c", .int 4)]) =
    { out := [⟨.removed, [.str "a"], []⟩, ⟨.added, [], [.str "c"]⟩, ⟨.modified, [.str "b"], [.str "b"]⟩] } := by
  decide +kernel

/-- `wordsA` and `wordsB` compared by index. -/
example : diff (hooks {}) { recurse := true } 9 wordsA wordsB =
    { out := [⟨.modified, [.int 1, .str "text"], [.int 1, .str "text"]⟩,
        ⟨.modified, [.int 2, .str "lang"], [.int 2, .str "lang"]⟩,
        ⟨.modified, [.int 2, .str "text"], [.int 2, .str "text"]⟩] } := by decide +kernel

end Ex

end Normalize.Diff
