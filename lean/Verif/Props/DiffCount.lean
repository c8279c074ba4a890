import Verif.Lemmas.DiffExact
import Verif.Props.DiffEx
import Verif.Props.DiffAgree

/-!
# C42: the diff of two lists is exact, as multisets
-/

namespace Normalize.Diff
open Ident (IProp Schema readAttr)
open Spec (Real PlainSlots KeysOK Items Members labelAt pointsAt Lost Gained)
open Gen

section Keys
variable {J : Type} [DecidableEq J]

theorem modifiedKeys_left {R A : List (Ent J)} (hR : (R.map (·.2)).Nodup) :
    (modifiedKeys R A).Perm ((R.filter (fun e => decide (e.2 ∈ modifiedKeys R A))).map (·.2)) := by
  rw [List.perm_ext_iff_of_nodup]
  · intro k
    rw [List.mem_map]
    constructor
    · intro h
      obtain ⟨⟨e, he, rfl⟩, _⟩ := mem_modifiedKeys.1 h
      exact ⟨e, List.mem_filter.2 ⟨he, by simpa using h⟩, rfl⟩
    · rintro ⟨e, he, rfl⟩
      simpa using (List.mem_filter.1 he).2
  · exact (List.nodup_dedup _).filter _
  · exact List.Nodup.sublist (List.Sublist.map _ List.filter_sublist) hR

theorem modifiedKeys_right {R A : List (Ent J)} (hA : (A.map (·.2)).Nodup) :
    (modifiedKeys R A).Perm ((A.filter (fun e => decide (e.2 ∈ modifiedKeys R A))).map (·.2)) := by
  rw [List.perm_ext_iff_of_nodup]
  · intro k
    rw [List.mem_map]
    constructor
    · intro h
      obtain ⟨_, e, he, rfl⟩ := mem_modifiedKeys.1 h
      exact ⟨e, List.mem_filter.2 ⟨he, by simpa using h⟩, rfl⟩
    · rintro ⟨e, he, rfl⟩
      simpa using (List.mem_filter.1 he).2
  · exact (List.nodup_dedup _).filter _
  · exact List.Nodup.sublist (List.Sublist.map _ List.filter_sublist) hA

theorem labelAt_mem {la : List (J × (Comp × Val))} (hn : ((keyed la).map (·.2)).Nodup) {e : Ent J}
    (he : e ∈ number [] (keyed la)) : labelAt la e.2 = some e.1.1 := by
  have h1 : (e.1.1, e.2) ∈ keyed la := by
    have := List.mem_map_of_mem (f := fun e : Ent J => (e.1.1, e.2)) he
    rwa [number_pairs] at this
  obtain ⟨⟨j, k, v⟩, hf, hf'⟩ := List.mem_map.1 h1
  simp only [Prod.mk.injEq] at hf'
  obtain ⟨h2, h3⟩ := hf'
  rw [← h2, ← h3]
  clear he h1 h2 h3
  unfold labelAt
  induction la with
  | nil => simp at hf
  | cons g la ih =>
    simp only [keyed, List.map_cons, List.nodup_cons] at hn
    simp only [List.mem_cons] at hf
    rcases hf with rfl | hf
    · simp
    · have : g.2.1 ≠ k := by
        intro h
        apply hn.1
        rw [h]
        exact List.mem_map.2 ⟨(j, k), List.mem_map.2 ⟨_, hf, rfl⟩, rfl⟩
      rw [List.find?_cons_of_neg (by simpa using this)]
      exact ih hn.2 hf

end Keys

variable {E F : Type} [DecidableEq E] [DecidableEq F] {H : Hooks E F} {o : Opts}

theorem countP_zero {α : Type} {p : α → Bool} {l : List α} (h : ∀ x ∈ l, p x = false) : l.countP p = 0 := by
  rw [List.countP_eq_zero]
  intro x hx
  simp [h x hx]

theorem countP_keys {J : Type} [DecidableEq J] {la lb : List (J × (Comp × Val))}
    (hn : ((keyed la).map (·.2)).Nodup) (mk : List Comp) (j : J)
    (hp : mk.Perm (((minus (number [] (keyed la)) (number [] (keyed lb))).filter
      (fun e => decide (e.2 ∈ mk))).map (·.2))) :
    ((minus (number [] (keyed la)) (number [] (keyed lb))).filter (fun e => !decide (e.2 ∈ mk))).countP
        (fun e => decide (labelAt la e.2 = some j)) +
      mk.countP (fun k => decide (labelAt la k = some j)) =
      la.countP (fun e => decide (e.1 = j)) - lb.countP (fun e => decide (e.1 = j)) := by
  have hc : ∀ l : List (J × (Comp × Val)), l.countP (fun e => decide (e.1 = j)) = ((keyed l).map (·.1)).count j := by
    intro l
    rw [keyed_ids, List.count, List.countP_map]
    rfl
  rw [hc, hc, hp.countP_eq, List.countP_map]
  have h1 : (minus (number [] (keyed la)) (number [] (keyed lb))).countP
      (fun e => decide (labelAt la e.2 = some j)) =
      (minus (number [] (keyed la)) (number [] (keyed lb))).countP (fun e => decide (e.1.1 = j)) := by
    apply List.countP_congr
    intro e he
    rw [labelAt_mem hn (mem_minus.1 he).1]
    simp
  rw [← count_minus, ← h1]
  generalize minus (number [] (keyed la)) (number [] (keyed lb)) = R
  rw [List.countP_eq_countP_filter_add R _ (fun e => decide (e.2 ∈ mk)), Nat.add_comm]
  rfl

/-- C42 for simple lists and dicts (`list`, `dict`, and collections whose items are no records): the comparison
does not raise, and for every label `j` (the normalised form of an item) the items of `base` with that label
that are reported `REMOVED` or `MODIFIED` are as many as there are more of them in `base` than in `other`; and
so for `ADDED` or `MODIFIED`, with the sides exchanged. -/
theorem C42_simple (ho : OrdOK H) (hp : PlainSlots H) (hd : o.duckType = false) {x y : Val} (hk : SimplePair H x y)
    (hx : KeysOK x) (hy : KeysOK y) {la lb : List (Option F × (Comp × Val))} (ha : Items H o x la)
    (hb : Items H o y lb) (n : Nat) (j : Option F) :
    (diff H o (n + 1) x y).exc = none ∧
    (diff H o (n + 1) x y).out.countP (Lost la j) =
      la.countP (fun e => decide (e.1 = j)) - lb.countP (fun e => decide (e.1 = j)) ∧
    (diff H o (n + 1) x y).out.countP (Gained lb j) =
      lb.countP (fun e => decide (e.1 = j)) - la.countP (fun e => decide (e.1 = j)) := by
  have hka := items_keys hx ha
  have hkb := items_keys hy hb
  unfold diff
  rw [diff_simple hp hd hk ha hb]
  refine ⟨exc_bags _ _ _ _, ?_, ?_⟩
  · rw [out_bags, List.countP_append, List.countP_append, List.countP_append, List.countP_map, List.countP_map,
      List.countP_map, ((ho _ _).filter _).countP_eq, (ho _ (modifiedKeys _ _)).countP_eq,
      countP_zero (l := matchedOut _ _ _ _ _ _)]
    · rw [Nat.zero_add, countP_zero (l := (H.ord _ (minus (number [] (keyed lb)) (number [] (keyed la)))).filter _),
        Nat.add_zero]
      · rw [← countP_keys hka _ j (modifiedKeys_left (minus_keys_nodup hka _))]
        rfl
      · intro e _
        simp [Lost]
    · intro d hd
      rcases matchedOut_kind hd with h | h <;> simp [Lost, h]
  · rw [out_bags, List.countP_append, List.countP_append, List.countP_append, List.countP_map, List.countP_map,
      List.countP_map, countP_zero (l := matchedOut _ _ _ _ _ _)]
    · rw [Nat.zero_add, countP_zero (l := (H.ord _ (minus (number [] (keyed la)) (number [] (keyed lb)))).filter _),
        Nat.zero_add, ((ho _ _).filter _).countP_eq, (ho _ (modifiedKeys _ _)).countP_eq]
      · rw [← countP_keys hkb _ j (modifiedKeys_right (minus_keys_nodup hkb _))]
        rfl
      · intro e _
        simp [Lost, Gained]
    · intro d hd
      rcases matchedOut_kind hd with h | h <;> simp [Gained, h]

/-- C42: nothing is reported missing or new iff the labels agree as multisets. -/
theorem C42_simple_iff (ho : OrdOK H) (hp : PlainSlots H) (hd : o.duckType = false) {x y : Val}
    (hk : SimplePair H x y) {la lb : List (Option F × (Comp × Val))} (ha : Items H o x la)
    (hb : Items H o y lb) (n : Nat) :
    (∀ d ∈ (diff H o (n + 1) x y).out, d.kind = .noChange ∨ d.kind = .moved) ↔
      (la.map (·.1)).Perm (lb.map (·.1)) := by
  unfold diff
  rw [diff_simple hp hd hk ha hb, ← keyed_ids la, ← keyed_ids lb, ← minus_nil_perm, ← still_bags (o := o) ho (fa := []) (fb := [])]
  exact ⟨fun h => ⟨exc_bags _ _ _ _, h⟩, fun h => h.calm⟩

/-! ## Example -/

namespace Ex

/-- `["x", "y", "y"]` and `["x", "z", "y", "w"]` meet the hypotheses; one `y` is missing, `z` and
`w` are new. -/
example : SimplePair (hooks {}) (.list [.str "x", .str "y", .str "y"]) (.list [.str "x", .str "z", .str "y", .str "w"]) ∧
    Items (hooks {}) {} (.list [.str "x", .str "y", .str "y"])
      [(some (.str "x"), .int 0, .str "x"), (some (.str "y"), .int 1, .str "y"), (some (.str "y"), .int 2, .str "y")] ∧
    KeysOK (.list [.str "x", .str "y", .str "y"]) :=
  ⟨⟨rfl, by simp [clsOf]⟩,
    ⟨_, rfl, .keep (by decide +kernel) rfl (.keep (by decide +kernel) rfl (.keep (by decide +kernel) rfl .nil))⟩, trivial⟩

example : diff (hooks {}) {} 1 (.list [.str "x", .str "y", .str "y"])
    (.list [.str "x", .str "z", .str "y", .str "w"]) =
    { out := [⟨.removed, [.int 2], []⟩, ⟨.added, [], [.int 1]⟩, ⟨.added, [], [.int 3]⟩] } := by decide +kernel

end Ex

end Normalize.Diff
