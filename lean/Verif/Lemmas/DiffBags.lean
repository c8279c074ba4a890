import Verif.Lemmas.DiffPoints

/-!
# The members two collections are compared by
-/

namespace Normalize.Diff
open Ident (IProp ICls Ty ItemTy CollKind Schema readAttr)
open Spec (Labels Items Members nth)
open Gen

theorem labels_of_mapE {α ι : Type} {f : α → Except Exc ι} {g : α → Comp} (keep : ι → Bool) :
    ∀ {xs : List α} {ys : List (ι × Comp)}, mapE (fun a => (f a).map (fun i => (i, g a))) xs = .ok ys →
      ∃ la, Labels f keep xs la ∧ ys.filter (fun y => keep y.1) = la.map (fun e => (e.1, g e.2))
  | [], ys, h => by
    simp [mapE] at h
    subst h
    exact ⟨[], .nil, rfl⟩
  | a :: xs, ys, h => by
    simp only [mapE] at h
    cases hf : f a with
    | error e => simp [hf, Except.map] at h
    | ok i =>
      simp only [hf, Except.map] at h
      split at h
      · simp at h
      · rename_i zs hzs
        simp at h
        subst h
        obtain ⟨la, h1, h2⟩ := labels_of_mapE keep hzs
        cases hk : keep i with
        | true => exact ⟨(i, a) :: la, .keep hf hk h1, by simp [hk, h2]⟩
        | false => exact ⟨la, .skip hf hk h1, by simp [hk, h2]⟩

theorem labels_unique {α ι : Type} {f : α → Except Exc ι} {keep : ι → Bool} {xs : List α} {la : List (ι × α)}
    (h : Labels f keep xs la) : ∀ {lb}, Labels f keep xs lb → la = lb := by
  induction h with
  | nil => intro lb hb; cases hb; rfl
  | keep hf hk _ ih =>
    intro lb hb
    cases hb with
    | keep hf' hk' hb => rw [hf] at hf'; simp at hf'; subst hf'; rw [ih hb]
    | skip hf' hk' hb => rw [hf] at hf'; simp at hf'; subst hf'; rw [hk] at hk'; simp at hk'
  | skip hf hk _ ih =>
    intro lb hb
    cases hb with
    | keep hf' hk' hb => rw [hf] at hf'; simp at hf'; subst hf'; rw [hk] at hk'; simp at hk'
    | skip hf' hk' hb => exact ih hb

theorem labels_mem {α ι : Type} {f : α → Except Exc ι} {keep : ι → Bool} {xs : List α} {la : List (ι × α)}
    (h : Labels f keep xs la) {e : ι × α} (he : e ∈ la) : e.2 ∈ xs ∧ f e.2 = .ok e.1 := by
  induction h with
  | nil => simp at he
  | keep hf hk _ ih =>
    simp only [List.mem_cons] at he
    rcases he with rfl | he
    · exact ⟨by simp, hf⟩
    · exact ⟨List.mem_cons_of_mem _ (ih he).1, (ih he).2⟩
  | skip hf hk _ ih => exact ⟨List.mem_cons_of_mem _ (ih he).1, (ih he).2⟩

theorem labels_sublist {α ι : Type} {f : α → Except Exc ι} {keep : ι → Bool} {xs : List α} {la : List (ι × α)}
    (h : Labels f keep xs la) : (la.map (·.2)).Sublist xs := by
  induction h with
  | nil => simp
  | keep hf hk _ ih => simpa using ih
  | skip hf hk _ ih => exact .cons _ ih

/-- The labels and the keys. -/
def keyed {ι : Type} (la : List (ι × (Comp × Val))) : List (ι × Comp) := la.map (fun e => (e.1, e.2.1))

variable {E F : Type} [DecidableEq E] [DecidableEq F] {H : Hooks E F} {o : Opts}

theorem simpleBag_items (hd : o.duckType = false) {a : Option Val} {x : Val} {A : List (Ent (Option F))}
    (h : simpleBag H o a (some x) = .ok A) : ∃ la, Items H o x la ∧ A = number [] (keyed la) := by
  unfold simpleBag at h
  simp only [hd, Bool.false_eq_true, if_false] at h
  split at h
  · simp at h
  · rename_i xs hxs
    split at h
    · simp at h
    · rename_i ys hys
      simp at h
      subst h
      obtain ⟨la, h1, h2⟩ := labels_of_mapE (f := fun kv : Comp × Val => H.itemId (some x) kv.2)
        (g := fun kv => kv.1) (fun i => i.isSome || !o.ignoreEmptySlots) hys
      exact ⟨la, ⟨xs, hxs, h1⟩, by rw [h2]; rfl⟩

theorem simpleBag_none {a : Option Val} : simpleBag H o a none = .ok [] := by
  simp [simpleBag, tuplesOf, mapE, number]

theorem collBag_members {fa : FS} {x : Val} {A : List (Ent (Id E))}
    (h : collBag H o none (.fixed none) fa (some x) = .ok A) : ∃ la, Members H o x la ∧ A = number [] (keyed la) := by
  unfold collBag at h
  split at h
  · simp at h
  · rename_i xs hxs
    have hf : xs.filter (fun kv => (IdArgs.fixed none).looksAt fa kv.1) = xs := by
      simp [IdArgs.looksAt]
    rw [hf] at h
    split at h
    · simp at h
    · rename_i ys hys
      simp only [Except.ok.injEq] at h
      subst h
      obtain ⟨la, h1, h2⟩ := labels_of_mapE (f := fun kv : Comp × Val => H.recId none none kv.2)
        (g := fun kv => kv.1) (fun i => !(o.ignoreEmptyItems && idEmpty H i)) hys
      exact ⟨la, ⟨xs, hxs, h1⟩, by rw [h2]; rfl⟩

theorem collBag_none {ty : Option Ty} {ia : IdArgs} {fa : FS} : collBag H o ty ia fa none = .ok [] := by
  simp [collBag, tuplesOf, mapE, number]

theorem items_unique {x : Val} {la lb : List (Option F × (Comp × Val))} (h : Items H o x la) (h' : Items H o x lb) :
    la = lb := by
  obtain ⟨xs, h1, h2⟩ := h
  obtain ⟨ys, g1, g2⟩ := h'
  rw [h1] at g1
  simp at g1
  subst g1
  exact labels_unique h2 g2

theorem members_unique {x : Val} {la lb : List (Id E × (Comp × Val))} (h : Members H o x la)
    (h' : Members H o x lb) : la = lb := by
  obtain ⟨xs, h1, h2⟩ := h
  obtain ⟨ys, g1, g2⟩ := h'
  rw [h1] at g1
  simp at g1
  subst g1
  exact labels_unique h2 g2

section Number
variable {J : Type} [DecidableEq J]

theorem minus_number_nil {l m : List (J × Comp)} : minus (number [] l) (number [] m) = [] ↔
    ∀ j, (l.map (·.1)).count j ≤ (m.map (·.1)).count j := by
  constructor
  · intro h j
    by_contra hlt
    have h1 : (j, (m.map (·.1)).count j) ∈ (number [] l).map (·.1) := by
      rw [number_mem]
      simp
      omega
    obtain ⟨e, he, he'⟩ := List.mem_map.1 h1
    have h2 : e ∈ minus (number [] l) (number [] m) := by
      rw [mem_minus, he', number_mem]
      exact ⟨he, by simp⟩
    rw [h] at h2
    simp at h2
  · intro h
    rw [List.eq_nil_iff_forall_not_mem]
    intro e he
    rw [mem_minus] at he
    obtain ⟨⟨j, i⟩, k⟩ := e
    have h1 := List.mem_map_of_mem (f := fun e : Ent J => e.1) he.1
    have h2 := he.2
    simp only at h1 h2
    rw [number_mem] at h1 h2
    have := h j
    simp at h1 h2
    omega

theorem minus_nil_perm {l m : List (J × Comp)} :
    (minus (number [] l) (number [] m) = [] ∧ minus (number [] m) (number [] l) = []) ↔
      (l.map (·.1)).Perm (m.map (·.1)) := by
  rw [minus_number_nil, minus_number_nil, List.perm_iff_count]
  constructor
  · rintro ⟨h1, h2⟩ j
    exact Nat.le_antisymm (h1 j) (h2 j)
  · intro h
    exact ⟨fun j => (h j).le, fun j => (h j).ge⟩

theorem number_nth (l : List (J × Comp)) : ∀ (seen : List J) (j : J) (m : Nat) (k : Comp),
    ((j, m), k) ∈ number seen l ↔ seen.count j ≤ m ∧ nth l j (m - seen.count j) = some k := by
  induction l with
  | nil => intro seen j m k; simp [number, nth]
  | cons x l ih =>
    intro seen j m k
    obtain ⟨i, k'⟩ := x
    simp only [number, List.mem_cons, ih, List.count_cons, Prod.mk.injEq]
    by_cases h : i = j
    · subst h
      simp only [true_and, beq_self_eq_true, if_true, nth, List.filter_cons, decide_true, List.map_cons]
      by_cases hm : seen.count i = m
      · subst hm
        have h0 : ¬ (seen.count i + 1 ≤ seen.count i) := by omega
        simp [h0]
        exact eq_comm
      · rw [eq_comm] at hm
        simp only [hm, false_and, false_or]
        constructor
        · rintro ⟨h1, h2⟩
          refine ⟨by omega, ?_⟩
          have : m - seen.count i = (m - (seen.count i + 1)) + 1 := by omega
          rw [this]
          simpa using h2
        · rintro ⟨h1, h2⟩
          refine ⟨by omega, ?_⟩
          have : m - seen.count i = (m - (seen.count i + 1)) + 1 := by omega
          rw [this] at h2
          simpa using h2
    · have h' : ¬ j = i := fun e => h e.symm
      simp [h, h', nth]

theorem nth_map {α β : Type} {g : α → β} (l : List (J × α)) (j : J) (m : Nat) :
    nth (l.map (fun e => (e.1, g e.2))) j m = (nth l j m).map g := by
  unfold nth
  rw [List.filter_map, List.map_map, ← List.getElem?_map, List.map_map]
  rfl

theorem nth_keyed {la : List (J × (Comp × Val))} {j : J} {m : Nat} {k : Comp} :
    ((j, m), k) ∈ number [] (keyed la) ↔ ∃ u, nth la j m = some u ∧ u.1 = k := by
  rw [number_nth]
  unfold keyed
  rw [nth_map la (g := fun u : Comp × Val => u.1)]
  simp

theorem common_keyed {la lb : List (J × (Comp × Val))} {k : Comp × Comp} :
    k ∈ common (number [] (keyed la)) (number [] (keyed lb)) ↔
      ∃ j m u w, nth la j m = some u ∧ nth lb j m = some w ∧ u.1 = k.1 ∧ w.1 = k.2 := by
  rw [mem_common]
  constructor
  · rintro ⟨⟨j, m⟩, h1, h2⟩
    obtain ⟨u, hu, hu'⟩ := nth_keyed.1 h1
    obtain ⟨w, hw, hw'⟩ := nth_keyed.1 (alookup_mem h2)
    exact ⟨j, m, u, w, hu, hw, hu', hw'⟩
  · rintro ⟨j, m, u, w, hu, hw, hu', hw'⟩
    refine ⟨(j, m), nth_keyed.2 ⟨u, hu, hu'⟩, ?_⟩
    exact alookup_nodup (number_nodup _ _) (nth_keyed.2 ⟨w, hw, hw'⟩)

theorem nth_mem {α : Type} {l : List (J × α)} {j : J} {m : Nat} {u : α} (h : nth l j m = some u) : (j, u) ∈ l := by
  unfold nth at h
  have := List.mem_of_getElem? h
  obtain ⟨e, he, rfl⟩ := List.mem_map.1 this
  rw [List.mem_filter] at he
  have h2 : e.1 = j := by simpa using he.2
  rw [← h2]
  exact he.1

theorem nth_of_mem {α : Type} {l : List (J × α)} {j : J} {u : α} (h : (j, u) ∈ l) : ∃ m, nth l j m = some u := by
  have h1 : u ∈ (l.filter (fun e => decide (e.1 = j))).map (·.2) :=
    List.mem_map.2 ⟨(j, u), List.mem_filter.2 ⟨h, by simp⟩, rfl⟩
  obtain ⟨m, hm⟩ := List.mem_iff_getElem?.1 h1
  exact ⟨m, hm⟩

end Number

/-- Subscripting a real collection with the key of a member gives the member. -/
theorem itemAt_member {S : Schema} {x : Val} (hx : Spec.Real S x) {xs : List (Comp × Val)}
    (h : tuplesOf (some x) = .ok xs) {u : Comp × Val} (hu : u ∈ xs) : itemAt (some x) u.1 = .ok u.2 :=
  getItem_tuples_eq h (dictsOK_real hx [] x .here) hu

theorem members_mem {x : Val} {la : List (Id E × (Comp × Val))} (h : Members H o x la) {e : Id E × (Comp × Val)}
    (he : e ∈ la) : ∃ xs, tuplesOf (some x) = .ok xs ∧ e.2 ∈ xs ∧ H.recId none none e.2.2 = .ok e.1 := by
  obtain ⟨xs, h1, h2⟩ := h
  exact ⟨xs, h1, (labels_mem h2 he).1, (labels_mem h2 he).2⟩

end Normalize.Diff
