import Verif.Spec.Traits
import Verif.Lemmas.ClassMeta

/-!
# Lemmas on the choice of property types
-/

namespace Normalize.Traits
open Spec

/-! ## Sorted tuples -/

theorem mem_insT {x y : String} : ∀ {l : List String}, y ∈ insT x l ↔ y = x ∨ y ∈ l
  | [] => by simp [insT]
  | z :: l => by
    simp only [insT]
    split
    · rename_i h; subst h; simp
    · split
      · simp
      · rw [List.mem_cons, mem_insT, List.mem_cons]
        exact ⟨fun h => by rcases h with h | h | h <;> simp [h], fun h => by rcases h with h | h | h <;> simp [h]⟩

theorem mem_norm {y : String} : ∀ {l : List String}, y ∈ norm l ↔ y ∈ l
  | [] => by simp [norm]
  | z :: l => by simp only [norm]; rw [mem_insT, mem_norm, List.mem_cons]

theorem lt_of_not {x y : String} (h : x ≠ y) (h' : ¬ x < y) : y < x := by
  refine Decidable.byContradiction fun hn => h ?_
  exact String.le_antisymm (String.not_lt.1 hn) (String.not_lt.1 h')

theorem insT_sorted {x : String} : ∀ {l : List String}, l.Pairwise (· < ·) → (insT x l).Pairwise (· < ·)
  | [], _ => by simp [insT]
  | z :: l, h => by
    simp only [insT]
    split
    · exact h
    · split
      · rename_i hlt
        refine List.pairwise_cons.2 ⟨?_, h⟩
        intro a ha
        rcases List.mem_cons.1 ha with rfl | ha
        · exact hlt
        · exact String.lt_trans hlt ((List.pairwise_cons.1 h).1 a ha)
      · rename_i hne hlt
        refine List.pairwise_cons.2 ⟨?_, insT_sorted (List.pairwise_cons.1 h).2⟩
        intro a ha
        rcases mem_insT.1 ha with rfl | ha
        · exact lt_of_not hne hlt
        · exact (List.pairwise_cons.1 h).1 a ha

theorem norm_sorted : ∀ (l : List String), (norm l).Pairwise (· < ·)
  | [] => List.Pairwise.nil
  | _ :: l => insT_sorted (norm_sorted l)

theorem sorted_nodup {l : List String} (h : l.Pairwise (· < ·)) : l.Nodup := by
  refine List.Pairwise.imp ?_ h
  intro a b hab he
  subst he
  exact String.lt_irrefl _ hab

theorem sorted_ext {a b : List String} (ha : a.Pairwise (· < ·)) (hb : b.Pairwise (· < ·)) (h : ∀ x, x ∈ a ↔ x ∈ b) : a = b := by
  refine List.Perm.eq_of_pairwise (le := (· < ·)) ?_ ha hb ?_
  · intro x y _ _ h1 h2
    exact absurd h2 (String.lt_asymm h1)
  · exact (List.perm_ext_iff_of_nodup (sorted_nodup ha) (sorted_nodup hb)).2 h

theorem norm_eq_iff {a b : List String} : norm a = norm b ↔ ∀ x, x ∈ a ↔ x ∈ b := by
  constructor
  · intro h x
    rw [← mem_norm, h, mem_norm]
  · intro h
    refine sorted_ext (norm_sorted a) (norm_sorted b) ?_
    intro x
    rw [mem_norm, mem_norm, h]

theorem mem_insK {x y : List String} : ∀ {l : List (List String)}, y ∈ insK x l ↔ y = x ∨ y ∈ l
  | [] => by simp [insK]
  | z :: l => by
    simp only [insK]
    split
    · simp
    · rw [List.mem_cons, mem_insK, List.mem_cons]
      exact ⟨fun h => by rcases h with h | h | h <;> simp [h], fun h => by rcases h with h | h | h <;> simp [h]⟩

theorem mem_sortK {y : List String} : ∀ {l : List (List String)}, y ∈ sortK l ↔ y ∈ l
  | [] => by simp [sortK]
  | z :: l => by simp only [sortK]; rw [mem_insK, mem_sortK, List.mem_cons]

theorem mem_distinct {y : List String} : ∀ {l : List (List String)}, y ∈ distinct l ↔ y ∈ l
  | [] => by simp [distinct]
  | z :: l => by
    simp only [distinct]
    split
    · rename_i h
      rw [mem_distinct]
      have h : z ∈ l := by simpa using h
      exact ⟨.tail _, fun h' => by rcases List.mem_cons.1 h' with rfl | h' <;> assumption⟩
    · rw [List.mem_cons, mem_distinct, List.mem_cons]

theorem distinct_nodup : ∀ (l : List (List String)), (distinct l).Nodup
  | [] => List.nodup_nil
  | z :: l => by
    simp only [distinct]
    split
    · exact distinct_nodup l
    · rename_i h
      refine List.nodup_cons.2 ⟨?_, distinct_nodup l⟩
      rw [mem_distinct]
      simpa using h

/-! ## The invariant -/

theorem lookupT_append {a b : List (List String × Nat)} {k : List String} : lookupT (a ++ b) k =
    match lookupT a k with
    | some i => some i
    | none => lookupT b k := by
  induction a with
  | nil => rfl
  | cons x a ih =>
    obtain ⟨k', i⟩ := x
    simp only [List.cons_append, lookupT]
    split
    · rfl
    · exact ih

theorem mroT_eq {r : Reg} {i : Nat} {T : PType} (h : TypeAt r i T) : mroT r i = T.mro := by
  unfold mroT; rw [h]

theorem traitsT_eq {r : Reg} {i : Nat} {T : PType} (h : TypeAt r i T) : traitsT r i = T.traits := by
  unfold traitsT; rw [h]

theorem allArgsT_eq {r : Reg} {i : Nat} {T : PType} (h : TypeAt r i T) : allArgsT r i = T.allArgs := by
  unfold allArgsT; rw [h]

theorem defaultsT_eq {r : Reg} {i : Nat} {T : PType} (h : TypeAt r i T) : defaultsT r i = T.defaults := by
  unfold defaultsT; rw [h]

theorem typeAt_unique {r : Reg} {i : Nat} {T S : PType} (h : TypeAt r i T) (h' : TypeAt r i S) : T = S :=
  Option.some.inj (h.symm.trans h')

theorem typeAt_lt {r : Reg} {i : Nat} {T : PType} (h : TypeAt r i T) : i < r.types.length := by
  unfold TypeAt at h
  exact (List.getElem?_eq_some_iff.1 h).1

theorem typeAt_of_lt {r : Reg} {i : Nat} (h : i < r.types.length) : ∃ T, TypeAt r i T :=
  ⟨_, List.getElem?_eq_getElem h⟩

structure Inv (r : Reg) : Prop where
  reg : ∀ (k : List String) (i : Nat), lookupT r.reg k = some i ↔ ∃ T, TypeAt r i T ∧ T.traits = k
  sorted : ∀ (i : Nat) (T : PType), TypeAt r i T → T.traits.Pairwise (· < ·)
  head : ∀ (i : Nat) (T : PType), TypeAt r i T → ∃ tl, T.mro = i :: tl
  nodup : ∀ (i : Nat) (T : PType), TypeAt r i T → T.mro.Nodup
  lt : ∀ (i : Nat) (T : PType), TypeAt r i T → ∀ j ∈ T.mro, j < r.types.length
  root : ∀ (i : Nat) (T : PType), TypeAt r i T → 0 ∈ T.mro
  rootMro : ∃ T, TypeAt r 0 T ∧ T.mro = [0] ∧ T.traits = []
  up : ∀ (i j : Nat) (T S : PType), TypeAt r i T → j ∈ T.mro → TypeAt r j S → (∀ t ∈ S.traits, t ∈ T.traits) ∧ S.mro.Sublist T.mro
  prov : ∀ (i : Nat) (T : PType), TypeAt r i T → ∀ t ∈ T.traits, ∃ j S, j ∈ T.mro ∧ TypeAt r j S ∧ S.trait = some t
  own : ∀ (i : Nat) (T : PType) (t : String), TypeAt r i T → T.trait = some t → t ∈ T.traits
  args : ∀ (i : Nat) (T : PType), TypeAt r i T → ∀ a, a ∈ T.allArgs ↔ ∃ j S, j ∈ T.mro ∧ TypeAt r j S ∧ a ∈ S.args
  duck : ∀ (a : String) (k : List String) (i : Nat), (a, k, i) ∈ r.duck ↔ ∃ T, TypeAt r i T ∧ T.trait ≠ none ∧ T.traits = k ∧ a ∈ T.args
  defaults : ∀ (i : Nat) (T : PType), TypeAt r i T → KwOnce T.defaults

theorem Inv.same {r : Reg} (h : Inv r) {i j : Nat} {T S : PType} (hi : TypeAt r i T) (hj : TypeAt r j S) (ht : T.traits = S.traits) : i = j := by
  have h1 := (h.reg T.traits i).2 ⟨T, hi, rfl⟩
  have h2 := (h.reg T.traits j).2 ⟨S, hj, ht.symm⟩
  exact Option.some.inj (h1.symm.trans h2)

/-- The new type. -/
def made (r : Reg) (d : Decl) (m : List Nat) : PType :=
  { traits := newTraits r d, trait := d.trait, mro := r.types.length :: m, own := d.own, safe := d.safe, defaults := d.defaults, args := d.args, allArgs := d.args ++ d.bases.flatMap (allArgsT r) }

/-- What a class statement gives. -/
structure NewType (r : Reg) (d : Decl) (m : List Nat) (r' : Reg) : Prop where
  bases : ∀ b ∈ d.bases, b < r.types.length
  free : lookupT r.reg (newTraits r d) = none
  nodup : m.Nodup
  sub : ∀ b ∈ d.bases, (mroT r b).Sublist m
  subBases : d.bases.Sublist m
  mem : ∀ x ∈ m, x ∈ d.bases ∨ ∃ b ∈ d.bases, x ∈ mroT r b
  eq : r' = { types := r.types ++ [made r d m], reg := r.reg ++ [(newTraits r d, r.types.length)], duck := r.duck ++ (if d.trait.isSome then d.args.map (fun a => (a, newTraits r d, r.types.length)) else []) }

theorem newType_cases (r : Reg) (d : Decl) : (∃ e, newType r d = (.error e, r) ∧ e ≠ .diverge ∧ e ≠ .valueError) ∨
    ∃ m, NewType r d m (newType r d).2 ∧ (newType r d).1 = .ok r.types.length := by
  unfold newType
  split
  · exact .inl ⟨_, rfl, by decide, by decide⟩
  · rename_i hb
    split
    · exact .inl ⟨_, rfl, by decide, by decide⟩
    · rename_i hf
      split
      · exact .inl ⟨_, rfl, by decide, by decide⟩
      · rename_i m hm
        right
        obtain ⟨h1, h2, h3⟩ := ClassMeta.merge_spec (Nat.le_refl _) hm
        refine ⟨m, ⟨?_, hf, h1, ?_, ?_, ?_, rfl⟩, rfl⟩
        · intro b hb'
          simp only [List.any_eq_true, decide_eq_true_eq, not_exists, not_and, Nat.not_le] at hb
          exact hb b hb'
        · intro b hb'
          exact h2 _ (List.mem_append_left _ (List.mem_map.2 ⟨b, hb', rfl⟩))
        · exact h2 _ (by simp)
        · intro x hx
          obtain ⟨s, hs, hxs⟩ := h3 x hx
          rcases List.mem_append.1 hs with hs | hs
          · obtain ⟨b, hb', rfl⟩ := List.mem_map.1 hs
            exact .inr ⟨b, hb', hxs⟩
          · rw [List.mem_singleton] at hs
            subst hs
            exact .inl hxs

theorem typeAt_add {r : Reg} {T : PType} {reg : List (List String × Nat)} {duck : List (String × List String × Nat)} {i : Nat} {S : PType} :
    TypeAt ⟨r.types ++ [T], reg, duck⟩ i S ↔ TypeAt r i S ∨ (i = r.types.length ∧ S = T) := by
  unfold TypeAt
  simp only
  rcases Nat.lt_trichotomy i r.types.length with h | h | h
  · rw [List.getElem?_append_left h]
    exact ⟨.inl, fun h' => h'.elim id (fun ⟨h', _⟩ => by omega)⟩
  · subst h
    simp [eq_comm]
  · rw [List.getElem?_eq_none (by simp; omega), List.getElem?_eq_none (by omega)]
    simp
    omega

theorem Inv.newType {r : Reg} (h : Inv r) {d : Decl} (hd : GoodDecl d) {m : List Nat} {r' : Reg} (hn : NewType r d m r') : Inv r' := by
  have hT : ∀ b ∈ d.bases, ∃ B, TypeAt r b B := fun b hb => typeAt_of_lt (hn.bases b hb)
  have hmem : ∀ x ∈ m, ∃ b ∈ d.bases, ∃ B, TypeAt r b B ∧ x ∈ B.mro := by
    intro x hx
    rcases hn.mem x hx with hx | ⟨b, hb, hx⟩
    · obtain ⟨B, hB⟩ := hT x hx
      obtain ⟨tl, ht⟩ := h.head x B hB
      exact ⟨x, hx, B, hB, by rw [ht]; exact List.mem_cons_self⟩
    · obtain ⟨B, hB⟩ := hT b hb
      rw [mroT_eq hB] at hx
      exact ⟨b, hb, B, hB, hx⟩
  have hlt : ∀ x ∈ m, x < r.types.length := by
    intro x hx
    obtain ⟨b, _, B, hB, hx⟩ := hmem x hx
    exact h.lt b B hB x hx
  have hsub : ∀ b ∈ d.bases, ∀ B, TypeAt r b B → B.mro.Sublist m := by
    intro b hb B hB
    rw [← mroT_eq hB]
    exact hn.sub b hb
  have htr : ∀ t, t ∈ newTraits r d ↔ d.trait = some t ∨ ∃ b ∈ d.bases, ∃ B, TypeAt r b B ∧ t ∈ B.traits := by
    intro t
    unfold newTraits
    rw [mem_norm, List.mem_append, List.mem_flatMap, Option.mem_toList]
    refine or_congr Iff.rfl ⟨?_, ?_⟩
    · rintro ⟨b, hb, ht⟩
      obtain ⟨B, hB⟩ := hT b hb
      rw [traitsT_eq hB] at ht
      exact ⟨b, hb, B, hB, ht⟩
    · rintro ⟨b, hb, B, hB, ht⟩
      exact ⟨b, hb, by rw [traitsT_eq hB]; exact ht⟩
  have hN : ∀ i S, TypeAt r' i S ↔ TypeAt r i S ∨ (i = r.types.length ∧ S = made r d m) := fun i S => by rw [hn.eq]; exact typeAt_add
  have hlen : r'.types.length = r.types.length + 1 := by rw [hn.eq]; simp
  have old : ∀ {j S}, TypeAt r j S → TypeAt r' j S := fun hS => (hN _ _).2 (.inl hS)
  have back : ∀ {j S}, TypeAt r' j S → j < r.types.length → TypeAt r j S := by
    intro j S hS hj
    rcases (hN j S).1 hS with h' | ⟨h', _⟩
    · exact h'
    · omega
  constructor
  · intro k i
    rw [hn.eq]
    simp only
    rw [lookupT_append]
    cases hk : lookupT r.reg k with
    | some i' =>
      simp only [Option.some.injEq]
      obtain ⟨T, hT', hk'⟩ := (h.reg k i').1 hk
      constructor
      · rintro rfl
        exact ⟨T, typeAt_add.2 (.inl hT'), hk'⟩
      · rintro ⟨S, hS, hk2⟩
        rcases typeAt_add.1 hS with hS | ⟨rfl, rfl⟩
        · exact h.same hT' hS (hk'.trans hk2.symm)
        · rw [← hk2] at hk
          change lookupT r.reg (newTraits r d) = _ at hk
          rw [hn.free] at hk
          cases hk
    | none =>
      simp only [lookupT]
      constructor
      · intro h'
        split at h'
        · rename_i hk'
          cases h'
          exact ⟨_, typeAt_add.2 (.inr ⟨rfl, rfl⟩), hk'⟩
        · cases h'
      · rintro ⟨S, hS, hk2⟩
        rcases typeAt_add.1 hS with hS | ⟨rfl, rfl⟩
        · have := (h.reg k i).2 ⟨S, hS, hk2⟩
          rw [hk] at this
          cases this
        · exact if_pos hk2
  · intro i T hTi
    rcases (hN i T).1 hTi with hTi | ⟨rfl, rfl⟩
    · exact h.sorted i T hTi
    · exact norm_sorted _
  · intro i T hTi
    rcases (hN i T).1 hTi with hTi | ⟨rfl, rfl⟩
    · exact h.head i T hTi
    · exact ⟨m, rfl⟩
  · intro i T hTi
    rcases (hN i T).1 hTi with hTi | ⟨rfl, rfl⟩
    · exact h.nodup i T hTi
    · refine List.nodup_cons.2 ⟨?_, hn.nodup⟩
      intro hx
      exact Nat.lt_irrefl _ (hlt _ hx)
  · intro i T hTi j hj
    rw [hlen]
    rcases (hN i T).1 hTi with hTi | ⟨rfl, rfl⟩
    · have := h.lt i T hTi j hj
      omega
    · rcases List.mem_cons.1 hj with rfl | hj
      · omega
      · have := hlt j hj
        omega
  · intro i T hTi
    rcases (hN i T).1 hTi with hTi | ⟨rfl, rfl⟩
    · exact h.root i T hTi
    · obtain ⟨b, hb⟩ := List.exists_mem_of_ne_nil _ hd.1
      obtain ⟨B, hB⟩ := hT b hb
      exact List.mem_cons_of_mem _ ((hsub b hb B hB).subset (h.root b B hB))
  · obtain ⟨T, hT0, h1⟩ := h.rootMro
    exact ⟨T, old hT0, h1⟩
  · intro i j T S hTi hj hS
    rcases (hN i T).1 hTi with hTi | ⟨rfl, rfl⟩
    · exact h.up i j T S hTi hj (back hS (h.lt i T hTi j hj))
    · rcases List.mem_cons.1 hj with rfl | hj
      · cases (hN _ S).1 hS with
        | inl hS => exact absurd (typeAt_lt hS) (Nat.lt_irrefl _)
        | inr hS => rw [hS.2]; exact ⟨fun t ht => ht, List.Sublist.refl _⟩
      · have hS := back hS (hlt j hj)
        obtain ⟨b, hb, B, hB, hjB⟩ := hmem j hj
        obtain ⟨h1, h2⟩ := h.up b j B S hB hjB hS
        refine ⟨fun t ht => (htr t).2 (.inr ⟨b, hb, B, hB, h1 t ht⟩), ?_⟩
        exact (h2.trans (hsub b hb B hB)).trans (List.sublist_cons_self _ _)
  · intro i T hTi t ht
    rcases (hN i T).1 hTi with hTi | ⟨rfl, rfl⟩
    · obtain ⟨j, S, h1, h2, h3⟩ := h.prov i T hTi t ht
      exact ⟨j, S, h1, old h2, h3⟩
    · rcases (htr t).1 ht with ht | ⟨b, hb, B, hB, ht⟩
      · exact ⟨_, _, List.mem_cons_self, hTi, ht⟩
      · obtain ⟨j, S, h1, h2, h3⟩ := h.prov b B hB t ht
        exact ⟨j, S, List.mem_cons_of_mem _ ((hsub b hb B hB).subset h1), old h2, h3⟩
  · intro i T t hTi ht
    rcases (hN i T).1 hTi with hTi | ⟨rfl, rfl⟩
    · exact h.own i T t hTi ht
    · exact (htr t).2 (.inl ht)
  · intro i T hTi a
    rcases (hN i T).1 hTi with hTi | ⟨rfl, rfl⟩
    · rw [h.args i T hTi]
      constructor
      · rintro ⟨j, S, h1, h2, h3⟩; exact ⟨j, S, h1, old h2, h3⟩
      · rintro ⟨j, S, h1, h2, h3⟩; exact ⟨j, S, h1, back h2 (h.lt i T hTi j h1), h3⟩
    · simp only [made, List.mem_append, List.mem_flatMap]
      constructor
      · rintro (ha | ⟨b, hb, ha⟩)
        · exact ⟨_, _, List.mem_cons_self, hTi, ha⟩
        · obtain ⟨B, hB⟩ := hT b hb
          rw [allArgsT_eq hB, h.args b B hB] at ha
          obtain ⟨j, S, h1, h2, h3⟩ := ha
          exact ⟨j, S, List.mem_cons_of_mem _ ((hsub b hb B hB).subset h1), old h2, h3⟩
      · rintro ⟨j, S, h1, h2, h3⟩
        rcases List.mem_cons.1 h1 with rfl | h1
        · cases (hN _ S).1 h2 with
          | inl hS => exact absurd (typeAt_lt hS) (Nat.lt_irrefl _)
          | inr hS => rw [hS.2] at h3; exact .inl h3
        · obtain ⟨b, hb, B, hB, hjB⟩ := hmem j h1
          exact .inr ⟨b, hb, by rw [allArgsT_eq hB, h.args b B hB]; exact ⟨j, S, hjB, back h2 (hlt j h1), h3⟩⟩
  · intro a k i
    have hdk : (a, k, i) ∈ r'.duck ↔ (a, k, i) ∈ r.duck ∨ (d.trait ≠ none ∧ a ∈ d.args ∧ k = newTraits r d ∧ i = r.types.length) := by
      rw [hn.eq]
      simp only [List.mem_append]
      cases d.trait with
      | none => simp
      | some t =>
        simp only [Option.isSome_some, if_true, List.mem_map, Prod.mk.injEq, ne_eq, reduceCtorEq, not_false_eq_true, true_and]
        refine or_congr Iff.rfl ⟨?_, ?_⟩
        · rintro ⟨a', h1, rfl, rfl, rfl⟩; exact ⟨h1, rfl, rfl⟩
        · rintro ⟨h1, rfl, rfl⟩; exact ⟨a, h1, rfl, rfl, rfl⟩
    rw [hdk, h.duck]
    constructor
    · rintro (⟨T, h1, h2⟩ | ⟨h1, h2, rfl, rfl⟩)
      · exact ⟨T, old h1, h2⟩
      · exact ⟨_, (hN _ _).2 (.inr ⟨rfl, rfl⟩), h1, rfl, h2⟩
    · rintro ⟨T, h1, h2, h3, h4⟩
      rcases (hN i T).1 h1 with h1 | ⟨rfl, rfl⟩
      · exact .inl ⟨T, h1, h2, h3, h4⟩
      · exact .inr ⟨h2, h4, h3.symm, rfl⟩
  · intro i T hTi
    rcases (hN i T).1 hTi with hTi | ⟨rfl, rfl⟩
    · exact h.defaults i T hTi
    · exact hd.2

theorem initial_eq : initial = { types := [{ traits := [], trait := none, mro := [0], own := propertyDecl.own, safe := some false, defaults := [], args := propertyDecl.args, allArgs := propertyDecl.args }], reg := [([], 0)], duck := [] } := by
  decide +kernel

theorem typeAt_initial {i : Nat} {T : PType} : TypeAt initial i T ↔ i = 0 ∧ T = { traits := [], trait := none, mro := [0], own := propertyDecl.own, safe := some false, defaults := [], args := propertyDecl.args, allArgs := propertyDecl.args } := by
  rw [initial_eq]
  unfold TypeAt
  cases i with
  | zero => simp [eq_comm]
  | succ i => simp

theorem inv_initial : Inv initial := by
  constructor
  · intro k i
    rw [initial_eq]
    simp only [lookupT]
    rw [← initial_eq]
    constructor
    · intro h
      split at h
      · rename_i hk
        cases h
        exact ⟨_, typeAt_initial.2 ⟨rfl, rfl⟩, hk⟩
      · cases h
    · rintro ⟨T, hT, rfl⟩
      obtain ⟨rfl, rfl⟩ := typeAt_initial.1 hT
      rfl
  · intro i T hT
    obtain ⟨rfl, rfl⟩ := typeAt_initial.1 hT
    exact List.Pairwise.nil
  · intro i T hT
    obtain ⟨rfl, rfl⟩ := typeAt_initial.1 hT
    exact ⟨[], rfl⟩
  · intro i T hT
    obtain ⟨rfl, rfl⟩ := typeAt_initial.1 hT
    simp
  · intro i T hT j hj
    obtain ⟨rfl, rfl⟩ := typeAt_initial.1 hT
    rw [List.mem_singleton] at hj
    subst hj
    exact typeAt_lt hT
  · intro i T hT
    obtain ⟨rfl, rfl⟩ := typeAt_initial.1 hT
    simp
  · exact ⟨_, typeAt_initial.2 ⟨rfl, rfl⟩, rfl, rfl⟩
  · intro i j T S hT hj hS
    obtain ⟨rfl, rfl⟩ := typeAt_initial.1 hT
    obtain ⟨rfl, rfl⟩ := typeAt_initial.1 hS
    exact ⟨fun t ht => ht, List.Sublist.refl _⟩
  · intro i T hT t ht
    obtain ⟨rfl, rfl⟩ := typeAt_initial.1 hT
    cases ht
  · intro i T t hT ht
    obtain ⟨rfl, rfl⟩ := typeAt_initial.1 hT
    cases ht
  · intro i T hT a
    obtain ⟨rfl, rfl⟩ := typeAt_initial.1 hT
    constructor
    · intro ha
      exact ⟨0, _, by simp, hT, ha⟩
    · rintro ⟨j, S, h1, h2, h3⟩
      obtain ⟨rfl, rfl⟩ := typeAt_initial.1 h2
      exact h3
  · intro a k i
    rw [initial_eq]
    simp only [List.not_mem_nil, false_iff]
    rw [← initial_eq]
    rintro ⟨T, hT, h1, _⟩
    obtain ⟨rfl, rfl⟩ := typeAt_initial.1 hT
    exact h1 rfl
  · intro i T hT
    obtain ⟨rfl, rfl⟩ := typeAt_initial.1 hT
    exact List.nodup_nil

/-! ## Composing -/

/-- Only composed types were added. -/
structure CExt (r r' : Reg) : Prop where
  types : ∃ l, r'.types = r.types ++ l ∧ ∀ T ∈ l, T.trait = none ∧ T.args = [] ∧ T.safe = none ∧ T.defaults = [] ∧ T.own = []
  duck : r'.duck = r.duck

theorem CExt.rfl {r : Reg} : CExt r r := ⟨⟨[], by simp, by simp⟩, .refl _⟩

theorem CExt.trans {a b c : Reg} (h : CExt a b) (h' : CExt b c) : CExt a c := by
  obtain ⟨l, h1, h2⟩ := h.types
  obtain ⟨l', h3, h4⟩ := h'.types
  refine ⟨⟨l ++ l', by rw [h3, h1, List.append_assoc], ?_⟩, h'.duck.trans h.duck⟩
  intro T hT
  rcases List.mem_append.1 hT with hT | hT
  · exact h2 T hT
  · exact h4 T hT

theorem CExt.at {r r' : Reg} (h : CExt r r') {i : Nat} {T : PType} (hT : TypeAt r i T) : TypeAt r' i T := by
  obtain ⟨l, h1, _⟩ := h.types
  have hlt := typeAt_lt hT
  unfold TypeAt at *
  rw [h1, List.getElem?_append_left hlt]
  exact hT

theorem CExt.back {r r' : Reg} (h : CExt r r') {i : Nat} {T : PType} (hT : TypeAt r' i T) : TypeAt r i T ∨
    (r.types.length ≤ i ∧ T.trait = none ∧ T.args = [] ∧ T.safe = none ∧ T.defaults = [] ∧ T.own = []) := by
  obtain ⟨l, h1, h2⟩ := h.types
  unfold TypeAt at *
  rw [h1] at hT
  by_cases hi : i < r.types.length
  · rw [List.getElem?_append_left hi] at hT
    exact .inl hT
  · right
    rw [List.getElem?_append_right (by omega)] at hT
    exact ⟨by omega, h2 T (List.mem_of_getElem? hT)⟩

/-- What composing keeps. -/
def Keeps (r r' : Reg) : Prop := Inv r → Inv r' ∧ CExt r r'

theorem Keeps.rfl {r : Reg} : Keeps r r := fun h => ⟨h, .rfl⟩

theorem Keeps.trans {a b c : Reg} (h : Keeps a b) (h' : Keeps b c) : Keeps a c :=
  fun ha => ⟨(h' (h ha).1).1, (h ha).2.trans (h' (h ha).1).2⟩

theorem newType_keeps (r : Reg) (a b : Nat) : Keeps r (newType r { bases := [a, b] }).2 := by
  intro h
  rcases newType_cases r { bases := [a, b] } with ⟨e, he, _⟩ | ⟨m, hm, _⟩
  · rw [he]
    exact ⟨h, .rfl⟩
  · refine ⟨h.newType (d := { bases := [a, b] }) ⟨by simp, List.nodup_nil⟩ hm, ?_⟩
    rw [hm.eq]
    exact ⟨⟨_, rfl, by simp [made]⟩, by simp⟩

theorem oneBase_keeps (r : Reg) (wanted : List String) (stock : List (List String)) (base : List String) :
    Keeps r (oneBase r wanted stock base).2 := by
  unfold oneBase
  split
  · split
    · exact .rfl
    · split
      · exact .rfl
      · rename_i bt _ _ ot _
        have := newType_keeps r bt ot
        split
        · rename_i e r' h'; rw [h'] at this; exact this
        · rename_i e r' h'; rw [h'] at this; exact this
  · exact .rfl

theorem eachBase_keeps (wanted : List String) (longest : Nat) : ∀ (bs : List (List String)) (r : Reg) (stock : List (List String)) (made : Bool),
    Keeps r (eachBase wanted longest r stock made bs).2
  | [], _, _, _ => .rfl
  | b :: bs, r, stock, made => by
    simp only [eachBase]
    split
    · exact eachBase_keeps wanted longest bs r stock made
    · have := oneBase_keeps r wanted stock b
      split
      · rename_i e r' h'; rw [h'] at this; exact this
      · rename_i s m r' h'
        rw [h'] at this
        exact this.trans (eachBase_keeps wanted longest bs r' s _)

theorem compose_keeps (wanted : List String) : ∀ (n : Nat) (r : Reg) (stock : List (List String)), Keeps r (compose wanted n r stock).2
  | 0, _, _ => .rfl
  | n + 1, r, stock => by
    simp only [compose]
    split
    · exact .rfl
    · split
      · exact .rfl
      · rename_i k ks _
        have := eachBase_keeps wanted (maxLen (k :: ks)) (sortK (k :: ks)) r stock false
        split
        · rename_i e r' h'; rw [h'] at this; exact this
        · rename_i s m r' h'
          rw [h'] at this
          split
          · exact this.trans (compose_keeps wanted n r' s)
          · exact this

theorem compose_ok (wanted : List String) : ∀ (n : Nat) (r : Reg) (stock : List (List String)) (r' : Reg),
    compose wanted n r stock = (.ok (), r') → ∃ i, lookupT r'.reg wanted = some i
  | 0, _, _, _ => by rintro ⟨⟩
  | n + 1, r, stock, r' => by
    simp only [compose]
    split
    · rename_i h
      rintro ⟨⟩
      exact Option.isSome_iff_exists.1 h
    · split
      · rintro ⟨⟩
      · split
        · rintro ⟨⟩
        · split
          · exact compose_ok wanted n _ _ r'
          · rintro ⟨⟩

theorem create_keeps (r : Reg) (wanted : List String) : Keeps r (create r wanted).2 := by
  unfold create
  split
  · exact .rfl
  · exact compose_keeps _ _ _ _

theorem create_ok {r : Reg} {wanted : List String} {r' : Reg} (h : create r wanted = (.ok (), r')) : ∃ i, lookupT r'.reg wanted = some i := by
  unfold create at h
  split at h
  · cases h
  · exact compose_ok _ _ _ _ _ h

theorem has_keeps (r : Reg) (self : Nat) (kw : List (String × Kw)) : Keeps r (has r self kw).2 := by
  unfold has
  split
  · exact .rfl
  · rename_i key _
    split
    · exact .rfl
    · have := create_keeps r key
      split
      · rename_i e r' h'; rw [h'] at this; exact this
      · rename_i e r' h'
        rw [h'] at this
        split <;> exact this

theorem has_ok {r : Reg} {self : Nat} {kw : List (String × Kw)} {pt : Nat} {r' : Reg} (hi : Inv r) (h : has r self kw = (.ok pt, r')) :
    ∃ key T, traitKey r self kw = .ok key ∧ TypeAt r' pt T ∧ T.traits = key := by
  have hk := (has_keeps r self kw hi).1
  rw [h] at hk
  unfold has at h
  split at h
  · cases h
  · rename_i key hkey
    refine ⟨key, ?_⟩
    split at h
    · rename_i i hl
      cases h
      obtain ⟨T, h1, h2⟩ := (hi.reg key _).1 hl
      exact ⟨T, hkey, h1, h2⟩
    · split at h
      · cases h
      · split at h
        · rename_i i hl
          cases h
          obtain ⟨T, h1, h2⟩ := (hk.reg key _).1 hl
          exact ⟨T, hkey, h1, h2⟩
        · cases h

theorem construct_keeps : ∀ (n : Nat) (r : Reg) (selfie self : Nat) (kw : List (String × Kw)), Keeps r (construct n r selfie self kw).2
  | 0, _, _, _, _ => .rfl
  | n + 1, r, selfie, self, kw => by
    simp only [construct]
    have := has_keeps r self (mixKw (defaultsT r selfie) kw)
    split
    · rename_i e r' h'; rw [h'] at this; exact this
    · rename_i e r' h'
      rw [h'] at this
      split
      · exact this
      · exact this
      · exact this.trans (construct_keeps n _ _ _ _)

theorem call_keeps (n : Nat) (r : Reg) (cls : Nat) (kw : List (String × Kw)) : Keeps r (call n r cls kw).2 := by
  unfold call
  split
  · exact .rfl
  · exact construct_keeps _ _ _ _ _

theorem registry_inv {r : Reg} (h : Registry r) : Inv r := by
  induction h with
  | init => exact inv_initial
  | @decl r d _ hd ih =>
    rcases newType_cases r d with ⟨e, he, _⟩ | ⟨m, hm, _⟩
    · rw [he]; exact ih
    · exact ih.newType hd hm
  | call _ _ _ ih => exact (call_keeps _ _ _ _ ih).1

theorem callsFrom_keeps {r r' : Reg} (h : CallsFrom r r') : Keeps r r' := by
  induction h with
  | refl => exact .rfl
  | call _ _ _ ih => exact ih.trans (call_keeps _ _ _ _)

end Normalize.Traits
