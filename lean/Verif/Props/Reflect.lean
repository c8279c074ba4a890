import Verif.Lemmas.Reflect
import Mathlib.Logic.Relation

/-!
# C85, C86: `reflect`
-/

namespace Normalize.Reflect

open Spec

variable {W : World} {O : Opts}

/-- C85: `reflect` returns for any record type. -/
def C85_statement : Prop := ∀ (W : World) (O : Opts) (t : Cls), OneItemType W → PropsNamed W → W.isRecord t = true → ∃ n i, reflect W O n t = .ok i

/-- C85: it returns for exactly the types that do not have types within types without end. -/
theorem C85_partial (hI : OneItemType W) (hN : PropsNamed W) {t : Cls} (hr : W.isRecord t = true) : (∃ n i, reflect W O n t = .ok i) ↔ ¬ Endless W O t := by
  have h1 : (∃ n i, reflect W O n t = .ok i) ↔ ∃ n i, map W O n [] t = .ok i := by simp [reflect, hr]
  rw [h1, ← show Acc (fun b a => Uses W O a b) ([], t) ↔ ¬ Endless W O t from acc_iff]
  constructor
  · rintro ⟨n, i, h⟩
    exact ok_acc (a := ([], t)) hI hN h
  · intro h
    exact acc_ok (a := ([], t)) hI h

/-- `Tree` (0), with a label and children: a `TreeList` (1), whose items are trees. -/
def treeWorld : World := ⟨fun t => if t = 0 then "Tree" else if t = 1 then "TreeList" else "str", fun t => t == 0 || t == 1, fun t => t == 1,
  fun t => if t = 0 then [⟨"label", .one 2, false⟩, ⟨"children", .one 1, false⟩] else [], fun _ => .one 0⟩

/-- Without a filter. -/
def allOpts : Opts := ⟨false, fun _ _ => true⟩

/-- Down the tree. -/
def treeChain : Nat → List Place × Cls
  | 0 => ([], 0)
  | k + 1 => if (treeChain k).2 = 0 then ((treeChain k).1 ++ [.prop "children"], 1) else ((treeChain k).1 ++ [.item 0], 0)

theorem tree_one : OneItemType treeWorld := fun _ _ _ => ⟨0, rfl⟩

theorem tree_named : PropsNamed treeWorld := by
  intro t
  simp only [treeWorld]
  split <;> decide

theorem tree_endless : Endless treeWorld allOpts 0 := by
  refine ⟨treeChain, rfl, ?_⟩
  have h01 : ∀ k, (treeChain k).2 = 0 ∨ (treeChain k).2 = 1 := by
    intro k
    cases k with
    | zero => exact .inl rfl
    | succ k => simp only [treeChain]; split <;> simp
  intro k
  simp only [treeChain]
  have := h01 k
  generalize treeChain k = c at this ⊢
  obtain ⟨cue, t⟩ := c
  simp only at this ⊢
  rcases this with rfl | rfl
  · exact .prop (p := ⟨"children", .one 1, false⟩) rfl (by simp [treeWorld]) (by simp [Shown, allOpts]) (.one rfl rfl)
  · exact .item rfl rfl rfl

/-- C85: it does not return for a tree. -/
theorem C85_violated : ¬ C85_statement := by
  intro h
  exact (C85_partial tree_one tree_named rfl).1 (h treeWorld allOpts 0 tree_one tree_named rfl) tree_endless

/-- C85: otherwise it exceeds any recursion limit. -/
theorem C85_recursion (hI : OneItemType W) (hN : PropsNamed W) {t : Cls} (hr : W.isRecord t = true) (h : Endless W O t) (n : Nat) :
    reflect W O n t = .error .recursion := by
  cases hn : reflect W O n t with
  | ok i => exact absurd h ((C85_partial hI hN hr).1 ⟨n, i, hn⟩)
  | error e =>
    simp only [reflect, hr, if_true] at hn
    rw [map_error hI hn]

/-- C85: the limit makes no difference to what is returned. -/
theorem C85_same (hI : OneItemType W) {t : Cls} {n m : Nat} {i j : Info} (h : reflect W O n t = .ok i) (h' : reflect W O m t = .ok j) : i = j := by
  unfold reflect at h h'
  split at h
  · rename_i hr
    simp only [hr, if_true] at h'
    have h1 := map_mono' hI (Nat.le_max_left n m) h
    have h2 := map_mono' hI (Nat.le_max_right n m) h'
    rw [h1] at h2
    cases h2
    rfl
  · cases h

/-- C86: any record type that a property can have is in the description. -/
def C86_statement : Prop := ∀ (W : World) (O : Opts) (t : Cls) (n : Nat) (i : Info), OneItemType W → PropsNamed W → reflect W O n t = .ok i →
  ∀ p ∈ W.props t, Shown O [] p → ∀ t' ∈ isaTypes p.isa, W.isRecord t' = true → Mentions i (W.name t')

/-- `Owner` (0), with a pet: a `Cat` (1) or a `Dog` (2). -/
def petWorld : World := ⟨fun t => if t = 0 then "Owner" else if t = 1 then "Cat" else "Dog", fun _ => true, fun _ => false,
  fun t => if t = 0 then [⟨"pet", .union [1, 2], false⟩] else [], fun _ => .none⟩

theorem not_mentions_str {s n : String} : ¬ Mentions (.str s) n := by
  intro h
  cases h with
  | here h => cases h
  | down h _ => cases h

/-- C86: of a cat or dog, only the cat is described. -/
theorem C86_violated : ¬ C86_statement := by
  intro h
  have hN : PropsNamed petWorld := by
    intro t
    simp only [petWorld]
    split <;> decide
  have := h petWorld allOpts 0 3 (.obj [("name", .str "Owner"), ("properties", .obj [("pet", .obj [("name", .str "Cat")])])]) (fun _ _ hc => by cases hc) hN
    (by with_unfolding_all rfl) ⟨"pet", .union [1, 2], false⟩ (by simp [petWorld]) (by simp [Shown, allOpts]) 2 (by simp [isaTypes]) rfl
  have e : petWorld.name 2 = "Dog" := rfl
  rw [e] at this
  have h3 : ¬ Mentions (.obj [("name", .str "Cat")]) "Dog" := by
    intro h
    cases h with
    | here h => simp [infoGet, alookup] at h
    | @down _ j k _ h h' =>
      simp only [infoGet, alookup] at h
      split at h
      · cases h; exact not_mentions_str h'
      · cases h
  have h2 : ¬ Mentions (.obj [("pet", .obj [("name", .str "Cat")])]) "Dog" := by
    intro h
    cases h with
    | here h => simp [infoGet, alookup] at h
    | @down _ j k _ h h' =>
      simp only [infoGet, alookup] at h
      split at h
      · cases h; exact h3 h'
      · cases h
  cases this with
  | here h => simp [infoGet, alookup] at h
  | @down _ j k _ h h' =>
    simp only [infoGet, alookup] at h
    split at h
    · cases h; exact not_mentions_str h'
    · split at h
      · cases h; exact h2 h'
      · cases h

/-- C86: what is returned describes the type: its name, the properties that are shown and no others, the type of the
items; of several record types, the first. -/
theorem C86_partial (hI : OneItemType W) (hN : PropsNamed W) {t : Cls} {n : Nat} {i : Info} (h : reflect W O n t = .ok i) : Describes W O [] t i := by
  unfold reflect at h
  split at h
  · exact map_describes hI hN h
  · cases h

/-- C86: all the types that are used, however deep, are in it. -/
theorem C86_mentions_partial (hI : OneItemType W) (hN : PropsNamed W) {t : Cls} {n : Nat} {i : Info} (h : reflect W O n t = .ok i) {b : List Place × Cls}
    (hb : Relation.ReflTransGen (Uses W O) ([], t) b) : Mentions i (W.name b.2) := by
  have : ∃ j, Describes W O b.1 b.2 j ∧ ∀ n, Mentions j n → Mentions i n := by
    induction hb with
    | refl => exact ⟨i, C86_partial hI hN h, fun _ h => h⟩
    | tail _ hu ih =>
      obtain ⟨j, hj, hm⟩ := ih
      obtain ⟨j', hj', hm'⟩ := uses_mentions hj hu
      exact ⟨j', hj', fun n hn => hm n (hm' n hn)⟩
  obtain ⟨j, hj, hm⟩ := this
  exact hm _ (.here (describes_name hj))

/-- C86: only records can be described. -/
theorem C86_records {t : Cls} (h : W.isRecord t = false) (n : Nat) : reflect W O n t = .error .typeError := by
  simp [reflect, h]

/-! ## Cases -/

/-- `Shelf` (0), with a `Books` (1) of `Book` (2), whose title is a `str` (3) and whose note is extraneous. -/
def shelfWorld : World := ⟨fun t => if t = 0 then "Shelf" else if t = 1 then "Books" else if t = 2 then "Book" else "str", fun t => t < 3, fun t => t == 1,
  fun t => if t = 0 then [⟨"books", .one 1, false⟩] else if t = 2 then [⟨"title", .one 3, false⟩, ⟨"note", .one 3, true⟩, ⟨"extra", .none, false⟩] else [],
  fun _ => .one 2⟩

theorem shelf_one : OneItemType shelfWorld := fun _ _ _ => ⟨2, rfl⟩

theorem shelf_named : PropsNamed shelfWorld := by
  intro t
  simp only [shelfWorld]
  repeat' split
  all_goals decide

example : reflect shelfWorld allOpts 5 0 = .ok (.obj [("name", .str "Shelf"), ("properties", .obj [("books", .obj [("name", .str "Books"),
    ("itemtype", .obj [("name", .str "Book"), ("properties", .obj [("title", .obj [("name", .str "title"), ("type", .str "str")]), ("extra", .obj [("name", .str "extra")])])])])])]) := by
  with_unfolding_all rfl

example : ¬ Endless shelfWorld allOpts 0 := (C85_partial shelf_one shelf_named rfl).1 ⟨5, _, by with_unfolding_all rfl⟩

example : reflect treeWorld allOpts 1000 0 = .error .recursion := C85_recursion tree_one tree_named rfl tree_endless 1000

example : Relation.ReflTransGen (Uses shelfWorld allOpts) ([], 0) ([.prop "books", .item 2], 2) := by
  refine .tail (.tail .refl (.prop (p := ⟨"books", .one 1, false⟩) rfl (by simp [shelfWorld]) (by simp [Shown, allOpts]) (.one rfl rfl))) ?_
  exact .item (cue := [.prop "books"]) rfl rfl rfl

end Normalize.Reflect
