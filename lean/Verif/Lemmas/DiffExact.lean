import Verif.Lemmas.DiffAgree2

/-!
# The exact entries of a comparison of containers
-/

namespace Normalize.Diff
open Ident (IProp ICls Ty ItemTy CollKind Schema readAttr)
open Spec (Labels Items Members nth Real PlainSlots KeysOK)
open Gen

/-! ## Loops that yield -/

theorem exc_yields {α : Type} (c : α → Bool) (k : DType) (f g : α → FS) (l : List α) :
    (forEach (fun e => Gen.when (c e) (yield k (f e) (g e))) l).exc = none := by
  rw [exc_forEach]
  intro x _
  rw [exc_when]
  intro _
  rfl

theorem out_yields {α : Type} (c : α → Bool) (k : DType) (f g : α → FS) (l : List α) :
    (forEach (fun e => Gen.when (c e) (yield k (f e) (g e))) l).out =
      (l.filter c).map (fun e => ⟨k, f e, g e⟩) := by
  induction l with
  | nil => simp
  | cons x xs ih =>
    rw [forEach_cons, out_append (by rw [exc_when]; intro _; rfl), ih]
    cases h : c x <;> simp [h]

theorem exc_yields' {α : Type} (k : DType) (f g : α → FS) (l : List α) :
    (forEach (fun e => yield k (f e) (g e)) l).exc = none := by
  rw [exc_forEach]
  intro x _
  rfl

theorem out_yields' {α : Type} (k : DType) (f g : α → FS) (l : List α) :
    (forEach (fun e => yield k (f e) (g e)) l).out = l.map (fun e => ⟨k, f e, g e⟩) := by
  induction l with
  | nil => simp
  | cons x xs ih =>
    rw [forEach_cons, out_append (by rfl), ih]
    simp

section
variable {E F : Type} [DecidableEq E] [DecidableEq F] {H : Hooks E F} {o : Opts}

theorem exc_matched (fa fb : FS) (k : Comp × Comp) : (matched o fa fb k).exc = none := by
  unfold matched
  split
  · rfl
  · rw [exc_when]; intro _; rfl

theorem exc_bags (fa fb : FS) (A B : List (Ent (Option F))) : (compareBags H o fa fb A B).exc = none := by
  unfold compareBags
  rw [exc_append, exc_append, exc_append]
  refine ⟨⟨⟨?_, exc_yields _ _ _ _ _⟩, exc_yields _ _ _ _ _⟩, exc_yields' _ _ _ _⟩
  rw [exc_when]
  intro _
  rw [exc_forEach]
  intro x _
  exact exc_matched _ _ _

/-- The entries for matched members. -/
def matchedOut (H : Hooks E F) (o : Opts) (fa fb : FS) {J : Type} [DecidableEq J] (A B : List (Ent J)) : List DInfo :=
  (Gen.when (o.unchanged || o.moved) (forEach (matched o fa fb) (H.ord _ (common A B)))).out

theorem out_bags (fa fb : FS) (A B : List (Ent (Option F))) : (compareBags H o fa fb A B).out =
    matchedOut H o fa fb A B ++
    ((H.ord _ (minus A B)).filter (fun e => !decide (e.2 ∈ modifiedKeys (minus A B) (minus B A)))).map
      (fun e => ⟨.removed, fa ++ [e.2], fb⟩) ++
    ((H.ord _ (minus B A)).filter (fun e => !decide (e.2 ∈ modifiedKeys (minus A B) (minus B A)))).map
      (fun e => ⟨.added, fa, fb ++ [e.2]⟩) ++
    (H.ord _ (modifiedKeys (minus A B) (minus B A))).map (fun k => ⟨.modified, fa ++ [k], fb ++ [k]⟩) := by
  have h := exc_bags (H := H) (o := o) fa fb A B
  unfold compareBags at h ⊢
  rw [exc_append, exc_append, exc_append] at h
  obtain ⟨⟨⟨h1, h2⟩, h3⟩, h4⟩ := h
  rw [out_append (exc_append.2 ⟨exc_append.2 ⟨h1, h2⟩, h3⟩), out_append (exc_append.2 ⟨h1, h2⟩), out_append h1,
    out_yields, out_yields, out_yields']
  rfl

theorem matchedOut_kind {fa fb : FS} {J : Type} [DecidableEq J] {A B : List (Ent J)} {d : DInfo}
    (h : d ∈ matchedOut H o fa fb A B) : d.kind = .noChange ∨ d.kind = .moved := by
  obtain ⟨_, h⟩ := mem_when h
  obtain ⟨k, _, h⟩ := mem_forEach h
  rcases mem_matched h with ⟨_, _, rfl⟩ | ⟨_, rfl⟩ <;> simp

/-! ## Bags of real containers -/

theorem mapE_of_labels {α ι : Type} {f : α → Except Exc ι} {g : α → Comp} {keep : ι → Bool} {xs : List α}
    {la : List (ι × α)} (h : Labels f keep xs la) :
    ∃ ys, mapE (fun a => (f a).map (fun i => (i, g a))) xs = .ok ys ∧
      ys.filter (fun y => keep y.1) = la.map (fun e => (e.1, g e.2)) := by
  induction h with
  | nil => exact ⟨[], rfl, rfl⟩
  | @keep a i as l hf hk _ ih =>
    obtain ⟨ys, h1, h2⟩ := ih
    refine ⟨(i, g a) :: ys, ?_, by simp [hk, h2]⟩
    simp only [mapE, hf, h1]
    rfl
  | @skip a i as l hf hk _ ih =>
    obtain ⟨ys, h1, h2⟩ := ih
    refine ⟨(i, g a) :: ys, ?_, by simp [hk, h2]⟩
    simp only [mapE, hf, h1]
    rfl

theorem simpleBag_of_items (hd : o.duckType = false) {a : Option Val} {x : Val}
    {la : List (Option F × (Comp × Val))} (h : Items H o x la) :
    simpleBag H o a (some x) = .ok (number [] (keyed la)) := by
  obtain ⟨xs, h1, h2⟩ := h
  obtain ⟨ys, h3, h4⟩ := mapE_of_labels (g := fun kv : Comp × Val => kv.1) h2
  unfold simpleBag
  simp only [hd, Bool.false_eq_true, if_false, h1, h3, h4]
  rfl

theorem collBag_of_members {fa : FS} {x : Val} {la : List (Id E × (Comp × Val))} (h : Members H o x la) :
    collBag H o none (.fixed none) fa (some x) = .ok (number [] (keyed la)) := by
  obtain ⟨xs, h1, h2⟩ := h
  obtain ⟨ys, h3, h4⟩ := mapE_of_labels (g := fun kv : Comp × Val => kv.1) h2
  have h3' : mapE (fun kv : Comp × Val => (H.recId none ((IdArgs.fixed none).selector kv.1) kv.2).map
      (fun i => (i, kv.1))) xs = .ok ys := h3
  unfold collBag
  have hf : xs.filter (fun kv => (IdArgs.fixed none).looksAt fa kv.1) = xs := by simp [IdArgs.looksAt]
  simp only [h1, hf, h3', h4]
  rfl

theorem tuples_nodup {x : Val} (hx : KeysOK x) {xs : List (Comp × Val)} (h : tuplesOf (some x) = .ok xs) :
    (xs.map (·.1)).Nodup := by
  have hl : ∀ l : List Val, ((Ident.enum l).map (·.1)).Nodup := by
    intro l
    simp only [Ident.enum, List.map_map]
    have h1 : ((l.zipIdx).map (fun p : Val × Nat => p.2)).Nodup := by
      rw [show ((l.zipIdx).map (fun p : Val × Nat => p.2)) = List.range' 0 l.length from by simp]
      exact List.nodup_range'
    have h2 := h1.map (f := fun i : Nat => (Comp.int i)) (fun a b e => by
      simp only [Comp.int.injEq] at e; exact_mod_cast e)
    rw [List.map_map] at h2
    exact h2
  cases x with
  | atom a => simp [tuplesOf] at h
  | rcd c s => simp [tuplesOf] at h
  | list l => simp [tuplesOf] at h; subst h; exact hl l
  | lcoll c l => simp [tuplesOf] at h; subst h; exact hl l
  | dict l => simp [tuplesOf] at h; subst h; exact hx
  | dcoll c l => simp [tuplesOf] at h; subst h; exact hx

theorem keyed_keys {ι : Type} (la : List (ι × (Comp × Val))) : (keyed la).map (·.2) = (la.map (·.2)).map (·.1) := by
  simp [keyed]

theorem keyed_ids {ι : Type} (la : List (ι × (Comp × Val))) : (keyed la).map (·.1) = la.map (·.1) := by
  simp [keyed]

theorem items_keys {x : Val} (hx : KeysOK x) {la : List (Option F × (Comp × Val))} (h : Items H o x la) :
    ((keyed la).map (·.2)).Nodup := by
  obtain ⟨xs, h1, h2⟩ := h
  rw [keyed_keys]
  exact ((labels_sublist h2).map _).nodup (tuples_nodup hx h1)

theorem members_keys {x : Val} (hx : KeysOK x) {la : List (Id E × (Comp × Val))} (h : Members H o x la) :
    ((keyed la).map (·.2)).Nodup := by
  obtain ⟨xs, h1, h2⟩ := h
  rw [keyed_keys]
  exact ((labels_sublist h2).map _).nodup (tuples_nodup hx h1)

/-! ## The comparison of two containers -/

theorem record_nil (hp : PlainSlots H) {rec : Rec} {x y : Val} (hx : ∀ c s, x ≠ .rcd c s) (hy : ∀ c s, y ≠ .rcd c s)
    (ht : tagOf x = tagOf y) (fa fb : FS) : compareRecord H o rec (some x) (some y) fa fb = nil := by
  have h1 : ∀ p, compareProp H o rec (some x) (some y) fa fb p = nil := by
    intro p
    unfold compareProp
    rw [readSlot_coll hx, readSlot_coll hy, hp.unset, hp.unset]
    cases isFiltered o p (fa ++ [.str p.name]) <;> simp [compareVals]
  unfold compareRecord
  rw [if_neg (by simp [typeClash, ht])]
  generalize propsOf H (some x) (some y) = l
  induction l with
  | nil => rfl
  | cons p l ih => rw [forEach_cons, h1, ih]; simp

/-- Two containers of one type with items that are no records. -/
structure SimplePair (H : Hooks E F) (x y : Val) : Prop where
  tags : tagOf x = tagOf y
  kind : ∀ c, clsOf x = some c → ∃ kd t, (H.S.cls c).coll = some (kd, .one (.other t))

theorem diff_simple (hp : PlainSlots H) (hd : o.duckType = false) {x y : Val} (hk : SimplePair H x y)
    {la lb : List (Option F × (Comp × Val))} (ha : Items H o x la) (hb : Items H o y lb) (n : Nat) (fa fb : FS) :
    diffIter H o (n + 1) (some x) (some y) fa fb =
      compareBags H o fa fb (number [] (keyed la)) (number [] (keyed lb)) := by
  have hS : compareSimple H o (some x) (some y) fa fb =
      compareBags H o fa fb (number [] (keyed la)) (number [] (keyed lb)) := by
    unfold compareSimple
    rw [simpleBag_of_items hd ha, simpleBag_of_items hd hb]
    rfl
  have hnx := not_rcd_of_items ha
  have hny := not_rcd_of_items hb
  have hN := record_nil hp (rec := diffIter H o n) (o := o) hnx hny hk.tags fa fb
  have hC : ∀ c, clsOf x = some c → compareColl H o (diffIter H o n) c (some x) (some y) fa fb =
      compareBags H o fa fb (number [] (keyed la)) (number [] (keyed lb)) := by
    intro c hc
    obtain ⟨kd, t, h⟩ := hk.kind c hc
    unfold compareColl
    rw [h]
    exact hS
  show dispatch H o (diffIter H o n) (some x) (some y) fa fb = _
  cases x with
  | atom a => obtain ⟨xs, h, _⟩ := ha; simp [tuplesOf] at h
  | rcd c s => exact absurd rfl (hnx c s)
  | list l => exact hS
  | dict l => exact hS
  | lcoll c l =>
    have : dispatch H o (diffIter H o n) (some (.lcoll c l)) (some y) fa fb =
      compareColl H o (diffIter H o n) c (some (.lcoll c l)) (some y) fa fb ++
        compareRecord H o (diffIter H o n) (some (.lcoll c l)) (some y) fa fb := rfl
    rw [this, hN, hC c rfl, append_nil]
  | dcoll c l =>
    have : dispatch H o (diffIter H o n) (some (.dcoll c l)) (some y) fa fb =
      compareColl H o (diffIter H o n) c (some (.dcoll c l)) (some y) fa fb ++
        compareRecord H o (diffIter H o n) (some (.dcoll c l)) (some y) fa fb := rfl
    rw [this, hN, hC c rfl, append_nil]

/-- Two collections of records of one class. -/
structure RecordsPair (H : Hooks E F) (x y : Val) (c n : String) : Prop where
  left : clsOf x = some c
  right : clsOf y = some c
  kind : ∃ kd, (H.S.cls c).coll = some (kd, .one (.cls n))

theorem diff_records (hp : PlainSlots H) (hd : o.duckType = false) (hf : o.compareFilter = none) {x y : Val}
    {c m : String} (hk : RecordsPair H x y c m) {la lb : List (Id E × (Comp × Val))} (ha : Members H o x la)
    (hb : Members H o y lb) (n : Nat) (fa fb : FS) : diffIter H o (n + 1) (some x) (some y) fa fb =
      compareMembers H o (diffIter H o n) (some x) (some y) fa fb (number [] (keyed la)) (number [] (keyed lb)) := by
  have hnx := not_rcd_of_members ha
  have hny := not_rcd_of_members hb
  have ht : tagOf x = tagOf y := by
    have h1 := hk.left
    have h2 := hk.right
    cases x <;> cases y <;> simp [clsOf] at h1 h2 <;> simp [tagOf, h1, h2]
  have hN := record_nil hp (rec := diffIter H o n) (o := o) hnx hny ht fa fb
  have hC : compareColl H o (diffIter H o n) c (some x) (some y) fa fb =
      compareMembers H o (diffIter H o n) (some x) (some y) fa fb (number [] (keyed la)) (number [] (keyed lb)) := by
    obtain ⟨kd, h⟩ := hk.kind
    unfold compareColl
    rw [h]
    simp only [compareRecords]
    rw [idArgs_none hf, idType_none hd, bindE_ok, collBag_of_members ha, collBag_of_members hb]
    rfl
  show dispatch H o (diffIter H o n) (some x) (some y) fa fb = _
  have hl := hk.left
  cases x with
  | atom a => simp [clsOf] at hl
  | rcd c s => exact absurd rfl (hnx c s)
  | list l => simp [clsOf] at hl
  | dict l => simp [clsOf] at hl
  | lcoll c' l =>
    simp [clsOf] at hl
    subst hl
    have : dispatch H o (diffIter H o n) (some (.lcoll c' l)) (some y) fa fb =
      compareColl H o (diffIter H o n) c' (some (.lcoll c' l)) (some y) fa fb ++
        compareRecord H o (diffIter H o n) (some (.lcoll c' l)) (some y) fa fb := rfl
    rw [this, hN, hC, append_nil]
  | dcoll c' l =>
    simp [clsOf] at hl
    subst hl
    have : dispatch H o (diffIter H o n) (some (.dcoll c' l)) (some y) fa fb =
      compareColl H o (diffIter H o n) c' (some (.dcoll c' l)) (some y) fa fb ++
        compareRecord H o (diffIter H o n) (some (.dcoll c' l)) (some y) fa fb := rfl
    rw [this, hN, hC, append_nil]

end

/-! ## Counting -/

section Number
variable {J : Type} [DecidableEq J]

/-- How many occurrences are left over. -/
theorem count_minus (l m : List (J × Comp)) (j : J) :
    (minus (number [] l) (number [] m)).countP (fun e => decide (e.1.1 = j)) =
      (l.map (·.1)).count j - (m.map (·.1)).count j := by
  rw [List.countP_eq_length_filter, ← List.length_map (f := fun e : Ent J => e.1)]
  have hp : (((minus (number [] l) (number [] m)).filter (fun e => decide (e.1.1 = j))).map (·.1)).Perm
      ((List.range' ((m.map (·.1)).count j) ((l.map (·.1)).count j - (m.map (·.1)).count j)).map
        (fun i => (j, i))) := by
    rw [List.perm_ext_iff_of_nodup]
    · rintro ⟨j', i⟩
      constructor
      · intro h
        obtain ⟨e, he, h2⟩ := List.mem_map.1 h
        rw [List.mem_filter, mem_minus] at he
        obtain ⟨⟨h3, h4⟩, h5⟩ := he
        have h5 : e.1.1 = j := by simpa using h5
        have h6 := List.mem_map_of_mem (f := fun e : Ent J => e.1) h3
        rw [h2] at h4 h5 h6
        simp only at h5
        subst h5
        rw [number_mem] at h4 h6
        simp only [List.mem_map, List.mem_range'_1, Prod.mk.injEq, true_and, exists_eq_right]
        simp at h4 h6
        omega
      · intro h
        simp only [List.mem_map, List.mem_range'_1, Prod.mk.injEq] at h
        obtain ⟨i', h1, rfl, rfl⟩ := h
        have h6 : (j, i') ∈ (number [] l).map (·.1) := by
          rw [number_mem]; simp; omega
        obtain ⟨e, he, h2⟩ := List.mem_map.1 h6
        refine List.mem_map.2 ⟨e, ?_, h2⟩
        rw [List.mem_filter, mem_minus]
        refine ⟨⟨he, ?_⟩, ?_⟩
        · rw [h2, number_mem]; simp; omega
        · rw [h2]; simp
    · have h1 : ((number [] l).map (·.1)).Nodup := number_nodup l []
      refine List.Nodup.sublist (List.Sublist.map _ ?_) h1
      exact List.filter_sublist.trans List.filter_sublist
    · exact List.Nodup.map (fun a b h => by simpa using h) List.nodup_range'
  rw [hp.length_eq]
  simp

theorem minus_keys_nodup {l : List (J × Comp)} (hl : (l.map (·.2)).Nodup) (B : List (Ent J)) :
    ((minus (number [] l) B).map (·.2)).Nodup := by
  have h1 : ((number [] l).map (·.2)).Nodup := by rw [number_keys]; exact hl
  exact List.Nodup.sublist (List.Sublist.map _ List.filter_sublist) h1

end Number

end Normalize.Diff
