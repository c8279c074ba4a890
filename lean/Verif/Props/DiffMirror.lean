import Verif.Lemmas.DiffMirror
import Verif.Props.DiffUnchanged

/-!
# C40: swapping the arguments mirrors the diff
-/

namespace Normalize.Diff
open Ident (IProp ICls Ty ItemTy CollKind Schema readAttr)
open Spec (Real PlainSlots Closed TupIds)
open Gen

/-- ADDED and REMOVED exchanged. -/
def DType.mirror : DType → DType
  | .added => .removed
  | .removed => .added
  | t => t

/-- An entry with ADDED and REMOVED exchanged, and the selectors exchanged. -/
def DInfo.mirror (d : DInfo) : DInfo := ⟨d.kind.mirror, d.other, d.base⟩

theorem DType.mirror_mirror (t : DType) : t.mirror.mirror = t := by cases t <;> rfl

/-- If both run to their ends, the second yields the mirrored entries of the first. -/
def Mirrors (g g' : Gen) : Prop := g.exc = none → g'.exc = none → g'.out.Perm (g.out.map DInfo.mirror)

section Basics

theorem mirrors_nil : Mirrors nil nil := fun _ _ => List.Perm.refl _

theorem mirrors_raise {e : Exc} {g : Gen} : Mirrors (raise e) g := fun h => by simp at h

theorem mirrors_yield (k : DType) (p q : FS) : Mirrors (yield k p q) (yield k.mirror q p) := fun _ _ =>
  List.Perm.refl _

theorem mirrors_append {g h g' h' : Gen} (h1 : Mirrors g g') (h2 : Mirrors h h') : Mirrors (g ++ h) (g' ++ h') := by
  intro e e'
  obtain ⟨e1, e2⟩ := exc_append.1 e
  obtain ⟨e1', e2'⟩ := exc_append.1 e'
  rw [out_append e1, out_append e1', List.map_append]
  exact (h1 e1 e1').append (h2 e2 e2')

theorem mirrors_cross {g h g' h' : Gen} (h1 : Mirrors g h') (h2 : Mirrors h g') : Mirrors (g ++ h) (g' ++ h') := by
  intro e e'
  obtain ⟨e1, e2⟩ := exc_append.1 e
  obtain ⟨e1', e2'⟩ := exc_append.1 e'
  rw [out_append e1, out_append e1', List.map_append]
  exact ((h2 e2 e1').append (h1 e1 e2')).trans List.perm_append_comm

theorem append_assoc' (g h k : Gen) : g ++ h ++ k = g ++ (h ++ k) := by
  obtain ⟨go, ge⟩ := g
  obtain ⟨ho, he⟩ := h
  obtain ⟨ko, ke⟩ := k
  cases ge <;> cases he
  · show Gen.mk ((go ++ ho) ++ ko) ke = Gen.mk (go ++ (ho ++ ko)) ke
    rw [List.append_assoc]
  · rfl
  · rfl
  · rfl

theorem mirrors_when {b b' : Bool} {g g' : Gen} (hb : b = b') (h : Mirrors g g') :
    Mirrors (Gen.when b g) (Gen.when b' g') := by
  subst hb
  cases b
  · exact mirrors_nil
  · exact h

theorem mirrors_bindE {α β : Type} {r : Except Exc α} {r' : Except Exc β} {f : α → Gen} {f' : β → Gen}
    (h : ∀ a a', r = .ok a → r' = .ok a' → Mirrors (f a) (f' a')) : Mirrors (bindE r f) (bindE r' f') := by
  intro e e'
  obtain ⟨a, ha, _⟩ := exc_bindE.1 e
  obtain ⟨a', ha', _⟩ := exc_bindE.1 e'
  subst ha ha'
  exact h a a' rfl rfl e e'

theorem mirrors_forEach {α β : Type} {f : α → Gen} {f' : β → Gen} {l : List α} {l' : List β} (m : α → β)
    (hl : l'.Perm (l.map m)) (h : ∀ x ∈ l, Mirrors (f x) (f' (m x))) : Mirrors (forEach f l) (forEach f' l') := by
  intro e e'
  rw [out_forEach (exc_forEach.1 e), out_forEach (exc_forEach.1 e')]
  refine (List.Perm.flatMap_right _ hl).trans ?_
  have e2 : ∀ x ∈ l, (f' (m x)).exc = none := fun x hx =>
    exc_forEach.1 e' (m x) (hl.mem_iff.2 (List.mem_map_of_mem hx))
  have e1 := exc_forEach.1 e
  clear hl e e'
  induction l with
  | nil => simp
  | cons x l ih =>
    simp only [List.map_cons, List.flatMap_cons, List.map_append]
    exact (h x (by simp) (e1 x (by simp)) (e2 x (by simp))).append
      (ih (fun y hy => h y (by simp [hy])) (fun y hy => e2 y (by simp [hy])) (fun y hy => e1 y (by simp [hy])))

end Basics

variable {E F : Type} [DecidableEq E] [DecidableEq F] {H : Hooks E F} {o : Opts}

/-! ## Matched members -/

theorem mirrors_matched (fa fb : FS) (k : Comp × Comp) : Mirrors (matched o fa fb k) (matched o fb fa k.swap) := by
  unfold matched
  have : decide (k.swap.1 ≠ k.swap.2) = decide (k.1 ≠ k.2) := by
    by_cases h : k.1 = k.2
    · simp [h]
    · have h' : ¬ k.2 = k.1 := fun e => h e.symm
      simp [h, h']
  rw [this]
  split
  · exact mirrors_yield _ _ _
  · exact mirrors_when rfl (mirrors_yield _ _ _)

section Common
variable {J : Type} [DecidableEq J]

theorem common_nodup_eq {A B : List (Ent J)} (hA : (A.map (·.1)).Nodup) : common A B =
    ((A.map (·.1)).filter (fun i => decide (i ∈ B.map (·.1)))).filterMap
      (fun i => match alookup A i, alookup B i with
        | some x, some y => some (x, y)
        | _, _ => none) := by
  have key : ∀ (M : List (Ent J)), (∀ e ∈ M, alookup A e.1 = some e.2) → common M B =
      ((M.map (·.1)).filter (fun i => decide (i ∈ B.map (·.1)))).filterMap
      (fun i => match alookup A i, alookup B i with
        | some x, some y => some (x, y)
        | _, _ => none) := by
    intro M hM
    induction M with
    | nil => rfl
    | cons e M ih =>
      have ih' := ih (fun x hx => hM x (by simp [hx]))
      have he := hM e (by simp)
      unfold common at ih' ⊢
      rw [List.filterMap_cons, List.map_cons, List.filter_cons]
      cases hb : alookup B e.1 with
      | none =>
        have : e.1 ∉ B.map (·.1) := by
          intro hin
          have := (alookup_isSome B e.1).2 hin
          rw [hb] at this
          simp at this
        simp [commonEnt, hb, this, ih']
      | some kb =>
        have : e.1 ∈ B.map (·.1) := (alookup_isSome B e.1).1 (by rw [hb]; rfl)
        simp only [commonEnt, hb, this, decide_true, if_true]
        rw [List.filterMap_cons]
        simp only [he, hb, ih']
  exact key A (fun e he => alookup_nodup hA he)

theorem common_swap {A B : List (Ent J)} (hA : (A.map (·.1)).Nodup) (hB : (B.map (·.1)).Nodup) :
    (common B A).Perm ((common A B).map Prod.swap) := by
  rw [common_nodup_eq hA, common_nodup_eq hB, List.map_filterMap]
  have h1 : ((B.map (·.1)).filter (fun i => decide (i ∈ A.map (·.1)))).Perm
      ((A.map (·.1)).filter (fun i => decide (i ∈ B.map (·.1)))) := by
    rw [List.perm_ext_iff_of_nodup (hB.filter _) (hA.filter _)]
    intro i
    simp only [List.mem_filter, decide_eq_true_eq]
    exact and_comm
  have h2 := h1.filterMap (fun i => match alookup B i, alookup A i with
        | some x, some y => some (x, y)
        | _, _ => none)
  refine h2.trans (List.Perm.of_eq ?_)
  congr 1
  funext i
  cases alookup A i <;> cases alookup B i <;> rfl

theorem modifiedKeys_comm {R A : List (Ent J)} : (modifiedKeys A R).Perm (modifiedKeys R A) := by
  unfold modifiedKeys
  rw [List.perm_ext_iff_of_nodup ((List.nodup_dedup _).filter _) ((List.nodup_dedup _).filter _)]
  intro k
  simp only [List.mem_filter, List.mem_dedup, decide_eq_true_eq]
  exact and_comm

end Common

theorem ord_perm (ho : OrdOK H) {α β : Type} {l : List α} {l' : List β} {m : α → β} (h : l'.Perm (l.map m)) :
    (H.ord _ l').Perm ((H.ord _ l).map m) :=
  (ho _ _).trans (h.trans ((ho _ _).symm.map m))

/-! ## Simple containers -/

theorem mirrors_bags (ho : OrdOK H) {fa fb : FS} {A B : List (Ent (Option F))} (hA : (A.map (·.1)).Nodup)
    (hB : (B.map (·.1)).Nodup) : Mirrors (compareBags H o fa fb A B) (compareBags H o fb fa B A) := by
  unfold compareBags
  have hm : ∀ k, decide (k ∈ modifiedKeys (minus B A) (minus A B)) = decide (k ∈ modifiedKeys (minus A B) (minus B A)) :=
    fun k => by simp only [modifiedKeys_comm.mem_iff]
  refine mirrors_append ?_ ?_
  · rw [append_assoc', append_assoc']
    refine mirrors_append (mirrors_when rfl (mirrors_forEach Prod.swap (ord_perm ho (common_swap hA hB))
      (fun k _ => mirrors_matched fa fb k))) (mirrors_cross ?_ ?_)
    · refine mirrors_forEach id (by rw [List.map_id]) (fun e _ => ?_)
      simp only [id, hm]
      exact mirrors_when rfl (mirrors_yield .removed _ _)
    · refine mirrors_forEach id (by rw [List.map_id]) (fun e _ => ?_)
      simp only [id, hm]
      exact mirrors_when rfl (mirrors_yield .added _ _)
  · exact mirrors_forEach id (by rw [List.map_id]; exact (ho _ _).trans (modifiedKeys_comm.trans (ho _ _).symm))
      (fun k _ => mirrors_yield .modified _ _)

theorem bag_nodup {a x : Option Val} {A : List (Ent (Option F))} (h : simpleBag H o a x = .ok A) :
    (A.map (·.1)).Nodup := by
  unfold simpleBag at h
  split at h
  · simp at h
  · split at h
    · simp at h
    · simp only [Except.ok.injEq] at h
      subst h
      exact number_nodup _ _

theorem mirrors_simple (ho : OrdOK H) (hd : o.duckType = false) (a b : Option Val) (fa fb : FS) :
    Mirrors (compareSimple H o a b fa fb) (compareSimple H o b a fb fa) := by
  have hbag : ∀ (a b x : Option Val), simpleBag H o a x = simpleBag H o b x := by
    intro a b x
    unfold simpleBag
    simp [hd]
  unfold compareSimple
  rw [hbag b a b, hbag b a a]
  intro e e'
  obtain ⟨A, hA, e⟩ := exc_bindE.1 e
  obtain ⟨B, hB, e⟩ := exc_bindE.1 e
  rw [hA, hB]
  exact mirrors_bags ho (bag_nodup hA) (bag_nodup hB) e (by rw [hA, hB] at e'; exact e')

/-! ## Records -/

/-- `rec` and its mirror image. -/
def RecMirrors (T : Val → Prop) (rec : Rec) : Prop :=
  ∀ a b fa fb, OnO T a → OnO T b → Mirrors (rec a b fa fb) (rec b a fb fa)

theorem mirrors_net {g g' : Gen} (h : Mirrors g g') (fa fb : FS) : Mirrors (net o fa fb g) (net o fb fa g') := by
  unfold net
  cases e : g.exc with
  | some e => exact mirrors_raise
  | none =>
    cases e' : g'.exc with
    | some e => intro _ h; simp at h
    | none =>
      simp only
      have hk : ((g'.out.map (·.kind)).filter (fun t => decide (t ≠ .noChange))).dedup.Perm
          (((g.out.map (·.kind)).filter (fun t => decide (t ≠ .noChange))).dedup.map DType.mirror) := by
        rw [List.perm_ext_iff_of_nodup (List.nodup_dedup _) ((List.nodup_dedup _).map (fun x y hxy => by
          rw [← x.mirror_mirror, hxy, y.mirror_mirror]))]
        intro t
        rw [List.mem_map, List.mem_dedup, List.mem_filter, List.mem_map]
        constructor
        · rintro ⟨⟨d, hd, rfl⟩, ht⟩
          obtain ⟨d', hd', rfl⟩ := List.mem_map.1 ((h e e').mem_iff.1 hd)
          refine ⟨d'.kind, List.mem_dedup.2 (List.mem_filter.2 ⟨List.mem_map_of_mem hd', ?_⟩), rfl⟩
          cases hk : d'.kind <;> simp [DInfo.mirror, DType.mirror, hk] at ht ⊢
        · rintro ⟨k, hk, rfl⟩
          rw [List.mem_dedup, List.mem_filter, List.mem_map] at hk
          obtain ⟨⟨d, hd, rfl⟩, hk⟩ := hk
          refine ⟨⟨d.mirror, (h e e').mem_iff.2 (List.mem_map_of_mem hd), rfl⟩, ?_⟩
          cases hk' : d.kind <;> simp [DType.mirror, hk'] at hk ⊢
      generalize ((g'.out.map (·.kind)).filter (fun t => decide (t ≠ .noChange))).dedup = l' at hk
      generalize ((g.out.map (·.kind)).filter (fun t => decide (t ≠ .noChange))).dedup = l at hk
      match l, hk with
      | [], hk =>
        rw [List.map_nil, List.perm_nil] at hk
        subst hk
        exact mirrors_when rfl (mirrors_yield .noChange _ _)
      | [t], hk =>
        rw [List.map_cons, List.map_nil, List.perm_singleton] at hk
        subst hk
        exact mirrors_yield t _ _
      | _ :: _ :: _, hk => exact mirrors_raise

theorem mirrors_vals (hd : o.duckType = false) {T : Val → Prop} {rec : Rec} (hr : RecMirrors T rec)
    (hsym : ∀ x y, T x → T y → H.itemsEqual x y = .ok true → H.itemsEqual y x = .ok true) {va vb : Option Val}
    (ha : OnO T va) (hb : OnO T vb) (fa fb : FS) :
    Mirrors (compareVals H o rec va vb fa fb) (compareVals H o rec vb va fb fa) := by
  unfold compareVals
  cases va with
  | none =>
    cases vb with
    | none => exact mirrors_nil
    | some y =>
      simp only
      split
      · exact mirrors_net (hr _ _ _ _ ha hb) _ _
      · exact mirrors_yield .added _ _
  | some x =>
    cases vb with
    | none =>
      simp only
      split
      · exact mirrors_net (hr _ _ _ _ ha hb) _ _
      · exact mirrors_yield .removed _ _
    | some y =>
      simp only
      have hc : ((comparable y || comparable x) && (decide (tagOf y = tagOf x) || o.duckType)) =
          ((comparable x || comparable y) && (decide (tagOf x = tagOf y) || o.duckType)) := by
        rw [Bool.or_comm (comparable y), show decide (tagOf y = tagOf x) = decide (tagOf x = tagOf y) from by
          simp only [eq_comm]]
      rw [hc]
      split
      · exact hr _ _ _ _ ha hb
      · refine mirrors_bindE (fun r r' h1 h2 => ?_)
        have : r = r' := by
          cases r <;> cases r'
          · rfl
          · rw [hsym _ _ (hb y rfl) (ha x rfl) h2] at h1; simp at h1
          · rw [hsym _ _ (ha x rfl) (hb y rfl) h1] at h2; simp at h2
          · rfl
        subst this
        split
        · exact mirrors_when rfl (mirrors_yield .noChange _ _)
        · exact mirrors_yield .modified _ _

theorem mirrors_prop (hd : o.duckType = false) (hf : o.compareFilter = none) {T : Val → Prop} (hT : Closed H T)
    {rec : Rec} (hr : RecMirrors T rec)
    (hsym : ∀ x y, T x → T y → H.itemsEqual x y = .ok true → H.itemsEqual y x = .ok true) {a b : Option Val}
    (ha : OnO T a) (hb : OnO T b) (fa fb : FS) (p : IProp) :
    Mirrors (compareProp H o rec a b fa fb p) (compareProp H o rec b a fb fa p) := by
  unfold compareProp
  refine mirrors_when ?_ ?_
  · have h1 := isFiltered_compared hf (p := p) (fs := fa ++ [.str p.name])
    have h2 := isFiltered_compared hf (p := p) (fs := fb ++ [.str p.name])
    rw [Bool.eq_iff_iff, h1, h2]
  · intro e e'
    obtain ⟨va, hva, e⟩ := exc_bindE.1 e
    obtain ⟨vb, hvb, e⟩ := exc_bindE.1 e
    rw [hva, hvb] at e' ⊢
    exact mirrors_vals hd hr hsym (closed_slot hT ha hva) (closed_slot hT hb hvb) _ _ e e'

theorem clsOf_tag {x y : Val} (h : tagOf x = tagOf y) : clsOf x = clsOf y := by
  cases x <;> cases y <;> simp [tagOf] at h <;> simp [clsOf, h]

theorem mirrors_record (hd : o.duckType = false) (hf : o.compareFilter = none) {T : Val → Prop} (hT : Closed H T)
    {rec : Rec} (hr : RecMirrors T rec)
    (hsym : ∀ x y, T x → T y → H.itemsEqual x y = .ok true → H.itemsEqual y x = .ok true) {a b : Option Val}
    (ha : OnO T a) (hb : OnO T b) (fa fb : FS) :
    Mirrors (compareRecord H o rec a b fa fb) (compareRecord H o rec b a fb fa) := by
  unfold compareRecord
  by_cases hc : typeClash o a b = true
  · rw [if_pos hc]
    exact mirrors_raise
  · have hc' : ¬ typeClash o b a = true := by
      intro h
      apply hc
      cases a with
      | none => cases b <;> simp [typeClash] at h
      | some x =>
        cases b with
        | none => simp [typeClash] at h
        | some y =>
          simp only [typeClash] at h ⊢
          rw [show decide (tagOf x = tagOf y) = decide (tagOf y = tagOf x) from by simp only [eq_comm]]
          exact h
    rw [if_neg hc, if_neg hc']
    have hp : propsOf H b a = propsOf H a b := by
      cases a with
      | none => cases b <;> rfl
      | some x =>
        cases b with
        | none => rfl
        | some y =>
          have : tagOf x = tagOf y := by simpa [typeClash, hd] using hc
          have hc : clsOf x = clsOf y := clsOf_tag this
          unfold propsOf
          have h1 : ((some y).orElse (fun _ => some x)).bind clsOf = clsOf y := rfl
          have h2 : ((some x).orElse (fun _ => some y)).bind clsOf = clsOf x := rfl
          rw [h1, h2, hc]
    rw [hp]
    exact mirrors_forEach id (by rw [List.map_id]) (fun p _ => mirrors_prop hd hf hT hr hsym ha hb fa fb p)

/-! ## Collections of records -/

theorem mirrors_descend {T : Val → Prop} (hT : Closed H T) {rec : Rec} (hr : RecMirrors T rec) {a b : Option Val}
    (ha : OnO T a) (hb : OnO T b) (fa fb : FS) (k : Comp × Comp) :
    Mirrors (descend rec a b fa fb k) (descend rec b a fb fa k.swap) := by
  intro e e'
  unfold descend at e e' ⊢
  obtain ⟨x, hx, e⟩ := exc_bindE.1 e
  obtain ⟨y, hy, e⟩ := exc_bindE.1 e
  simp only [Prod.fst_swap, Prod.snd_swap] at e' ⊢
  rw [hx, hy] at e' ⊢
  refine hr _ _ _ _ ?_ ?_ e e'
  · rintro z ⟨⟩; exact closed_item hT ha hx
  · rintro z ⟨⟩; exact closed_item hT hb hy

theorem mirrors_any {g g' : Gen} (h : Mirrors g g') (e : g.exc = none) (e' : g'.exc = none) :
    anyDiffs g = anyDiffs g' := by
  unfold anyDiffs
  rw [Bool.eq_iff_iff, List.any_eq_true, List.any_eq_true]
  have hk : ∀ d : DInfo, (decide (d.mirror.kind ≠ .noChange) = true) ↔ (decide (d.kind ≠ .noChange) = true) := by
    intro d
    cases hd : d.kind <;> simp [DInfo.mirror, DType.mirror, hd]
  constructor
  · rintro ⟨d, hd, hd'⟩
    exact ⟨d.mirror, (h e e').mem_iff.2 (List.mem_map_of_mem hd), (hk d).2 hd'⟩
  · rintro ⟨d, hd, hd'⟩
    obtain ⟨d', h1, rfl⟩ := List.mem_map.1 ((h e e').mem_iff.1 hd)
    exact ⟨d', h1, (hk d').1 hd'⟩

theorem mirrors_fuzzyPair {T : Val → Prop} (hT : Closed H T) {rec : Rec} (hr : RecMirrors T rec) {a b : Option Val}
    (ha : OnO T a) (hb : OnO T b) (fa fb : FS) (p : Ent (Id E) × Ent (Id E)) :
    Mirrors (fuzzyPair o rec a b fa fb p) (fuzzyPair o rec b a fb fa p.swap) := by
  have hdm := mirrors_descend hT hr ha hb fa fb (p.1.2, p.2.2)
  intro e e'
  have e1 : (descend rec a b fa fb (p.1.2, p.2.2)).exc = none := (exc_append.1 e).1
  have e2 : (descend rec b a fb fa (p.1.2, p.2.2).swap).exc = none := (exc_append.1 e').1
  have hany := mirrors_any hdm e1 e2
  have hne : decide (p.swap.1.2 ≠ p.swap.2.2) = decide (p.1.2 ≠ p.2.2) := by
    by_cases h : p.1.2 = p.2.2
    · simp [h]
    · have h' : ¬ p.2.2 = p.1.2 := fun e => h e.symm
      simp [h, h']
  refine mirrors_append hdm ?_ e e'
  rw [hne]
  split
  · exact mirrors_yield .moved _ _
  · exact mirrors_when (by rw [hany]; rfl) (mirrors_yield .noChange _ _)

theorem mirrors_keys (ho : OrdOK H) {T : Val → Prop} (hT : Closed H T) {rec : Rec} (hr : RecMirrors T rec)
    {a b : Option Val} (ha : OnO T a) (hb : OnO T b) (fa fb : FS) (A B : List (Ent (Id E))) :
    Mirrors (compareKeys H rec a b fa fb A B) (compareKeys H rec b a fb fa B A) := by
  unfold compareKeys
  rw [append_assoc', append_assoc']
  refine mirrors_append ?_ (mirrors_cross ?_ ?_)
  · refine mirrors_forEach id ?_ (fun k _ => mirrors_when (Bool.and_comm _ _) ?_)
    · rw [List.map_id]
      refine (ho _ _).trans (List.Perm.trans ?_ (ho _ _).symm)
      rw [List.perm_ext_iff_of_nodup ((List.nodup_dedup _).filter _) ((List.nodup_dedup _).filter _)]
      intro k
      simp only [List.mem_filter, List.mem_dedup, decide_eq_true_eq]
      exact and_comm
    · exact mirrors_descend hT hr ha hb fa fb (k, k)
  · exact mirrors_forEach id (by rw [List.map_id]) (fun k _ => mirrors_yield .removed _ _)
  · exact mirrors_forEach id (by rw [List.map_id]) (fun k _ => mirrors_yield .added _ _)

theorem mirrors_one (ho : OrdOK H) {T : Val → Prop} (hT : Closed H T) {rec : Rec} (hr : RecMirrors T rec)
    {a b : Option Val} (ha : OnO T a) (hb : OnO T b) (hab : (a.isNone || b.isNone) = true)
    (hab' : (a.isSome || b.isSome) = true) (fa fb : FS) (A B : List (Ent (Id E))) :
    Mirrors (compareOne H rec a b fa fb A B) (compareOne H rec b a fb fa B A) := by
  unfold compareOne
  refine mirrors_forEach id ?_ (fun e _ => ?_)
  · rw [List.map_id]
    exact (ho _ _).trans (List.perm_append_comm.trans (ho _ _).symm)
  · unfold descendOne
    cases a with
    | none =>
      cases b with
      | none => simp at hab'
      | some y =>
        refine mirrors_bindE (fun v v' h1 h2 => ?_)
        rw [id, h1] at h2
        cases h2
        exact hr _ _ _ _ ha (by rintro z ⟨⟩; exact closed_item hT hb h1)
    | some x =>
      cases b with
      | some y => simp at hab
      | none =>
        refine mirrors_bindE (fun v v' h1 h2 => ?_)
        rw [id, h1] at h2
        cases h2
        exact hr _ _ _ _ (by rintro z ⟨⟩; exact closed_item hT ha h1) hb

theorem minus_nodup {J : Type} [DecidableEq J] {A : List (Ent J)} (h : (A.map (·.1)).Nodup) (B : List (Ent J)) : (minus A B).Nodup :=
  (h.of_map _).filter _

theorem compareValues_comm {A B : List (Ent (Id E))} (hA : ∀ e ∈ A, e.1.1.isTup = true)
    (hB : ∀ e ∈ B, e.1.1.isTup = true) : compareValues A B = compareValues B A := by
  have key : ∀ {P Q : List (Ent (Id E))}, (∀ e ∈ P, e.1.1.isTup = true) → (∀ e ∈ Q, e.1.1.isTup = true) →
      compareValues P Q = !(P.isEmpty && Q.isEmpty) := by
    intro P Q hP hQ
    unfold compareValues
    cases P with
    | nil =>
      cases Q with
      | nil => rfl
      | cons e Q => simp [hQ e]
    | cons e P => simp [hP e]
  rw [key hA hB, key hB hA, Bool.and_comm]

theorem mirrors_ids (ho : OrdOK H) {T : Val → Prop} (hT : Closed H T) {rec : Rec} (hr : RecMirrors T rec)
    {a b : Option Val} (ha : OnO T a) (hb : OnO T b) (fa fb : FS) {A B : List (Ent (Id E))}
    (nA : (A.map (·.1)).Nodup) (nB : (B.map (·.1)).Nodup) (hA : ∀ e ∈ A, e.1.1.isTup = true)
    (hB : ∀ e ∈ B, e.1.1.isTup = true) :
    Mirrors (compareIds H o rec a b fa fb A B) (compareIds H o rec b a fb fa B A) := by
  have hcom : (H.ord _ (common B A)).Perm ((H.ord _ (common A B)).map Prod.swap) := ord_perm ho (common_swap nA nB)
  unfold compareIds
  refine mirrors_append (mirrors_when (compareValues_comm hA hB)
    (mirrors_forEach Prod.swap hcom (fun k _ => mirrors_descend hT hr ha hb fa fb k))) ?_
  refine mirrors_bindE (fun ps qs hps hqs => ?_)
  have hperm : qs.Perm (ps.map Prod.swap) := by
    unfold pairsOf at hps hqs
    rw [← compareValues_comm hA hB] at hqs
    split at hps
    · rename_i h
      rw [if_pos h] at hqs
      exact fuzzy_flip ho (fun e he => hA e (mem_minus.1 he).1) (fun e he => hB e (mem_minus.1 he).1)
        (minus_nodup nA B) (minus_nodup nB A) hps hqs
    · rename_i h
      rw [if_neg h] at hqs
      simp only [Except.ok.injEq] at hps hqs
      subst hps hqs
      exact List.Perm.refl _
  have h1 : ∀ e, e ∈ qs.map (·.2) ↔ e ∈ ps.map (·.1) := by
    intro e
    rw [(hperm.map (·.2)).mem_iff, List.map_map]
    rfl
  have h2 : ∀ e, e ∈ qs.map (·.1) ↔ e ∈ ps.map (·.2) := by
    intro e
    rw [(hperm.map (·.1)).mem_iff, List.map_map]
    rfl
  rw [append_assoc', append_assoc' (_ ++ _)]
  refine mirrors_append (mirrors_append (mirrors_forEach Prod.swap hperm
      (fun p _ => mirrors_fuzzyPair hT hr ha hb fa fb p)) (mirrors_when rfl (mirrors_forEach Prod.swap hcom
      (fun k _ => mirrors_matched fa fb k)))) (mirrors_cross ?_ ?_)
  · refine mirrors_forEach id ?_ (fun e _ => mirrors_yield .removed _ _)
    rw [List.map_id]
    simp only [h1]
    exact List.Perm.refl _
  · refine mirrors_forEach id ?_ (fun e _ => mirrors_yield .added _ _)
    rw [List.map_id]
    simp only [h2]
    exact List.Perm.refl _

theorem collBag_facts {T : Val → Prop} (ht : TupIds H T) (hd : o.duckType = false) {c n : String} {kd : CollKind}
    (hcoll : (H.S.cls c).coll = some (kd, .one (.cls n))) {x : Option Val} (hx : OnO T x)
    (hcx : ∀ v, x = some v → clsOf v = some c) {ia : IdArgs} {fa : FS} {A : List (Ent (Id E))}
    (h : collBag H o (idType o (.cls n)) ia fa x = .ok A) :
    (A.map (·.1)).Nodup ∧ ∀ e ∈ A, e.1.1.isTup = true := by
  rw [idType_none hd] at h
  unfold collBag at h
  split at h
  · simp at h
  · rename_i xs hxs
    split at h
    · simp at h
    · rename_i ys hys
      simp only [Except.ok.injEq] at h
      subst h
      refine ⟨number_nodup _ _, fun e he => ?_⟩
      have h1 : e.1.1 ∈ (ys.filter (fun y => !(o.ignoreEmptyItems && idEmpty H y.1))).map (·.1) := by
        rw [← number_ids _ []]
        exact List.mem_map_of_mem (f := fun e : Ent (Id E) => e.1.1) he
      obtain ⟨y, hy, hy'⟩ := List.mem_map.1 h1
      obtain ⟨kv, hkv, hr⟩ := (mapE_mem hys).1 y (List.mem_filter.1 hy).1
      cases hi : H.recId none (ia.selector kv.1) kv.2 with
      | error e => rw [hi] at hr; simp [Except.map] at hr
      | ok i =>
        rw [hi] at hr
        simp [Except.map] at hr
        have : i = e.1.1 := by rw [← hy', ← hr]
        subst this
        cases x with
        | none =>
          simp only [tuplesOf, Except.ok.injEq] at hxs
          subst hxs
          simp at hkv
        | some v =>
          exact ht v c n kd xs kv.1 kv.2 none _ _ (hx v rfl) (hcx v rfl) hcoll hxs (List.mem_filter.1 hkv).1 (.inl rfl) hi

/-- The comparison of collections, up to the properties they do not have. -/
theorem mirrors_coll (ho : OrdOK H) (hd : o.duckType = false) (hf : o.compareFilter = none) {T : Val → Prop}
    (hT : Closed H T) (ht : TupIds H T) {rec : Rec} (hr : RecMirrors T rec) {a b : Option Val} (ha : OnO T a)
    (hb : OnO T b) (fa fb : FS) {c : String} (hca : ∀ v, a = some v → clsOf v = some c)
    (hcb : ∀ v, b = some v → clsOf v = some c) (hab : (a.isSome || b.isSome) = true) :
    Mirrors (compareColl H o rec c a b fa fb) (compareColl H o rec c b a fb fa) := by
  unfold compareColl
  split
  · exact mirrors_raise
  · exact mirrors_raise
  · exact mirrors_simple ho hd a b fa fb
  · rename_i kd n hcoll
    unfold compareRecords
    rw [idArgs_none hf, idArgs_none hf, bindE_ok, bindE_ok]
    refine mirrors_when rfl ?_
    intro e e'
    obtain ⟨A, hA, e⟩ := exc_bindE.1 e
    obtain ⟨B, hB, e⟩ := exc_bindE.1 e
    have hfa : ∀ x, collBag H o (idType o (.cls n)) (.fixed none) fb x = collBag H o (idType o (.cls n)) (.fixed none) fa x :=
      fun x => by simp only [collBag, IdArgs.looksAt]
    rw [hfa, hfa, hA, hB] at e'
    rw [hfa, hfa, hA, hB]
    simp only [bindE_ok] at e' ⊢
    obtain ⟨nA, tA⟩ := collBag_facts ht hd hcoll ha hca hA
    obtain ⟨nB, tB⟩ := collBag_facts ht hd hcoll hb hcb hB
    refine (?_ : Mirrors _ _) e e'
    show Mirrors (compareMembers H o rec a b fa fb A B) (compareMembers H o rec b a fb fa B A)
    unfold compareMembers
    split
    · exact mirrors_keys ho hT hr ha hb fa fb A B
    · rw [Bool.or_comm b.isNone]
      split
      · rename_i h
        exact mirrors_one ho hT hr ha hb h hab fa fb A B
      · exact mirrors_ids ho hT hr ha hb fa fb nA nB tA tB

theorem record_clash {rec : Rec} {x y : Val} (hd : o.duckType = false) {fa fb : FS}
    (h : (compareRecord H o rec (some x) (some y) fa fb).exc = none) : tagOf x = tagOf y := by
  unfold compareRecord at h
  by_cases hc : typeClash o (some x) (some y) = true
  · rw [if_pos hc] at h
    simp at h
  · simpa [typeClash, hd] using hc

theorem dispatch_record {rec : Rec} {x : Val} {b : Option Val} {fa fb : FS} {c : String} (hc : clsOf x = some c)
    (h : (dispatch H o rec (some x) b fa fb).exc = none) : (compareRecord H o rec (some x) b fa fb).exc = none := by
  cases x with
  | atom a => simp [clsOf] at hc
  | list l => simp [clsOf] at hc
  | dict l => simp [clsOf] at hc
  | rcd c s => exact h
  | lcoll c l => exact (exc_append.1 h).2
  | dcoll c l => exact (exc_append.1 h).2

theorem simple_other {w : Val} {a : Option Val} (hw : ∀ xs, tuplesOf (some w) ≠ .ok xs) {fa fb : FS}
    (h : (compareSimple H o a (some w) fa fb).exc = none) : False := by
  obtain ⟨A, hA, h⟩ := exc_bindE.1 h
  obtain ⟨B, hB, _⟩ := exc_bindE.1 h
  unfold simpleBag at hB
  split at hB
  · simp at hB
  · rename_i xs hx
    exact hw xs hx

theorem coll_other (hf : o.compareFilter = none) {rec : Rec} {c c' : String} {s : List (String × Val)} {a : Option Val} {fa fb : FS}
    (h : (compareColl H o rec c a (some (.rcd c' s)) fa fb).exc = none) : False := by
  unfold compareColl at h
  split at h
  · simp at h
  · simp at h
  · exact simple_other (by simp [tuplesOf]) h
  · unfold compareRecords at h
    rw [idArgs_none hf, bindE_ok] at h
    have h := exc_when.1 h rfl
    obtain ⟨A, _, h⟩ := exc_bindE.1 h
    obtain ⟨B, hB, _⟩ := exc_bindE.1 h
    simp [collBag, tuplesOf] at hB

theorem mirrors_diffIter (ho : OrdOK H) (hd : o.duckType = false) (hf : o.compareFilter = none) {T : Val → Prop}
    (hT : Closed H T) (ht : TupIds H T)
    (hsym : ∀ x y, T x → T y → H.itemsEqual x y = .ok true → H.itemsEqual y x = .ok true) :
    ∀ n, RecMirrors T (diffIter H o n) := by
  intro n
  induction n with
  | zero => intro a b fa fb _ _; exact mirrors_raise
  | succ n ih =>
    intro a b fa fb ha hb
    have hsimp := mirrors_simple (H := H) (o := o) ho hd a b fa fb
    have hrec := mirrors_record hd hf hT ih hsym ha hb fa fb
    have hcoll := fun c => mirrors_coll ho hd hf hT ht ih ha hb fa fb (c := c)
    show Mirrors (dispatch H o (diffIter H o n) a b fa fb) (dispatch H o (diffIter H o n) b a fb fa)
    cases a with
    | none =>
      cases b with
      | none => exact mirrors_nil
      | some y =>
        have hcy : ∀ c, clsOf y = some c → Mirrors (compareColl H o (diffIter H o n) c none (some y) fa fb)
            (compareColl H o (diffIter H o n) c (some y) none fb fa) := fun c hc =>
          hcoll c (fun v hv => by simp at hv) (fun v hv => by cases hv; exact hc) rfl
        cases y with
        | atom a => exact mirrors_nil
        | list l => exact hsimp
        | dict l => exact hsimp
        | rcd c s => exact hrec
        | lcoll c l => exact mirrors_append (hcy c rfl) hrec
        | dcoll c l => exact mirrors_append (hcy c rfl) hrec
    | some x =>
      cases b with
      | none =>
        have hcx : ∀ c, clsOf x = some c → Mirrors (compareColl H o (diffIter H o n) c (some x) none fa fb)
            (compareColl H o (diffIter H o n) c none (some x) fb fa) := fun c hc =>
          hcoll c (fun v hv => by cases hv; exact hc) (fun v hv => by simp at hv) rfl
        cases x with
        | atom a => exact mirrors_nil
        | list l => exact hsimp
        | dict l => exact hsimp
        | rcd c s => exact hrec
        | lcoll c l => exact mirrors_append (hcx c rfl) hrec
        | dcoll c l => exact mirrors_append (hcx c rfl) hrec
      | some y =>
        intro e e'
        have hx : ∀ c, clsOf x = some c → tagOf x = tagOf y := fun c hc =>
          record_clash hd (dispatch_record hc e)
        have hy : ∀ c, clsOf y = some c → tagOf y = tagOf x := fun c hc =>
          record_clash hd (dispatch_record hc e')
        have hcc : ∀ c, clsOf x = some c → Mirrors (compareColl H o (diffIter H o n) c (some x) (some y) fa fb)
            (compareColl H o (diffIter H o n) c (some y) (some x) fb fa) := fun c hc =>
          hcoll c (fun v hv => by cases hv; exact hc) (fun v hv => by cases hv; rw [← clsOf_tag (hx c hc)]; exact hc) rfl
        cases x with
        | atom a =>
          cases y with
          | atom b => exact mirrors_nil e e'
          | list l => exact (simple_other (by simp [tuplesOf]) e').elim
          | dict l => exact (simple_other (by simp [tuplesOf]) e').elim
          | rcd c s => simpa [tagOf] using hy c rfl
          | lcoll c l => simpa [tagOf] using hy c rfl
          | dcoll c l => simpa [tagOf] using hy c rfl
        | list l =>
          cases y with
          | atom b => exact (simple_other (by simp [tuplesOf]) e).elim
          | list l => exact hsimp e e'
          | dict l => exact hsimp e e'
          | rcd c s => simpa [tagOf] using hy c rfl
          | lcoll c l => simpa [tagOf] using hy c rfl
          | dcoll c l => simpa [tagOf] using hy c rfl
        | dict l =>
          cases y with
          | atom b => exact (simple_other (by simp [tuplesOf]) e).elim
          | list l => exact hsimp e e'
          | dict l => exact hsimp e e'
          | rcd c s => simpa [tagOf] using hy c rfl
          | lcoll c l => simpa [tagOf] using hy c rfl
          | dcoll c l => simpa [tagOf] using hy c rfl
        | rcd c s =>
          have ht := hx c rfl
          cases y with
          | atom b => simp [tagOf] at ht
          | list l => simp [tagOf] at ht
          | dict l => simp [tagOf] at ht
          | rcd c' s' => exact hrec e e'
          | lcoll c' l => exact (coll_other hf (exc_append.1 e').1).elim
          | dcoll c' l => exact (coll_other hf (exc_append.1 e').1).elim
        | lcoll c l =>
          have ht := hx c rfl
          cases y with
          | atom b => simp [tagOf] at ht
          | list l => simp [tagOf] at ht
          | dict l => simp [tagOf] at ht
          | rcd c' s' => exact (coll_other hf (exc_append.1 e).1).elim
          | lcoll c' l' =>
            have : c = c' := by simpa [tagOf] using ht
            subst this
            exact mirrors_append (hcc c rfl) hrec e e'
          | dcoll c' l' =>
            have : c = c' := by simpa [tagOf] using ht
            subst this
            exact mirrors_append (hcc c rfl) hrec e e'
        | dcoll c l =>
          have ht := hx c rfl
          cases y with
          | atom b => simp [tagOf] at ht
          | list l => simp [tagOf] at ht
          | dict l => simp [tagOf] at ht
          | rcd c' s' => exact (coll_other hf (exc_append.1 e).1).elim
          | lcoll c' l' =>
            have : c = c' := by simpa [tagOf] using ht
            subst this
            exact mirrors_append (hcc c rfl) hrec e e'
          | dcoll c' l' =>
            have : c = c' := by simpa [tagOf] using ht
            subst this
            exact mirrors_append (hcc c rfl) hrec e e'

/-! ## C40 -/

/-- C40, for any methods of DiffOptions: over a family of objects that comparisons do not leave, on which `==` is
symmetric and identities are tuples, `diff(b, a)` is `diff(a, b)` with ADDED and REMOVED exchanged and the
selectors exchanged. -/
theorem C40_mirror (ho : OrdOK H) (hd : o.duckType = false) (hf : o.compareFilter = none) {T : Val → Prop}
    (hT : Closed H T) (ht : TupIds H T)
    (hsym : ∀ x y, T x → T y → H.itemsEqual x y = .ok true → H.itemsEqual y x = .ok true) (n : Nat) (a b : Val)
    (ha : T a) (hb : T b) (hend : (diff H o n a b).exc = none) (hend' : (diff H o n b a).exc = none) :
    (diff H o n b a).out.Perm ((diff H o n a b).out.map DInfo.mirror) :=
  mirrors_diffIter ho hd hf hT ht hsym n _ _ _ _ (by rintro z ⟨⟩; exact ha) (by rintro z ⟨⟩; exact hb) hend hend'

/-- C40 for the default methods. -/
theorem C40_default (D : Setup) (hc : Spec.CompareFlat D) (ho : OrdOK D.hooks) (L : Ident.AtomLaws D.S)
    (hd : o.duckType = false) (hf : o.compareFilter = none) (n : Nat) (a b : Val) (ha : Real D.S a) (hb : Real D.S b)
    (hend : (diff D.hooks o n a b).exc = none) (hend' : (diff D.hooks o n b a).exc = none) :
    (diff D.hooks o n b a).out.Perm ((diff D.hooks o n a b).out.map DInfo.mirror) :=
  C40_mirror ho hd hf (closed_default D hc) (tupIds_default D)
    (fun x y hx hy h => Ident.veq_symm L x hx.1 y hy.1 h) n a b ha hb hend hend'

/-- With `duck_type` the mirror law fails: the properties of the first argument's class are compared. -/
theorem C40_duck_type_asymmetric :
    let a : Val := .rcd "Word" [("text", .str "a")]
    let b : Val := .rcd "Person" [("id", .int 1)]
    (diff (Ex.hooks {}) { duckType := true } 9 b a).exc = none ∧ (diff (Ex.hooks {}) { duckType := true } 9 a b).exc = none ∧
    ¬ (diff (Ex.hooks {}) { duckType := true } 9 b a).out.Perm
      ((diff (Ex.hooks {}) { duckType := true } 9 a b).out.map DInfo.mirror) := by
  decide +kernel

/-! ## Example -/

namespace Ex

example : (diff (hooks {}) { unchanged := true, moved := true } 9 docA docB).exc = none ∧
    (diff (hooks {}) { unchanged := true, moved := true } 9 docB docA).exc = none ∧
    (diff (hooks {}) {} 9 docA docB).out.any (fun d => decide (d.kind = .added)) = true ∧
    (diff (hooks {}) {} 9 docA docB).out.any (fun d => decide (d.kind = .removed)) = true := by decide +kernel

example : (diff (hooks {}) {} 9 docB docA).out.Perm ((diff (hooks {}) {} 9 docA docB).out.map DInfo.mirror) :=
  C40_default (setup {}) (.none fun _ => rfl) (ordOK {}) laws rfl rfl 9 docA docB real_docA real_docB (by decide +kernel)
    (by decide +kernel)

end Ex

end Normalize.Diff
