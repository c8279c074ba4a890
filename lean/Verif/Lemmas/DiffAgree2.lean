import Verif.Lemmas.DiffAgree

/-!
# When a diff is empty: both sides present
-/

namespace Normalize.Diff
open Ident (IProp ICls Ty ItemTy CollKind Schema readAttr)
open Spec (Labels Items Members nth Real Blank Agree Compared PlainSlots Closed TupIds)
open Gen

variable {E F : Type} [DecidableEq E] [DecidableEq F] {H : Hooks E F} {o : Opts}

/-- Objects that agree have the same identity. -/
def IdSound (H : Hooks E F) (o : Opts) : Prop :=
  ∀ u w i j, Agree H o (some u) (some w) → H.recId none none u = .ok i → H.recId none none w = .ok j → i = j

theorem tags_of_exc {n : Nat} (hs : Basic H o) {u w : Val} {fa fb : FS} (hc : clsOf u ≠ none)
    (h : (diffIter H o n (some u) (some w) fa fb).exc = none) : tagOf u = tagOf w := by
  cases n with
  | zero => simp [diffIter] at h
  | succ n =>
    have h : (dispatch H o (diffIter H o n) (some u) (some w) fa fb).exc = none := h
    have hr : ∀ rec, (compareRecord H o rec (some u) (some w) fa fb).exc = none → tagOf u = tagOf w := by
      intro rec h
      unfold compareRecord at h
      split at h
      · simp at h
      · rename_i ht
        simpa [typeClash, hs.duck] using ht
    unfold dispatch at h
    cases u with
    | atom a => simp [clsOf] at hc
    | list xs => simp [clsOf] at hc
    | dict xs => simp [clsOf] at hc
    | rcd c s => exact hr _ h
    | lcoll c s => exact hr _ (exc_append.1 h).2
    | dcoll c s => exact hr _ (exc_append.1 h).2

theorem simple_two (hs : Basic H o) {x y : Val} {fa fb : FS}
    (h : Still (compareSimple H o (some x) (some y) fa fb)) :
    ∃ la lb, Items H o x la ∧ Items H o y lb ∧ (la.map (·.1)).Perm (lb.map (·.1)) := by
  unfold compareSimple at h
  simp only [still_bindE, still_bags hs.ord] at h
  obtain ⟨A, hA, B, hB, h1⟩ := h
  obtain ⟨la, hla, rfl⟩ := simpleBag_items hs.duck hA
  obtain ⟨lb, hlb, rfl⟩ := simpleBag_items hs.duck hB
  have hp := minus_nil_perm.1 h1
  exact ⟨la, lb, hla, hlb, by simpa [keyed, List.map_map, Function.comp_def] using hp⟩

theorem calm_simple_two (hs : Basic H o) {x y : Val} {fa fb : FS} {la lb : List (Option F × (Comp × Val))}
    (hla : Items H o x la) (hlb : Items H o y lb) (hp : (la.map (·.1)).Perm (lb.map (·.1))) :
    Calm (compareSimple H o (some x) (some y) fa fb) := by
  unfold compareSimple
  refine calm_bindE fun A hA => calm_bindE fun B hB => ?_
  refine ((still_bags hs.ord).2 ?_).calm
  obtain ⟨la', hla', rfl⟩ := simpleBag_items hs.duck hA
  obtain ⟨lb', hlb', rfl⟩ := simpleBag_items hs.duck hB
  rw [items_unique hla' hla, items_unique hlb' hlb]
  exact minus_nil_perm.2 (by simpa [keyed, List.map_map, Function.comp_def] using hp)

theorem members_keyed_perm {la lb : List (Id E × (Comp × Val))} :
    ((keyed la).map (·.1)).Perm ((keyed lb).map (·.1)) ↔ (la.map (·.1)).Perm (lb.map (·.1)) := by
  simp [keyed, List.map_map, Function.comp_def]

/-- Two entries whose items are found where their keys say. -/
theorem descend_items {rec : Rec} {x y : Val} (hx : Real H.S x) (hy : Real H.S y) {fa fb : FS}
    {la lb : List (Id E × (Comp × Val))} (hla : Members H o x la) (hlb : Members H o y lb)
    {u w : Id E × (Comp × Val)} (hu : u ∈ la) (hw : w ∈ lb) :
    descend rec (some x) (some y) fa fb (u.2.1, w.2.1) =
      rec (some u.2.2) (some w.2.2) (fa ++ [u.2.1]) (fb ++ [w.2.1]) := by
  obtain ⟨xs, h1, h2, _⟩ := members_mem hla hu
  obtain ⟨ys, g1, g2, _⟩ := members_mem hlb hw
  have hi : itemAt (some x) u.2.1 = .ok u.2.2 := itemAt_member hx h1 h2
  have hj : itemAt (some y) w.2.1 = .ok w.2.2 := itemAt_member hy g1 g2
  simp only [descend, hi, hj, bindE_ok]

theorem compareValues_tup (hs : Basic H o) {x y : Val} (hx : Real H.S x) (hy : Real H.S y) {c : String} {kd : CollKind}
    {n : String} (hcx : clsOf x = some c) (hcy : clsOf y = some c)
    (hcoll : (H.S.cls c).coll = some (kd, .one (.cls n)))
    {la lb : List (Id E × (Comp × Val))} (hla : Members H o x la) (hlb : Members H o y lb)
    {e : Ent (Id E)} (he : e ∈ number [] (keyed la) ++ number [] (keyed lb)) :
    compareValues (number [] (keyed la)) (number [] (keyed lb)) = true := by
  have htup : ∀ e ∈ number [] (keyed la) ++ number [] (keyed lb), e.1.1.isTup = true := by
    intro e he
    rw [List.mem_append] at he
    rcases he with he | he
    · obtain ⟨u, hu, h1, _⟩ := mem_of_entry he
      obtain ⟨xs, h2, h3, h4⟩ := members_mem hla hu
      rw [← h1]
      exact hs.tup x c n kd xs u.2.1 u.2.2 none none u.1 hx hcx hcoll h2 h3 (.inl rfl) h4
    · obtain ⟨u, hu, h1, _⟩ := mem_of_entry he
      obtain ⟨xs, h2, h3, h4⟩ := members_mem hlb hu
      rw [← h1]
      exact hs.tup y c n kd xs u.2.1 u.2.2 none none u.1 hy hcy hcoll h2 h3 (.inl rfl) h4
  unfold compareValues
  cases hh : (number [] (keyed la) ++ number [] (keyed lb)).head? with
  | none =>
    rw [List.head?_eq_none_iff] at hh
    rw [hh] at he
    simp at he
  | some e' => exact htup e' (List.mem_of_head? hh)

theorem records_two (hs : Std H o) (hfz : o.fuzzyMatch = false ∨ IdSound H o) {n' : Nat}
    {x y : Val} (hx : Real H.S x) (hy : Real H.S y)
    {c : String} {kd : CollKind} {n : String} (hcx : clsOf x = some c) (hcy : clsOf y = some c)
    (hcoll : (H.S.cls c).coll = some (kd, .one (.cls n))) {fa fb : FS}
    (ih : ∀ u w fa fb, Real H.S u → Real H.S w → comparable u = true → tagOf u = tagOf w →
      Still (diffIter H o n' (some u) (some w) fa fb) → Agree H o (some u) (some w))
    (h : Still (compareRecords H o (diffIter H o n') (.cls n) (some x) (some y) fa fb)) :
    Agree H o (some x) (some y) := by
  unfold compareRecords at h
  simp only [idArgs_none hs.filter, idType_none hs.duck, bindE_ok, still_when] at h
  have h := h rfl
  simp only [still_bindE] at h
  obtain ⟨A, hA, B, hB, h⟩ := h
  unfold compareMembers at h
  rw [hs.recurse] at h
  simp only [Bool.false_eq_true, if_false, Option.isNone_some, Bool.or_false] at h
  obtain ⟨la, hla, rfl⟩ := collBag_members hA
  obtain ⟨lb, hlb, rfl⟩ := collBag_members hB
  have hag : ∀ u ∈ la, ∀ w ∈ lb,
      Still (descend (diffIter H o n') (some x) (some y) fa fb (u.2.1, w.2.1)) →
      tagOf u.2.2 = tagOf w.2.2 ∧ Agree H o (some u.2.2) (some w.2.2) := by
    intro u hu w hw hst
    rw [descend_items hx hy hla hlb hu hw] at hst
    have hcu := member_cls hx hcx hcoll hla hu
    exact ⟨tags_of_exc hs hcu hst.exc, ih _ _ _ _ (member_real hs hx hla hu) (member_real hs hy hlb hw)
      (comparable_cls hcu) (tags_of_exc hs hcu hst.exc) hst⟩
  unfold compareIds at h
  simp only [still_append, still_when, still_bindE, still_forEach, hs.ord.mem, still_yield] at h
  obtain ⟨hcom, ps, hps, ⟨⟨⟨hfz', _⟩, hrem⟩, hadd⟩⟩ := h
  have hps0 : ps = [] := by
    rw [List.eq_nil_iff_forall_not_mem]
    intro p hp
    rcases hfz with hfz | hfz
    · simp [pairsOf, hfz] at hps
      subst hps
      simp at hp
    · obtain ⟨h1, h2⟩ := pairs_mem hps hp
      have hst := hfz' p hp
      unfold fuzzyPair at hst
      rw [still_append] at hst
      obtain ⟨u, hu, hu1, hu2⟩ := mem_of_entry (mem_minus.1 h1).1
      obtain ⟨w, hw, hw1, hw2⟩ := mem_of_entry (mem_minus.1 h2).1
      rw [← hu2, ← hw2] at hst
      have ha := (hag u hu w hw hst.1).2
      obtain ⟨_, _, _, hi⟩ := members_mem hla hu
      obtain ⟨_, _, _, hj⟩ := members_mem hlb hw
      have := hfz _ _ _ _ ha hi hj
      rw [hu1, hw1] at this
      exact minus_ids_ne h1 h2 this
  subst hps0
  have hm : minus (number [] (keyed la)) (number [] (keyed lb)) = [] :=
    List.eq_nil_iff_forall_not_mem.2 fun e he => by
      simpa using hrem e (List.mem_filter.2 ⟨he, by simp⟩)
  have hm' : minus (number [] (keyed lb)) (number [] (keyed la)) = [] :=
    List.eq_nil_iff_forall_not_mem.2 fun e he => by
      simpa using hadd e (List.mem_filter.2 ⟨he, by simp⟩)
  refine .records hcx hcy hcoll hla hlb (members_keyed_perm.1 (minus_nil_perm.1 ⟨hm, hm'⟩))
    (fun j m u w hu hw => (?_ : tagOf u.2 = tagOf w.2 ∧ Agree H o (some u.2) (some w.2)).1)
    (fun j m u w hu hw => (?_ : tagOf u.2 = tagOf w.2 ∧ Agree H o (some u.2) (some w.2)).2)
  all_goals
  have hk : (u.1, w.1) ∈ common (number [] (keyed la)) (number [] (keyed lb)) :=
    common_keyed.2 ⟨j, m, u, w, hu, hw, rfl, rfl⟩
  have hcv : compareValues (number [] (keyed la)) (number [] (keyed lb)) = true :=
    compareValues_tup hs hx hy hcx hcy hcoll hla hlb
      (List.mem_append_left _ (nth_keyed.2 ⟨u, hu, rfl⟩))
  exact hag (j, u) (nth_mem hu) (j, w) (nth_mem hw) (hcom hcv _ hk)

/-- Two objects that are compared to the end without a difference agree. -/
theorem agree_of_still (hs : Std H o) (hfz : o.fuzzyMatch = false ∨ IdSound H o) :
    ∀ (n : Nat) (x y : Val) (fa fb : FS), Real H.S x → Real H.S y → comparable x = true → tagOf x = tagOf y →
      Still (diffIter H o n (some x) (some y) fa fb) → Agree H o (some x) (some y)
  | 0, _, _, _, _, _, _, _, _, h => absurd h still_raise
  | n + 1, x, y, fa, fb, hx, hy, hc, ht, h => by
    have ih := agree_of_still hs hfz n
    have h : Still (dispatch H o (diffIter H o n) (some x) (some y) fa fb) := h
    unfold dispatch at h
    have hcoll : ∀ c, clsOf x = some c → clsOf y = some c →
        Still (compareColl H o (diffIter H o n) c (some x) (some y) fa fb) → Agree H o (some x) (some y) := by
      intro c hcx hcy h
      unfold compareColl at h
      split at h
      · exact absurd h still_raise
      · exact absurd h still_raise
      · rename_i kd t hct
        obtain ⟨la, lb, h1, h2, h3⟩ := simple_two hs h
        exact .simple ht (by intro c' hc'; rw [hcx] at hc'; simp at hc'; subst hc'; exact ⟨kd, t, hct⟩) h1 h2 h3
      · rename_i kd m hct
        exact records_two hs hfz hx hy hcx hcy hct (fun u w fa fb => ih u w fa fb) h
    have hcy : ∀ c, tagOf x = some (.cls c) → clsOf y = some c := by
      intro c hc'
      rw [hc'] at ht
      cases y <;> simp [tagOf] at ht <;> simp [clsOf, ht]
    cases x with
    | atom a => simp [comparable, tagOf] at hc
    | list xs =>
      obtain ⟨la, lb, h1, h2, h3⟩ := simple_two hs h
      exact .simple ht (by simp [clsOf]) h1 h2 h3
    | dict xs =>
      obtain ⟨la, lb, h1, h2, h3⟩ := simple_two hs h
      exact .simple ht (by simp [clsOf]) h1 h2 h3
    | lcoll c xs => exact hcoll c rfl (hcy c rfl) (still_append.1 h).1
    | dcoll c xs => exact hcoll c rfl (hcy c rfl) (still_append.1 h).1
    | rcd c s =>
      have hI := hx.2 _ (.self _)
      simp only [Spec.ItemsOK] at hI
      obtain ⟨t, rfl⟩ : ∃ t, y = .rcd c t := by
        have hJ := hy.2 _ (.self _)
        cases y with
        | rcd c' t => simp [tagOf] at ht; subst ht; exact ⟨t, rfl⟩
        | lcoll c' t =>
          simp [tagOf] at ht
          subst ht
          obtain ⟨⟨it, hit⟩, _⟩ := hJ
          rw [hI] at hit
          simp at hit
        | dcoll c' t =>
          simp [tagOf] at ht
          subst ht
          obtain ⟨⟨it, hit⟩, _⟩ := hJ
          rw [hI] at hit
          simp at hit
        | _ => simp [tagOf] at ht
      have h : Still (compareRecord H o (diffIter H o n) (some (.rcd c s)) (some (.rcd c t)) fa fb) := h
      unfold compareRecord at h
      split at h
      · exact absurd h still_raise
      rw [still_forEach] at h
      have hr : ∀ p ∈ (H.S.cls c).props, Compared o p → ∃ va vb,
          H.normSlot (readAttr H.S (.rcd c s) p.name) p (some (.rcd c s)) = .ok va ∧
          H.normSlot (readAttr H.S (.rcd c t) p.name) p (some (.rcd c t)) = .ok vb ∧
          Still (compareVals H o (diffIter H o n) va vb (fa ++ [.str p.name]) (fb ++ [.str p.name])) := by
        intro p hp hcp
        have h := h p ((mem_propsOf rfl).2 hp)
        unfold compareProp at h
        rw [still_when] at h
        have h := h ((isFiltered_compared hs.filter).2 hcp)
        simp only [still_bindE] at h
        obtain ⟨va, hva, vb, hvb, h⟩ := h
        exact ⟨va, vb, hva, hvb, h⟩
      refine .record (slotVal H (.rcd c s)) (slotVal H (.rcd c t)) (fun p hp hcp => ?_) (fun p hp hcp => ?_)
        (fun p hp hcp => ?_)
      · obtain ⟨va, vb, h1, h2, _⟩ := hr p hp hcp
        rw [slotVal_eq h1, h1]
      · obtain ⟨va, vb, h1, h2, _⟩ := hr p hp hcp
        rw [slotVal_eq h2, h2]
      · obtain ⟨va, vb, h1, h2, hst⟩ := hr p hp hcp
        rw [slotVal_eq h1, slotVal_eq h2]
        cases va with
        | none =>
          cases vb with
          | none => exact .unset
          | some w =>
            have hrw := slot_real hs.toBasic hy h2
            obtain ⟨g1, g2, g3⟩ := still_vals_one hs (l := false) hrw hst
            exact .blankR g2 (blank_of_still hs n false w _ _ hrw g1 g3)
        | some u =>
          have hru := slot_real hs.toBasic hx h1
          cases vb with
          | none =>
            obtain ⟨g1, g2, g3⟩ := still_vals_one hs (l := true) hru hst
            exact .blankL g2 (blank_of_still hs n true u _ _ hru g1 g3)
          | some w =>
            have hrw := slot_real hs.toBasic hy h2
            unfold compareVals at hst
            simp only [hs.duck, Bool.or_false] at hst
            split at hst
            · rename_i hd
              simp only [Bool.and_eq_true, Bool.or_eq_true, decide_eq_true_eq] at hd
              have hcu : comparable u = true := by
                rcases hd.1 with h | h
                · exact h
                · unfold comparable at h ⊢
                  rw [hd.2]
                  exact h
              exact ih u w _ _ hru hrw hcu hd.2 hst
            · rename_i hd
              rw [still_bindE] at hst
              obtain ⟨eq, heq, hst⟩ := hst
              cases eq with
              | false =>
                simp only [Bool.false_eq_true, if_false] at hst
                rcases still_yield.1 hst with h | h <;> simp at h
              | true =>
                refine .equal ?_ heq
                by_cases htt : tagOf u = tagOf w
                · left
                  simp only [Bool.and_eq_true, Bool.or_eq_true, decide_eq_true_eq, not_and] at hd
                  cases htu : tagOf u with
                  | none => rfl
                  | some g => exact absurd htt (hd (.inl (by simp [comparable, htu])))
                · exact .inr htt

theorem members_of_bag {fa : FS} {x : Val} {A : List (Ent (Id E))} {la : List (Id E × (Comp × Val))}
    (hla : Members H o x la) (h : collBag H o none (.fixed none) fa (some x) = .ok A) : A = number [] (keyed la) := by
  obtain ⟨la', hla', rfl⟩ := collBag_members h
  rw [members_unique hla' hla]

/-- Objects that agree are compared without a difference. -/
theorem calm_of_agree (hs : Std H o) {a b : Option Val} (h : Agree H o a b) :
    ∀ (n : Nat) (fa fb : FS), OnO (Real H.S) a → OnO (Real H.S) b →
      Calm (compareVals H o (diffIter H o n) a b fa fb) ∧
      ((∀ x y, a = some x → b = some y → comparable x = true ∧ tagOf x = tagOf y) → a.isSome → b.isSome →
        Calm (diffIter H o n a b fa fb)) := by
  -- from the second part to the first
  have key : ∀ (n : Nat) (x y : Val), (∀ fa fb, Calm (diffIter H o n (some x) (some y) fa fb)) → comparable x = true →
      tagOf x = tagOf y → ∀ fa fb, Calm (compareVals H o (diffIter H o n) (some x) (some y) fa fb) := by
    intro n x y h hc ht fa fb
    unfold compareVals
    simp only [hc, Bool.true_or, ht, decide_true, Bool.and_self, if_true]
    exact h fa fb
  induction h with
  | unset => intro n fa fb _ _; exact ⟨calm_nil, by simp⟩
  | @blankL x hi hb =>
    intro n fa fb ha _
    exact ⟨calm_vals_one hi (l := true) (comparable_blank hb) (calm_of_blank hs hi hb n true fa fb (ha x rfl)),
      by simp⟩
  | @blankR x hi hb =>
    intro n fa fb _ hb'
    exact ⟨calm_vals_one hi (l := false) (comparable_blank hb) (calm_of_blank hs hi hb n false fa fb (hb' x rfl)),
      by simp⟩
  | @equal x y ht heq =>
    intro n fa fb _ _
    refine ⟨?_, fun h _ _ => ?_⟩
    · unfold compareVals
      have hd : ((comparable x || comparable y) && (decide (tagOf x = tagOf y) || o.duckType)) = false := by
        rw [hs.duck]
        rcases ht with ht | ht
        · by_cases h : tagOf x = tagOf y
          · have h' := h.symm.trans ht
            simp [comparable, ht, h']
          · simp [h]
        · simp [ht]
      simp only [hd, Bool.false_eq_true, if_false, heq, bindE_ok, if_true]
      exact calm_when fun _ => calm_yield (.inl rfl)
    · obtain ⟨h1, h2⟩ := h x y rfl rfl
      rcases ht with ht | ht
      · simp [comparable, ht] at h1
      · exact absurd h2 ht
  | @record c s t va vb hva hvb _ ih =>
    intro n fa fb ha hb
    have main : ∀ (n : Nat) fa fb, Calm (diffIter H o n (some (.rcd c s)) (some (.rcd c t)) fa fb) := by
      intro n fa fb
      cases n with
      | zero => exact calm_raise _
      | succ n =>
        show Calm (compareRecord H o (diffIter H o n) (some (.rcd c s)) (some (.rcd c t)) fa fb)
        unfold compareRecord
        split
        · exact calm_raise _
        · refine calm_forEach fun p hp => calm_when fun hf => calm_bindE fun va' hva' => calm_bindE fun vb' hvb' => ?_
          have hp' : p ∈ (H.S.cls c).props := (mem_propsOf rfl).1 hp
          have hcp : Compared o p := (isFiltered_compared hs.filter).1 hf
          have h1 : H.normSlot (readAttr H.S (.rcd c s) p.name) p (some (.rcd c s)) = .ok va' := hva'
          have h2 : H.normSlot (readAttr H.S (.rcd c t) p.name) p (some (.rcd c t)) = .ok vb' := hvb'
          rw [hva p hp' hcp] at h1
          rw [hvb p hp' hcp] at h2
          simp at h1 h2
          subst h1 h2
          exact (ih p hp' hcp n _ _ (closed_slot hs.closed ha (hva p hp' hcp))
            (closed_slot hs.closed hb (hvb p hp' hcp))).1
    exact ⟨key n _ _ (main n) rfl rfl fa fb, fun _ _ _ => main n fa fb⟩
  | @simple x y la lb ht hcls hla hlb hperm =>
    intro n fa fb ha hb
    have main : ∀ (n : Nat) fa fb, Calm (diffIter H o n (some x) (some y) fa fb) := by
      intro n fa fb
      cases n with
      | zero => exact calm_raise _
      | succ n =>
        show Calm (dispatch H o (diffIter H o n) (some x) (some y) fa fb)
        have hr : Calm (compareRecord H o (diffIter H o n) (some x) (some y) fa fb) :=
          calm_record_none hs (readSlot_coll (not_rcd_of_items hla)) (readSlot_coll (not_rcd_of_items hlb))
        have hsim : Calm (compareSimple H o (some x) (some y) fa fb) := calm_simple_two hs hla hlb hperm
        unfold dispatch
        cases x with
        | atom a => exact calm_nil
        | list xs => exact hsim
        | dict xs => exact hsim
        | rcd c s => exact hr
        | lcoll c xs =>
          obtain ⟨kd, t, hct⟩ := hcls c rfl
          refine calm_append ?_ hr
          unfold compareColl
          rw [hct]
          exact hsim
        | dcoll c xs =>
          obtain ⟨kd, t, hct⟩ := hcls c rfl
          refine calm_append ?_ hr
          unfold compareColl
          rw [hct]
          exact hsim
    have hc : comparable x = true := by
      obtain ⟨xs, hxs, _⟩ := hla
      cases x <;> simp [tuplesOf] at hxs <;> rfl
    exact ⟨key n _ _ (main n) hc ht fa fb, fun _ _ _ => main n fa fb⟩
  | @records x y c kd m la lb hcx hcy hcoll hla hlb hperm htags _ ih =>
    intro n fa fb ha hb
    have hx := ha x rfl
    have hy := hb y rfl
    have main : ∀ (n : Nat) fa fb, Calm (diffIter H o n (some x) (some y) fa fb) := by
      intro n fa fb
      cases n with
      | zero => exact calm_raise _
      | succ n =>
        show Calm (dispatch H o (diffIter H o n) (some x) (some y) fa fb)
        have hr : Calm (compareRecord H o (diffIter H o n) (some x) (some y) fa fb) :=
          calm_record_none hs (readSlot_coll (not_rcd_of_members hla)) (readSlot_coll (not_rcd_of_members hlb))
        have hcc : Calm (compareColl H o (diffIter H o n) c (some x) (some y) fa fb) := by
          unfold compareColl
          rw [hcoll]
          show Calm (compareRecords H o (diffIter H o n) (.cls m) (some x) (some y) fa fb)
          unfold compareRecords
          simp only [idArgs_none hs.filter, idType_none hs.duck, bindE_ok]
          refine calm_when fun _ => calm_bindE fun A hA => calm_bindE fun B hB => ?_
          rw [members_of_bag hla hA, members_of_bag hlb hB]
          unfold compareMembers
          rw [hs.recurse]
          simp only [Bool.false_eq_true, if_false, Option.isNone_some, Bool.or_false]
          obtain ⟨hm, hm'⟩ := minus_nil_perm.2 (members_keyed_perm.2 hperm)
          unfold compareIds
          rw [hm, hm']
          have hp0 : pairsOf H o (number [] (keyed la)) (number [] (keyed lb)) = .ok [] := by
            unfold pairsOf
            split
            · rw [hm, hm']
              exact fuzzy_nil hs.ord
            · rfl
          rw [hp0]
          simp only [bindE_ok, forEach_nil, List.filter_nil, hs.ord.nil, append_nil, nil_append]
          refine calm_append (calm_when fun _ => calm_forEach fun k hk => ?_)
            (calm_when fun _ => calm_forEach fun k _ => still_matched.calm)
          rw [hs.ord.mem] at hk
          obtain ⟨j, i, u, w, hu, hw, h1, h2⟩ := common_keyed.1 hk
          have hk' : k = (u.1, w.1) := by rw [h1, h2]
          rw [hk', descend_items hx hy hla hlb (nth_mem hu) (nth_mem hw)]
          have hru := member_real hs hx hla (nth_mem hu)
          have hrw := member_real hs hy hlb (nth_mem hw)
          have hcu := member_cls hx hcx hcoll hla (nth_mem hu)
          exact (ih j i u w hu hw n _ _ (onO_some hru) (onO_some hrw)).2
            (by intro x y hx hy; simp at hx hy; subst hx hy; exact ⟨comparable_cls hcu, htags j i u w hu hw⟩) rfl rfl
        unfold dispatch
        cases x with
        | atom a => exact calm_nil
        | list xs => simp [clsOf] at hcx
        | dict xs => simp [clsOf] at hcx
        | rcd c s => exact hr
        | lcoll c' xs =>
          simp [clsOf] at hcx
          subst hcx
          exact calm_append hcc hr
        | dcoll c' xs =>
          simp [clsOf] at hcx
          subst hcx
          exact calm_append hcc hr
    have hc : comparable x = true := comparable_cls (by rw [hcx]; simp)
    have ht : tagOf x = tagOf y := by
      have hnx := not_rcd_of_members hla
      cases x <;> simp [clsOf] at hcx <;> cases y <;> simp [clsOf] at hcy <;> simp_all [tagOf]
    exact ⟨key n _ _ (main n) hc ht fa fb, fun _ _ _ => main n fa fb⟩

end Normalize.Diff
