import Verif.Lemmas.DiffAgree2
import Verif.Spec.DiffRecurse

/-!
# When a diff is empty, with `recurse`
-/

namespace Normalize.Diff
open Ident (IProp ICls Ty ItemTy CollKind Schema readAttr)
open Spec (Labels Items Members nth Real BlankAt AgreeAt Compared PlainSlots Closed TupIds places)
open Gen

variable {E F : Type} [DecidableEq E] [DecidableEq F] {H : Hooks E F} {o : Opts}

/-- The assumptions of C130. -/
structure Deep (H : Hooks E F) (o : Opts) : Prop extends Basic H o where
  recurse : o.recurse = true

instance : Coe (Deep H o) (Basic H o) := ⟨Deep.toBasic⟩

theorem mem_entries {la : List (Id E × (Comp × Val))} {k : Comp} :
    k ∈ (number [] (keyed la)).map (·.2) ↔ k ∈ places la := by
  simp only [List.mem_map, places]
  constructor
  · rintro ⟨e, he, rfl⟩
    obtain ⟨u, hu, _, h⟩ := mem_of_entry he
    exact ⟨u, hu, h⟩
  · rintro ⟨u, hu, rfl⟩
    obtain ⟨m, hm⟩ := entry_of_mem hu
    exact ⟨_, hm, rfl⟩

/-- The comparison by places is without a difference iff both sides have the same places and it goes through them
without a difference. -/
theorem still_keys (ho : OrdOK H) {rec : Rec} {a b : Option Val} {fa fb : FS} {A B : List (Ent (Id E))} :
    Still (compareKeys H rec a b fa fb A B) ↔ (∀ k, k ∈ A.map (·.2) ↔ k ∈ B.map (·.2)) ∧
      ∀ k ∈ A.map (·.2), k ∈ B.map (·.2) → (a.isSome && b.isSome) = true →
        ∃ x, itemAt a k = .ok x ∧ ∃ y, itemAt b k = .ok y ∧ Still (rec (some x) (some y) (fa ++ [k]) (fb ++ [k])) := by
  unfold compareKeys
  simp only [still_append, still_when, still_forEach, ho.mem, still_yield, still_bindE, List.mem_filter, List.mem_dedup,
    decide_eq_true_eq, Bool.not_eq_true', decide_eq_false_iff_not]
  constructor
  · rintro ⟨⟨h1, h2⟩, h3⟩
    refine ⟨fun k => ⟨fun h => ?_, fun h => ?_⟩, fun k h4 h5 => h1 k ⟨h4, h5⟩⟩
    · by_contra hn
      simpa using h2 k ⟨h, hn⟩
    · by_contra hn
      simpa using h3 k ⟨h, hn⟩
  · rintro ⟨h1, h2⟩
    exact ⟨⟨fun k hk => h2 k hk.1 hk.2, fun k hk => absurd ((h1 k).1 hk.1) hk.2⟩,
      fun k hk => absurd ((h1 k).2 hk.1) hk.2⟩

theorem calm_keys (ho : OrdOK H) {rec : Rec} {a b : Option Val} {fa fb : FS} {A B : List (Ent (Id E))}
    (h1 : ∀ k, k ∈ A.map (·.2) ↔ k ∈ B.map (·.2))
    (h2 : ∀ k ∈ A.map (·.2), ∀ x y, itemAt a k = .ok x → itemAt b k = .ok y →
      Calm (rec (some x) (some y) (fa ++ [k]) (fb ++ [k]))) : Calm (compareKeys H rec a b fa fb A B) := by
  unfold compareKeys
  refine calm_append (calm_append (calm_forEach fun k hk => calm_when fun _ => calm_bindE fun x hx =>
    calm_bindE fun y hy => ?_) (calm_forEach fun k hk => ?_)) (calm_forEach fun k hk => ?_)
  all_goals simp only [ho.mem, List.mem_filter, List.mem_dedup, decide_eq_true_eq, Bool.not_eq_true',
    decide_eq_false_iff_not] at hk
  · exact h2 k hk.1 x y hx hy
  · exact absurd ((h1 k).1 hk.1) hk.2
  · exact absurd ((h1 k).2 hk.1) hk.2

theorem places_nil {la : List (Id E × (Comp × Val))} (h : ∀ k, k ∉ places la) : la = [] :=
  List.eq_nil_iff_forall_not_mem.2 fun u hu => h u.2.1 (List.mem_map_of_mem hu)

theorem records_one_at (hs : Deep H o) {rec : Rec} {l : Bool} {v : Val} {n : String} {fa fb : FS}
    (h : Still (compareRecords H o rec (.cls n) (leftOf l v) (rightOf l v) fa fb)) : Members H o v [] := by
  unfold compareRecords at h
  simp only [idArgs_none hs.filter, idType_none hs.duck, bindE_ok, still_when] at h
  have h := h rfl
  simp only [still_bindE] at h
  obtain ⟨A, hA, B, hB, h⟩ := h
  unfold compareMembers at h
  rw [hs.recurse] at h
  simp only [if_true, still_keys hs.ord] at h
  cases l with
  | true =>
    obtain ⟨la, hla, rfl⟩ := collBag_members hA
    have : collBag H o none (.fixed none) fa none = .ok B := hB
    rw [collBag_none] at this
    simp at this
    subst this
    have : la = [] := places_nil fun k hk => by simpa using (h.1 k).1 (mem_entries.2 hk)
    exact this ▸ hla
  | false =>
    obtain ⟨la, hla, rfl⟩ := collBag_members hB
    have : collBag H o none (.fixed none) fa none = .ok A := hA
    rw [collBag_none] at this
    simp at this
    subst this
    have : la = [] := places_nil fun k hk => by simpa using (h.1 k).2 (mem_entries.2 hk)
    exact this ▸ hla

/-- A value that is compared with nothing without a difference has no content. -/
theorem blank_of_still_at (hs : Deep H o) : ∀ (n : Nat) (l : Bool) (v : Val) (fa fb : FS), Real H.S v →
    comparable v = true → Still (diffIter H o n (leftOf l v) (rightOf l v) fa fb) → BlankAt H o v
  | 0, l, v, fa, fb, _, _, h => absurd h still_raise
  | n + 1, l, v, fa, fb, hv, hc, h => by
    have ih := blank_of_still_at hs n
    have h : Still (dispatch H o (diffIter H o n) (leftOf l v) (rightOf l v) fa fb) := h
    unfold dispatch at h
    rw [one_sided] at h
    have hcoll : ∀ c, clsOf v = some c → Still (compareColl H o (diffIter H o n) c (leftOf l v) (rightOf l v) fa fb) →
        BlankAt H o v := by
      intro c hcl h
      unfold compareColl at h
      split at h
      · exact absurd h still_raise
      · exact absurd h still_raise
      · rename_i kd t ht
        exact .simple (by intro c' hc'; rw [hcl] at hc'; simp at hc'; subst hc'; exact ⟨kd, t, ht⟩) (simple_one hs h)
      · rename_i kd m ht
        exact .records hcl ht (records_one_at hs h)
    cases v with
    | atom a => simp [comparable, tagOf] at hc
    | list xs => exact .simple (by simp [clsOf]) (simple_one hs h)
    | dict xs => exact .simple (by simp [clsOf]) (simple_one hs h)
    | lcoll c xs => exact hcoll c rfl (still_append.1 h).1
    | dcoll c xs => exact hcoll c rfl (still_append.1 h).1
    | rcd c s =>
      have hr := record_one hs (c := c) rfl h
      refine .record (slotVal H (.rcd c s)) (fun p hp hcp => ?_) (fun p hp hcp w hw => ?_)
      · obtain ⟨w, hw, _⟩ := hr p hp hcp
        rw [slotVal_eq hw, hw]
      · obtain ⟨w', hw', hst⟩ := hr p hp hcp
        rw [slotVal_eq hw'] at hw
        subst hw
        have hrw := slot_real hs.toBasic hv hw'
        have hst : Still (compareVals H o (diffIter H o n) (leftOf l w) (rightOf l w)
            (fa ++ [.str p.name]) (fb ++ [.str p.name])) := by cases l <;> exact hst
        obtain ⟨h1, _, h2⟩ := still_vals_one hs hrw hst
        exact ih l w _ _ hrw h1 h2

theorem calm_records_one_at (hs : Deep H o) {rec : Rec} {l : Bool} {v : Val} {n : String} {fa fb : FS}
    (hla : Members H o v []) : Calm (compareRecords H o rec (.cls n) (leftOf l v) (rightOf l v) fa fb) := by
  unfold compareRecords
  simp only [idArgs_none hs.filter, idType_none hs.duck, bindE_ok]
  refine calm_when fun _ => calm_bindE fun A hA => calm_bindE fun B hB => ?_
  unfold compareMembers
  rw [hs.recurse]
  simp only [if_true]
  have hAB : A = [] ∧ B = [] := by
    cases l with
    | true =>
      obtain ⟨la, hla', rfl⟩ := collBag_members hA
      have : collBag H o none (.fixed none) fa none = .ok B := hB
      rw [collBag_none] at this
      simp at this
      rw [members_unique hla' hla]
      exact ⟨rfl, this⟩
    | false =>
      obtain ⟨la, hla', rfl⟩ := collBag_members hB
      have : collBag H o none (.fixed none) fa none = .ok A := hA
      rw [collBag_none] at this
      simp at this
      rw [members_unique hla' hla]
      exact ⟨this, rfl⟩
  rw [hAB.1, hAB.2]
  exact calm_keys hs.ord (by simp) (by simp)

theorem comparable_blank_at {v : Val} (h : BlankAt H o v) : comparable v = true := by
  cases h with
  | record => rfl
  | simple _ hi =>
    obtain ⟨xs, hxs, _⟩ := hi
    cases v <;> simp [tuplesOf] at hxs <;> rfl
  | records hc => exact comparable_cls (by rw [hc]; simp)

/-- A value without content is compared with nothing without a difference. -/
theorem calm_of_blank_at (hs : Deep H o) (hi : o.ignoreEmptySlots = true) {v : Val} (h : BlankAt H o v) :
    ∀ (n : Nat) (l : Bool) (fa fb : FS), Real H.S v →
      Calm (diffIter H o n (leftOf l v) (rightOf l v) fa fb) := by
  induction h with
  | @record c s va hva hb ih =>
    intro n l fa fb hv
    cases n with
    | zero => exact calm_raise _
    | succ n =>
      show Calm (dispatch H o (diffIter H o n) (leftOf l (.rcd c s)) (rightOf l (.rcd c s)) fa fb)
      unfold dispatch
      rw [one_sided]
      simp only
      unfold compareRecord
      split
      · exact calm_raise _
      · refine calm_forEach fun p hp => calm_when fun hf => calm_bindE fun va' hva' => calm_bindE fun vb' hvb' => ?_
        have hp' : p ∈ (H.S.cls c).props := (mem_propsOf (by rw [one_sided]; rfl)).1 hp
        have hcp : Compared o p := (isFiltered_compared hs.filter).1 hf
        have h1 := hva p hp' hcp
        cases hw : va p with
        | none =>
          have h2 : va' = none ∧ vb' = none := by
            cases l with
            | true =>
              have h3 : H.normSlot (readAttr H.S (.rcd c s) p.name) p (some (.rcd c s)) = .ok va' := hva'
              have h4 : H.normSlot none p none = .ok vb' := hvb'
              rw [h1, hw] at h3
              rw [hs.plain.unset] at h4
              simp at h3 h4
              exact ⟨h3.symm, h4.symm⟩
            | false =>
              have h3 : H.normSlot (readAttr H.S (.rcd c s) p.name) p (some (.rcd c s)) = .ok vb' := hvb'
              have h4 : H.normSlot none p none = .ok va' := hva'
              rw [h1, hw] at h3
              rw [hs.plain.unset] at h4
              simp at h3 h4
              exact ⟨h4.symm, h3.symm⟩
          rw [h2.1, h2.2]
          exact calm_nil
        | some w =>
          have h2 : va' = leftOf l w ∧ vb' = rightOf l w := by
            cases l with
            | true =>
              have h3 : H.normSlot (readAttr H.S (.rcd c s) p.name) p (some (.rcd c s)) = .ok va' := hva'
              have h4 : H.normSlot none p none = .ok vb' := hvb'
              rw [h1, hw] at h3
              rw [hs.plain.unset] at h4
              simp at h3 h4
              exact ⟨h3.symm, h4.symm⟩
            | false =>
              have h3 : H.normSlot (readAttr H.S (.rcd c s) p.name) p (some (.rcd c s)) = .ok vb' := hvb'
              have h4 : H.normSlot none p none = .ok va' := hva'
              rw [h1, hw] at h3
              rw [hs.plain.unset] at h4
              simp at h3 h4
              exact ⟨h4.symm, h3.symm⟩
          rw [h2.1, h2.2]
          rw [hw] at h1
          have hrw := slot_real hs.toBasic hv h1
          exact calm_vals_one hi (comparable_blank_at (hb p hp' hcp w hw)) (ih p hp' hcp w hw n l _ _ hrw)
  | @simple x hcls hit =>
    intro n l fa fb hv
    cases n with
    | zero => exact calm_raise _
    | succ n =>
      show Calm (dispatch H o (diffIter H o n) (leftOf l x) (rightOf l x) fa fb)
      have hr : Calm (compareRecord H o (diffIter H o n) (leftOf l x) (rightOf l x) fa fb) :=
        calm_record_none hs (fun nm => (readSlot_sides (not_rcd_of_items hit) nm).1)
          (fun nm => (readSlot_sides (not_rcd_of_items hit) nm).2)
      unfold dispatch
      rw [one_sided]
      cases x with
      | atom a => exact calm_nil
      | list xs => exact calm_simple_one hs hit
      | dict xs => exact calm_simple_one hs hit
      | rcd c s => exact hr
      | lcoll c xs =>
        obtain ⟨kd, t, ht⟩ := hcls c rfl
        refine calm_append ?_ hr
        unfold compareColl
        rw [ht]
        exact calm_simple_one hs hit
      | dcoll c xs =>
        obtain ⟨kd, t, ht⟩ := hcls c rfl
        refine calm_append ?_ hr
        unfold compareColl
        rw [ht]
        exact calm_simple_one hs hit
  | @records x c kd m hcl hcoll hla =>
    intro n l fa fb hv
    cases n with
    | zero => exact calm_raise _
    | succ n =>
      show Calm (dispatch H o (diffIter H o n) (leftOf l x) (rightOf l x) fa fb)
      have hr : Calm (compareRecord H o (diffIter H o n) (leftOf l x) (rightOf l x) fa fb) :=
        calm_record_none hs (fun nm => (readSlot_sides (not_rcd_of_members hla) nm).1)
          (fun nm => (readSlot_sides (not_rcd_of_members hla) nm).2)
      have hc : Calm (compareColl H o (diffIter H o n) c (leftOf l x) (rightOf l x) fa fb) := by
        unfold compareColl
        rw [hcoll]
        exact calm_records_one_at hs hla
      unfold dispatch
      rw [one_sided]
      cases x with
      | atom a => exact calm_nil
      | list xs => simp [clsOf] at hcl
      | dict xs => simp [clsOf] at hcl
      | rcd c s => exact hr
      | lcoll c' xs =>
        simp [clsOf] at hcl
        subst hcl
        exact calm_append hc hr
      | dcoll c' xs =>
        simp [clsOf] at hcl
        subst hcl
        exact calm_append hc hr

/-- Two members at the same place are found there. -/
theorem items_at {x y : Val} (hx : Real H.S x) (hy : Real H.S y)
    {la lb : List (Id E × (Comp × Val))} (hla : Members H o x la) (hlb : Members H o y lb)
    {u w : Id E × (Comp × Val)} (hu : u ∈ la) (hw : w ∈ lb) (h : u.2.1 = w.2.1) :
    itemAt (some x) u.2.1 = .ok u.2.2 ∧ itemAt (some y) u.2.1 = .ok w.2.2 := by
  obtain ⟨xs, h1, h2, _⟩ := members_mem hla hu
  obtain ⟨ys, g1, g2, _⟩ := members_mem hlb hw
  exact ⟨itemAt_member hx h1 h2, h ▸ itemAt_member hy g1 g2⟩

theorem records_two_at (hs : Deep H o) {n' : Nat} {x y : Val} (hx : Real H.S x) (hy : Real H.S y)
    {c : String} {kd : CollKind} {n : String} (hcx : clsOf x = some c) (hcy : clsOf y = some c)
    (hcoll : (H.S.cls c).coll = some (kd, .one (.cls n))) {fa fb : FS}
    (ih : ∀ u w fa fb, Real H.S u → Real H.S w → comparable u = true → tagOf u = tagOf w →
      Still (diffIter H o n' (some u) (some w) fa fb) → AgreeAt H o (some u) (some w))
    (h : Still (compareRecords H o (diffIter H o n') (.cls n) (some x) (some y) fa fb)) :
    AgreeAt H o (some x) (some y) := by
  unfold compareRecords at h
  simp only [idArgs_none hs.filter, idType_none hs.duck, bindE_ok, still_when] at h
  have h := h rfl
  simp only [still_bindE] at h
  obtain ⟨A, hA, B, hB, h⟩ := h
  unfold compareMembers at h
  rw [hs.recurse] at h
  simp only [if_true, still_keys hs.ord] at h
  obtain ⟨la, hla, rfl⟩ := collBag_members hA
  obtain ⟨lb, hlb, rfl⟩ := collBag_members hB
  have hag : ∀ u ∈ la, ∀ w ∈ lb, u.2.1 = w.2.1 → tagOf u.2.2 = tagOf w.2.2 ∧ AgreeAt H o (some u.2.2) (some w.2.2) := by
    intro u hu w hw hk
    obtain ⟨a, ha, b, hb, hst⟩ := h.2 u.2.1 (mem_entries.2 (List.mem_map_of_mem hu))
      (mem_entries.2 (hk ▸ List.mem_map_of_mem hw)) rfl
    obtain ⟨g1, g2⟩ := items_at hx hy hla hlb hu hw hk
    rw [g1] at ha
    rw [g2] at hb
    simp only [Except.ok.injEq] at ha hb
    subst ha hb
    have hcu := member_cls hx hcx hcoll hla hu
    exact ⟨tags_of_exc hs hcu hst.exc, ih _ _ _ _ (member_real hs hx hla hu) (member_real hs hy hlb hw)
      (comparable_cls hcu) (tags_of_exc hs hcu hst.exc) hst⟩
  exact .records hcx hcy hcoll hla hlb (fun k => by rw [← mem_entries, ← mem_entries]; exact h.1 k)
    (fun u hu w hw hk => (hag u hu w hw hk).1) (fun u hu w hw hk => (hag u hu w hw hk).2)

/-- Two objects that are compared to the end without a difference agree. -/
theorem agree_of_still_at (hs : Deep H o) :
    ∀ (n : Nat) (x y : Val) (fa fb : FS), Real H.S x → Real H.S y → comparable x = true → tagOf x = tagOf y →
      Still (diffIter H o n (some x) (some y) fa fb) → AgreeAt H o (some x) (some y)
  | 0, _, _, _, _, _, _, _, _, h => absurd h still_raise
  | n + 1, x, y, fa, fb, hx, hy, hc, ht, h => by
    have ih := agree_of_still_at hs n
    have h : Still (dispatch H o (diffIter H o n) (some x) (some y) fa fb) := h
    unfold dispatch at h
    have hcoll : ∀ c, clsOf x = some c → clsOf y = some c →
        Still (compareColl H o (diffIter H o n) c (some x) (some y) fa fb) → AgreeAt H o (some x) (some y) := by
      intro c hcx hcy h
      unfold compareColl at h
      split at h
      · exact absurd h still_raise
      · exact absurd h still_raise
      · rename_i kd t hct
        obtain ⟨la, lb, h1, h2, h3⟩ := simple_two hs h
        exact .simple ht (by intro c' hc'; rw [hcx] at hc'; simp at hc'; subst hc'; exact ⟨kd, t, hct⟩) h1 h2 h3
      · rename_i kd m hct
        exact records_two_at hs hx hy hcx hcy hct (fun u w fa fb => ih u w fa fb) h
    have hcy : ∀ c, tagOf x = some (.cls c) → clsOf y = some c := by
      intro c hc'
      rw [hc'] at ht
      cases y <;> simp [tagOf] at ht <;> simp [clsOf, ht]
    cases x with
    | atom a => simp [comparable, tagOf] at hc
    | list xs =>
      obtain ⟨la, lb, h1, h2, h3⟩ := simple_two hs h
      exact .simple ht (by simp [clsOf]) h1 h2 h3
    | dict xs =>
      obtain ⟨la, lb, h1, h2, h3⟩ := simple_two hs h
      exact .simple ht (by simp [clsOf]) h1 h2 h3
    | lcoll c xs => exact hcoll c rfl (hcy c rfl) (still_append.1 h).1
    | dcoll c xs => exact hcoll c rfl (hcy c rfl) (still_append.1 h).1
    | rcd c s =>
      have hI := hx.2 _ (.self _)
      simp only [Spec.ItemsOK] at hI
      obtain ⟨t, rfl⟩ : ∃ t, y = .rcd c t := by
        have hJ := hy.2 _ (.self _)
        cases y with
        | rcd c' t => simp [tagOf] at ht; subst ht; exact ⟨t, rfl⟩
        | lcoll c' t =>
          simp [tagOf] at ht
          subst ht
          obtain ⟨⟨it, hit⟩, _⟩ := hJ
          rw [hI] at hit
          simp at hit
        | dcoll c' t =>
          simp [tagOf] at ht
          subst ht
          obtain ⟨⟨it, hit⟩, _⟩ := hJ
          rw [hI] at hit
          simp at hit
        | _ => simp [tagOf] at ht
      have h : Still (compareRecord H o (diffIter H o n) (some (.rcd c s)) (some (.rcd c t)) fa fb) := h
      unfold compareRecord at h
      split at h
      · exact absurd h still_raise
      rw [still_forEach] at h
      have hr : ∀ p ∈ (H.S.cls c).props, Compared o p → ∃ va vb,
          H.normSlot (readAttr H.S (.rcd c s) p.name) p (some (.rcd c s)) = .ok va ∧
          H.normSlot (readAttr H.S (.rcd c t) p.name) p (some (.rcd c t)) = .ok vb ∧
          Still (compareVals H o (diffIter H o n) va vb (fa ++ [.str p.name]) (fb ++ [.str p.name])) := by
        intro p hp hcp
        have h := h p ((mem_propsOf rfl).2 hp)
        unfold compareProp at h
        rw [still_when] at h
        have h := h ((isFiltered_compared hs.filter).2 hcp)
        simp only [still_bindE] at h
        obtain ⟨va, hva, vb, hvb, h⟩ := h
        exact ⟨va, vb, hva, hvb, h⟩
      refine .record (slotVal H (.rcd c s)) (slotVal H (.rcd c t)) (fun p hp hcp => ?_) (fun p hp hcp => ?_)
        (fun p hp hcp => ?_)
      · obtain ⟨va, vb, h1, h2, _⟩ := hr p hp hcp
        rw [slotVal_eq h1, h1]
      · obtain ⟨va, vb, h1, h2, _⟩ := hr p hp hcp
        rw [slotVal_eq h2, h2]
      · obtain ⟨va, vb, h1, h2, hst⟩ := hr p hp hcp
        rw [slotVal_eq h1, slotVal_eq h2]
        cases va with
        | none =>
          cases vb with
          | none => exact .unset
          | some w =>
            have hrw := slot_real hs.toBasic hy h2
            obtain ⟨g1, g2, g3⟩ := still_vals_one hs (l := false) hrw hst
            exact .blankR g2 (blank_of_still_at hs n false w _ _ hrw g1 g3)
        | some u =>
          have hru := slot_real hs.toBasic hx h1
          cases vb with
          | none =>
            obtain ⟨g1, g2, g3⟩ := still_vals_one hs (l := true) hru hst
            exact .blankL g2 (blank_of_still_at hs n true u _ _ hru g1 g3)
          | some w =>
            have hrw := slot_real hs.toBasic hy h2
            unfold compareVals at hst
            simp only [hs.duck, Bool.or_false] at hst
            split at hst
            · rename_i hd
              simp only [Bool.and_eq_true, Bool.or_eq_true, decide_eq_true_eq] at hd
              have hcu : comparable u = true := by
                rcases hd.1 with h | h
                · exact h
                · unfold comparable at h ⊢
                  rw [hd.2]
                  exact h
              exact ih u w _ _ hru hrw hcu hd.2 hst
            · rename_i hd
              rw [still_bindE] at hst
              obtain ⟨eq, heq, hst⟩ := hst
              cases eq with
              | false =>
                simp only [Bool.false_eq_true, if_false] at hst
                rcases still_yield.1 hst with h | h <;> simp at h
              | true =>
                refine .equal ?_ heq
                by_cases htt : tagOf u = tagOf w
                · left
                  simp only [Bool.and_eq_true, Bool.or_eq_true, decide_eq_true_eq, not_and] at hd
                  cases htu : tagOf u with
                  | none => rfl
                  | some g => exact absurd htt (hd (.inl (by simp [comparable, htu])))
                · exact .inr htt

/-- Objects that agree are compared without a difference. -/
theorem calm_of_agree_at (hs : Deep H o) {a b : Option Val} (h : AgreeAt H o a b) :
    ∀ (n : Nat) (fa fb : FS), OnO (Real H.S) a → OnO (Real H.S) b →
      Calm (compareVals H o (diffIter H o n) a b fa fb) ∧
      ((∀ x y, a = some x → b = some y → comparable x = true ∧ tagOf x = tagOf y) → a.isSome → b.isSome →
        Calm (diffIter H o n a b fa fb)) := by
  -- from the second part to the first
  have key : ∀ (n : Nat) (x y : Val), (∀ fa fb, Calm (diffIter H o n (some x) (some y) fa fb)) → comparable x = true →
      tagOf x = tagOf y → ∀ fa fb, Calm (compareVals H o (diffIter H o n) (some x) (some y) fa fb) := by
    intro n x y h hc ht fa fb
    unfold compareVals
    simp only [hc, Bool.true_or, ht, decide_true, Bool.and_self, if_true]
    exact h fa fb
  induction h with
  | unset => intro n fa fb _ _; exact ⟨calm_nil, by simp⟩
  | @blankL x hi hb =>
    intro n fa fb ha _
    exact ⟨calm_vals_one hi (l := true) (comparable_blank_at hb) (calm_of_blank_at hs hi hb n true fa fb (ha x rfl)),
      by simp⟩
  | @blankR x hi hb =>
    intro n fa fb _ hb'
    exact ⟨calm_vals_one hi (l := false) (comparable_blank_at hb) (calm_of_blank_at hs hi hb n false fa fb (hb' x rfl)),
      by simp⟩
  | @equal x y ht heq =>
    intro n fa fb _ _
    refine ⟨?_, fun h _ _ => ?_⟩
    · unfold compareVals
      have hd : ((comparable x || comparable y) && (decide (tagOf x = tagOf y) || o.duckType)) = false := by
        rw [hs.duck]
        rcases ht with ht | ht
        · by_cases h : tagOf x = tagOf y
          · have h' := h.symm.trans ht
            simp [comparable, ht, h']
          · simp [h]
        · simp [ht]
      simp only [hd, Bool.false_eq_true, if_false, heq, bindE_ok, if_true]
      exact calm_when fun _ => calm_yield (.inl rfl)
    · obtain ⟨h1, h2⟩ := h x y rfl rfl
      rcases ht with ht | ht
      · simp [comparable, ht] at h1
      · exact absurd h2 ht
  | @record c s t va vb hva hvb _ ih =>
    intro n fa fb ha hb
    have main : ∀ (n : Nat) fa fb, Calm (diffIter H o n (some (.rcd c s)) (some (.rcd c t)) fa fb) := by
      intro n fa fb
      cases n with
      | zero => exact calm_raise _
      | succ n =>
        show Calm (compareRecord H o (diffIter H o n) (some (.rcd c s)) (some (.rcd c t)) fa fb)
        unfold compareRecord
        split
        · exact calm_raise _
        · refine calm_forEach fun p hp => calm_when fun hf => calm_bindE fun va' hva' => calm_bindE fun vb' hvb' => ?_
          have hp' : p ∈ (H.S.cls c).props := (mem_propsOf rfl).1 hp
          have hcp : Compared o p := (isFiltered_compared hs.filter).1 hf
          have h1 : H.normSlot (readAttr H.S (.rcd c s) p.name) p (some (.rcd c s)) = .ok va' := hva'
          have h2 : H.normSlot (readAttr H.S (.rcd c t) p.name) p (some (.rcd c t)) = .ok vb' := hvb'
          rw [hva p hp' hcp] at h1
          rw [hvb p hp' hcp] at h2
          simp at h1 h2
          subst h1 h2
          exact (ih p hp' hcp n _ _ (closed_slot hs.closed ha (hva p hp' hcp))
            (closed_slot hs.closed hb (hvb p hp' hcp))).1
    exact ⟨key n _ _ (main n) rfl rfl fa fb, fun _ _ _ => main n fa fb⟩
  | @simple x y la lb ht hcls hla hlb hperm =>
    intro n fa fb ha hb
    have main : ∀ (n : Nat) fa fb, Calm (diffIter H o n (some x) (some y) fa fb) := by
      intro n fa fb
      cases n with
      | zero => exact calm_raise _
      | succ n =>
        show Calm (dispatch H o (diffIter H o n) (some x) (some y) fa fb)
        have hr : Calm (compareRecord H o (diffIter H o n) (some x) (some y) fa fb) :=
          calm_record_none hs (readSlot_coll (not_rcd_of_items hla)) (readSlot_coll (not_rcd_of_items hlb))
        have hsim : Calm (compareSimple H o (some x) (some y) fa fb) := calm_simple_two hs hla hlb hperm
        unfold dispatch
        cases x with
        | atom a => exact calm_nil
        | list xs => exact hsim
        | dict xs => exact hsim
        | rcd c s => exact hr
        | lcoll c xs =>
          obtain ⟨kd, t, hct⟩ := hcls c rfl
          refine calm_append ?_ hr
          unfold compareColl
          rw [hct]
          exact hsim
        | dcoll c xs =>
          obtain ⟨kd, t, hct⟩ := hcls c rfl
          refine calm_append ?_ hr
          unfold compareColl
          rw [hct]
          exact hsim
    have hc : comparable x = true := by
      obtain ⟨xs, hxs, _⟩ := hla
      cases x <;> simp [tuplesOf] at hxs <;> rfl
    exact ⟨key n _ _ (main n) hc ht fa fb, fun _ _ _ => main n fa fb⟩
  | @records x y c kd m la lb hcx hcy hcoll hla hlb hpl htags _ ih =>
    intro n fa fb ha hb
    have hx := ha x rfl
    have hy := hb y rfl
    have main : ∀ (n : Nat) fa fb, Calm (diffIter H o n (some x) (some y) fa fb) := by
      intro n fa fb
      cases n with
      | zero => exact calm_raise _
      | succ n =>
        show Calm (dispatch H o (diffIter H o n) (some x) (some y) fa fb)
        have hr : Calm (compareRecord H o (diffIter H o n) (some x) (some y) fa fb) :=
          calm_record_none hs (readSlot_coll (not_rcd_of_members hla)) (readSlot_coll (not_rcd_of_members hlb))
        have hcc : Calm (compareColl H o (diffIter H o n) c (some x) (some y) fa fb) := by
          unfold compareColl
          rw [hcoll]
          show Calm (compareRecords H o (diffIter H o n) (.cls m) (some x) (some y) fa fb)
          unfold compareRecords
          simp only [idArgs_none hs.filter, idType_none hs.duck, bindE_ok]
          refine calm_when fun _ => calm_bindE fun A hA => calm_bindE fun B hB => ?_
          rw [members_of_bag hla hA, members_of_bag hlb hB]
          unfold compareMembers
          rw [hs.recurse]
          simp only [if_true]
          refine calm_keys hs.ord (fun k => by rw [mem_entries, mem_entries]; exact hpl k) (fun k hk a b ha' hb' => ?_)
          have hka := mem_entries.1 hk
          obtain ⟨u, hu, rfl⟩ := List.mem_map.1 hka
          obtain ⟨w, hw, hwk⟩ := List.mem_map.1 ((hpl _).1 hka)
          obtain ⟨g1, g2⟩ := items_at hx hy hla hlb hu hw hwk.symm
          rw [g1] at ha'
          rw [g2] at hb'
          simp only [Except.ok.injEq] at ha' hb'
          subst ha' hb'
          have hru := member_real hs hx hla hu
          have hrw := member_real hs hy hlb hw
          have hcu := member_cls hx hcx hcoll hla hu
          exact (ih u hu w hw hwk.symm n _ _ (onO_some hru) (onO_some hrw)).2
            (by intro x y hx hy; simp at hx hy; subst hx hy; exact ⟨comparable_cls hcu, htags u hu w hw hwk.symm⟩) rfl rfl
        unfold dispatch
        cases x with
        | atom a => exact calm_nil
        | list xs => simp [clsOf] at hcx
        | dict xs => simp [clsOf] at hcx
        | rcd c s => exact hr
        | lcoll c' xs =>
          simp [clsOf] at hcx
          subst hcx
          exact calm_append hcc hr
        | dcoll c' xs =>
          simp [clsOf] at hcx
          subst hcx
          exact calm_append hcc hr
    have hc : comparable x = true := comparable_cls (by rw [hcx]; simp)
    have ht : tagOf x = tagOf y := by
      have hnx := not_rcd_of_members hla
      clear main ih htags hpl hlb hla ha hb hx hy hcoll hc key
      cases x <;> simp [clsOf] at hcx <;> cases y <;> simp [clsOf] at hcy <;> simp_all [tagOf]
    exact ⟨key n _ _ (main n) hc ht fa fb, fun _ _ _ => main n fa fb⟩

/-! ## Places -/

/-- `k` is an index before `l`. -/
def Before (k l : Comp) : Prop := ∃ i j : Nat, k = .int i ∧ l = .int j ∧ i < j

instance : Std.Antisymm Before := ⟨by
  rintro _ _ ⟨i, j, rfl, rfl, h⟩ ⟨i', j', h1, h2, h'⟩
  simp only [Comp.int.injEq] at h1 h2
  omega⟩

instance : Std.Irrefl Before := ⟨by
  rintro k ⟨i, j, rfl, h2, h⟩
  simp only [Comp.int.injEq] at h2
  omega⟩

theorem enum_before (xs : List Val) : ((Ident.enum xs).map (·.1)).Pairwise Before := by
  rw [List.pairwise_iff_getElem]
  intro i j hi hj hij
  simp only [Ident.enum, List.getElem_map, List.getElem_zipIdx, Nat.zero_add]
  exact ⟨i, j, by simp, by simp, hij⟩

theorem places_sublist {x : Val} {la : List (Id E × (Comp × Val))} {xs : List (Comp × Val)} (hxs : tuplesOf (some x) = .ok xs)
    (h : Members H o x la) : (places la).Sublist (xs.map (·.1)) := by
  obtain ⟨xs', h1, h2⟩ := h
  rw [hxs] at h1
  cases h1
  have := (labels_sublist h2).map (·.1)
  simpa [places, List.map_map, Function.comp_def] using this

theorem places_nodup {x : Val} (hx : Real H.S x) {la : List (Id E × (Comp × Val))} (h : Members H o x la) :
    (places la).Nodup := by
  obtain ⟨xs, h1, h2⟩ := h
  refine (places_sublist h1 ⟨xs, h1, h2⟩).nodup ?_
  cases x with
  | list l => cases h1; exact (enum_before l).nodup
  | lcoll c l => cases h1; exact (enum_before l).nodup
  | dict l => cases h1; exact hx.1 _ (.self _)
  | dcoll c l => cases h1; exact hx.1 _ (.self _)
  | _ => simp [tuplesOf] at h1

end Normalize.Diff
