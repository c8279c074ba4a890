import Verif.Lemmas.DiffBags

/-!
# When a diff is empty
-/

namespace Normalize.Diff
open Ident (IProp ICls Ty ItemTy CollKind Schema readAttr)
open Spec (Labels Items Members nth Real Blank Agree Compared PlainSlots Closed TupIds)
open Gen

/-- No difference was yielded. -/
def Calm (g : Gen) : Prop := ∀ d ∈ g.out, d.kind = .noChange ∨ d.kind = .moved

/-- It ran to the end without yielding a difference. -/
structure Still (g : Gen) : Prop where
  exc : g.exc = none
  calm : Calm g

theorem still_append {g h : Gen} : Still (g ++ h) ↔ Still g ∧ Still h := by
  constructor
  · rintro ⟨h1, h2⟩
    rw [exc_append] at h1
    unfold Calm at h2
    rw [out_append h1.1] at h2
    exact ⟨⟨h1.1, fun d hd => h2 d (by simp [hd])⟩, ⟨h1.2, fun d hd => h2 d (by simp [hd])⟩⟩
  · rintro ⟨⟨h1, h2⟩, ⟨h3, h4⟩⟩
    refine ⟨exc_append.2 ⟨h1, h3⟩, fun d hd => ?_⟩
    exact (mem_append hd).elim (h2 d) (h4 d)

@[simp] theorem still_nil : Still nil := ⟨rfl, by simp [Calm]⟩

@[simp] theorem still_raise {e : Exc} : ¬ Still (raise e) := fun h => by simpa using h.exc

theorem still_yield {k : DType} {p q : FS} : Still (yield k p q) ↔ k = .noChange ∨ k = .moved :=
  ⟨fun h => h.calm ⟨k, p, q⟩ (by simp), fun h => ⟨rfl, by simpa [Calm] using h⟩⟩

theorem still_when {b : Bool} {g : Gen} : Still (Gen.when b g) ↔ (b = true → Still g) := by
  cases b <;> simp

theorem still_bindE {α : Type} {r : Except Exc α} {f : α → Gen} :
    Still (bindE r f) ↔ ∃ a, r = .ok a ∧ Still (f a) := by
  cases r <;> simp

theorem still_forEach {α : Type} {f : α → Gen} {l : List α} : Still (forEach f l) ↔ ∀ x ∈ l, Still (f x) := by
  induction l with
  | nil => simp
  | cons x xs ih => rw [forEach_cons, still_append, ih]; simp

theorem calm_append {g h : Gen} (hg : Calm g) (hh : Calm h) : Calm (g ++ h) := fun d hd =>
  (mem_append hd).elim (hg d) (hh d)

theorem calm_nil : Calm nil := by simp [Calm]

theorem calm_raise (e : Exc) : Calm (raise e) := by simp [Calm]

theorem calm_when {b : Bool} {g : Gen} (h : b = true → Calm g) : Calm (Gen.when b g) := fun d hd =>
  h (mem_when hd).1 d (mem_when hd).2

theorem calm_forEach {α : Type} {f : α → Gen} {l : List α} (h : ∀ x ∈ l, Calm (f x)) : Calm (forEach f l) :=
  fun d hd => by
    obtain ⟨x, hx, h'⟩ := mem_forEach hd
    exact h x hx d h'

theorem calm_bindE {α : Type} {r : Except Exc α} {f : α → Gen} (h : ∀ a, r = .ok a → Calm (f a)) :
    Calm (bindE r f) := fun d hd => by
  obtain ⟨a, ha, h'⟩ := mem_bindE hd
  exact h a ha d h'

theorem calm_yield {k : DType} {p q : FS} (h : k = .noChange ∨ k = .moved) : Calm (yield k p q) := by
  simpa [Calm] using h

variable {E F : Type} [DecidableEq E] [DecidableEq F] {H : Hooks E F} {o : Opts}

/-- The assumptions of C39 and C130: no duck typing and no filter. -/
structure Basic (H : Hooks E F) (o : Opts) : Prop where
  ord : OrdOK H
  closed : Closed H (Real H.S)
  tup : TupIds H (Real H.S)
  plain : PlainSlots H
  duck : o.duckType = false
  filter : o.compareFilter = none

/-- The assumptions of C39. -/
structure Std (H : Hooks E F) (o : Opts) : Prop extends Basic H o where
  recurse : o.recurse = false

instance : Coe (Std H o) (Basic H o) := ⟨Std.toBasic⟩

theorem isFiltered_compared (hf : o.compareFilter = none) {p : IProp} {fs : FS} :
    (!isFiltered o p fs) = true ↔ Compared o p := by
  unfold isFiltered Compared Opts.active
  rw [hf]
  cases o.extraneous <;> cases p.extraneous <;> simp

theorem idArgs_none (hf : o.compareFilter = none) (fa : FS) : idArgs o fa = .ok (.fixed none) := by
  simp [idArgs, Opts.active, hf]

theorem idType_none (hd : o.duckType = false) (t : Ty) : idType o t = none := by simp [idType, hd]

theorem still_matched {fa fb : FS} {k : Comp × Comp} : Still (matched o fa fb k) := by
  unfold matched
  split
  · exact still_yield.2 (.inr rfl)
  · exact still_when.2 (fun _ => still_yield.2 (.inl rfl))

theorem still_bags (ho : OrdOK H) {fa fb : FS} {A B : List (Ent (Option F))} :
    Still (compareBags H o fa fb A B) ↔ minus A B = [] ∧ minus B A = [] := by
  unfold compareBags
  simp only [still_append, still_when, still_forEach, ho.mem, still_yield]
  constructor
  · rintro ⟨⟨⟨_, h1⟩, h2⟩, h3⟩
    have hm : ∀ k, k ∉ modifiedKeys (minus A B) (minus B A) := fun k hk => by simpa using h3 k hk
    refine ⟨List.eq_nil_iff_forall_not_mem.2 fun e he => ?_, List.eq_nil_iff_forall_not_mem.2 fun e he => ?_⟩
    · simpa using h1 e he (by simp [hm])
    · simpa using h2 e he (by simp [hm])
  · rintro ⟨h1, h2⟩
    rw [h1, h2]
    refine ⟨⟨⟨fun _ k _ => still_matched, by simp⟩, by simp⟩, by simp [modifiedKeys]⟩

/-- The normalised value of a property. -/
def slotVal (H : Hooks E F) (v : Val) (p : IProp) : Option Val :=
  match H.normSlot (readAttr H.S v p.name) p (some v) with
  | .ok w => w
  | .error _ => none

theorem slotVal_eq {v : Val} {p : IProp} {w : Option Val}
    (h : H.normSlot (readAttr H.S v p.name) p (some v) = .ok w) : slotVal H v p = w := by
  simp [slotVal, h]

theorem mem_propsOf {c : String} {a b : Option Val} {p : IProp}
    (h : (a.orElse (fun _ => b)).bind clsOf = some c) : p ∈ propsOf H a b ↔ p ∈ (H.S.cls c).props := by
  unfold propsOf
  rw [h]
  simp only
  exact (List.perm_insertionSort _ _).mem_iff

/-! ## One side missing -/

/-- `base` when the value is on the left (or right) only. -/
def leftOf (l : Bool) (v : Val) : Option Val := if l then some v else none
/-- `other` when the value is on the left (or right) only. -/
def rightOf (l : Bool) (v : Val) : Option Val := if l then none else some v

theorem one_sided (l : Bool) (v : Val) : (leftOf l v).orElse (fun _ => rightOf l v) = some v := by
  cases l <;> rfl

theorem kinds_one {n : Nat} (hs : Basic H o) {l : Bool} {v : Val} (hv : Real H.S v) {fa fb : FS} {d : DInfo}
    (hd : d ∈ (diffIter H o n (leftOf l v) (rightOf l v) fa fb).out) : d.kind ≠ .moved := by
  have hy := yields_diffIter hs.ord n _ _ _ _ d hd
  have hO : ∀ m : Bool, DictsOKO H.S (if m then some v else none) := by
    intro m x hx
    cases m with
    | false => simp at hx
    | true => simp at hx; exact hx ▸ dictsOK_real hv
  obtain ⟨pa, pb, _, _, hP⟩ := points_of_yields hs.plain hs.duck hy (by cases l; exact hO false; exact hO true)
    (by cases l; exact hO true; exact hO false)
  intro hk
  cases l with
  | true =>
    obtain ⟨w, hw⟩ := hP.other (.inr (.inr hk))
    exact followO_none hw
  | false =>
    obtain ⟨w, hw⟩ := hP.base (.inr (.inr hk))
    exact followO_none hw

theorem still_net {g : Gen} {fa fb : FS} (hm : ∀ d ∈ g.out, d.kind ≠ .moved) (h : Still (net o fa fb g)) :
    Still g := by
  unfold net at h
  split at h
  · exact absurd h still_raise
  · rename_i he
    refine ⟨he, fun d hd => .inl ?_⟩
    by_contra hk
    have hmem : d.kind ∈ ((g.out.map (·.kind)).filter (fun t => decide (t ≠ .noChange))).dedup := by
      rw [List.mem_dedup, List.mem_filter]
      exact ⟨List.mem_map_of_mem hd, by simpa using hk⟩
    split at h
    · rename_i h0
      rw [h0] at hmem
      simp at hmem
    · rename_i t ht
      rw [ht] at hmem
      simp at hmem
      rcases still_yield.1 h with h1 | h1
      · exact hk (hmem.trans h1)
      · exact hm d hd (hmem.trans h1)
    · exact absurd h still_raise

theorem calm_net {g : Gen} {fa fb : FS} (h : Calm g) : Calm (net o fa fb g) := by
  intro d hd
  rcases net_kinds hd with ⟨_, rfl⟩ | ⟨d', hd', _, rfl⟩
  · exact .inl rfl
  · exact h d' hd'

theorem still_vals_one (hs : Basic H o) {n : Nat} {l : Bool} {v : Val} (hv : Real H.S v) {fa fb : FS}
    (h : Still (compareVals H o (diffIter H o n) (leftOf l v) (rightOf l v) fa fb)) :
    comparable v = true ∧ o.ignoreEmptySlots = true ∧
      Still (diffIter H o n (leftOf l v) (rightOf l v) fa fb) := by
  cases l with
  | true =>
    simp only [leftOf, rightOf, if_true, compareVals, hs.duck, Bool.false_or, Bool.and_eq_true] at h
    split at h
    · rename_i hc
      exact ⟨hc.1, hc.2, still_net (fun d hd => kinds_one hs (l := true) hv hd) h⟩
    · rcases still_yield.1 h with h1 | h1 <;> simp at h1
  | false =>
    simp only [leftOf, rightOf, Bool.false_eq_true, if_false, compareVals, hs.duck, Bool.false_or,
      Bool.and_eq_true] at h
    split at h
    · rename_i hc
      exact ⟨hc.1, hc.2, still_net (fun d hd => kinds_one hs (l := false) hv hd) h⟩
    · rcases still_yield.1 h with h1 | h1 <;> simp at h1

theorem record_one (hs : Basic H o) {rec : Rec} {l : Bool} {v : Val} {c : String} (hc : clsOf v = some c) {fa fb : FS}
    (h : Still (compareRecord H o rec (leftOf l v) (rightOf l v) fa fb)) : ∀ p ∈ (H.S.cls c).props, Compared o p →
      ∃ w, H.normSlot (readAttr H.S v p.name) p (some v) = .ok w ∧
        Still (compareVals H o rec (if l then w else none) (if l then none else w)
          (fa ++ [.str p.name]) (fb ++ [.str p.name])) := by
  intro p hp hcp
  unfold compareRecord at h
  have ht : typeClash o (leftOf l v) (rightOf l v) = false := by cases l <;> rfl
  simp only [ht, Bool.false_eq_true, if_false, still_forEach] at h
  have h := h p ((mem_propsOf (by rw [one_sided]; exact hc)).2 hp)
  unfold compareProp at h
  rw [still_when] at h
  have h := h ((isFiltered_compared hs.filter).2 hcp)
  simp only [still_bindE] at h
  obtain ⟨va, hva, vb, hvb, h⟩ := h
  cases l with
  | true =>
    refine ⟨va, hva, ?_⟩
    have : vb = none := by
      have hn := hs.plain.unset p none
      have hvb' : H.normSlot none p none = .ok vb := hvb
      rw [hn] at hvb'
      simpa using hvb'.symm
    subst this
    exact h
  | false =>
    refine ⟨vb, hvb, ?_⟩
    have : va = none := by
      have hn := hs.plain.unset p none
      have hva' : H.normSlot none p none = .ok va := hva
      rw [hn] at hva'
      simpa using hva'.symm
    subst this
    exact h

theorem simple_one (hs : Basic H o) {l : Bool} {v : Val} {fa fb : FS}
    (h : Still (compareSimple H o (leftOf l v) (rightOf l v) fa fb)) : Items H o v [] := by
  unfold compareSimple at h
  simp only [still_bindE, still_bags hs.ord] at h
  obtain ⟨A, hA, B, hB, h1, h2⟩ := h
  cases l with
  | true =>
    obtain ⟨la, hla, rfl⟩ := simpleBag_items hs.duck hA
    have : simpleBag H o (leftOf true v) none = .ok B := hB
    rw [simpleBag_none] at this
    simp at this
    subst this
    have hp := minus_nil_perm (l := keyed la) (m := []).1 ⟨h1, h2⟩
    have : keyed la = [] := by simpa using hp.eq_nil
    have : la = [] := by simpa [keyed] using this
    exact this ▸ hla
  | false =>
    obtain ⟨la, hla, rfl⟩ := simpleBag_items hs.duck hB
    have : simpleBag H o (leftOf false v) none = .ok A := hA
    rw [simpleBag_none] at this
    simp at this
    subst this
    have hp := minus_nil_perm (l := []) (m := keyed la).1 ⟨h1, h2⟩
    have : keyed la = [] := by simpa using hp.symm.eq_nil
    have : la = [] := by simpa [keyed] using this
    exact this ▸ hla

theorem minus_empty {J : Type} [DecidableEq J] (A : List (Ent J)) : minus A [] = A := by
  unfold minus
  rw [List.filter_eq_self]
  intro e _
  simp [member, alookup]

theorem entry_of_mem {J : Type} [DecidableEq J] {la : List (J × (Comp × Val))} {e : J × (Comp × Val)} (he : e ∈ la) :
    ∃ m, ((e.1, m), e.2.1) ∈ number [] (keyed la) := by
  obtain ⟨m, hm⟩ := nth_of_mem (j := e.1) (u := e.2) he
  exact ⟨m, nth_keyed.2 ⟨e.2, hm, rfl⟩⟩

theorem records_one (hs : Std H o) {rec : Rec} {l : Bool} {v : Val} (hv : Real H.S v) {n : String} {fa fb : FS}
    (h : Still (compareRecords H o rec (.cls n) (leftOf l v) (rightOf l v) fa fb)) :
    ∃ la, Members H o v la ∧ ∀ e ∈ la, ∃ k,
      Still (rec (leftOf l e.2.2) (rightOf l e.2.2) (fa ++ [k]) (fb ++ [k])) := by
  unfold compareRecords at h
  simp only [idArgs_none hs.filter, idType_none hs.duck, bindE_ok, still_when] at h
  have h := h rfl
  simp only [still_bindE] at h
  obtain ⟨A, hA, B, hB, h⟩ := h
  unfold compareMembers at h
  rw [hs.recurse] at h
  have hone : ((leftOf l v).isNone || (rightOf l v).isNone) = true := by cases l <;> rfl
  simp only [Bool.false_eq_true, if_false, hone, if_true] at h
  unfold compareOne at h
  simp only [still_forEach, hs.ord.mem] at h
  cases l with
  | true =>
    obtain ⟨la, hla, rfl⟩ := collBag_members hA
    have : collBag H o none (.fixed none) fa none = .ok B := hB
    rw [collBag_none] at this
    simp at this
    subst this
    refine ⟨la, hla, fun e he => ?_⟩
    obtain ⟨m, hm⟩ := entry_of_mem he
    have hd := h _ (List.mem_append_left _ (by rw [minus_empty]; exact hm))
    obtain ⟨xs, h1, h2, _⟩ := members_mem hla he
    have hi : itemAt (some v) e.2.1 = .ok e.2.2 := itemAt_member hv h1 h2
    simp only [descendOne, leftOf, if_true, hi, bindE_ok] at hd
    exact ⟨_, hd⟩
  | false =>
    obtain ⟨la, hla, rfl⟩ := collBag_members hB
    have : collBag H o none (.fixed none) fa none = .ok A := hA
    rw [collBag_none] at this
    simp at this
    subst this
    refine ⟨la, hla, fun e he => ?_⟩
    obtain ⟨m, hm⟩ := entry_of_mem he
    have hd := h _ (List.mem_append_right _ (by rw [minus_empty]; exact hm))
    obtain ⟨xs, h1, h2, _⟩ := members_mem hla he
    have hi : itemAt (some v) e.2.1 = .ok e.2.2 := itemAt_member hv h1 h2
    simp only [descendOne, leftOf, rightOf, Bool.false_eq_true, if_false, hi, bindE_ok] at hd
    exact ⟨_, hd⟩

theorem member_real (hs : Basic H o) {v : Val} (hv : Real H.S v) {la : List (Id E × (Comp × Val))}
    (h : Members H o v la) {e : Id E × (Comp × Val)} (he : e ∈ la) : Real H.S e.2.2 := by
  obtain ⟨xs, h1, h2, _⟩ := members_mem h he
  exact hs.closed.member v xs e.2.1 e.2.2 hv h1 h2

theorem member_cls {v : Val} (hv : Real H.S v) {la : List (Id E × (Comp × Val))} {c : String} {kd : CollKind}
    {n : String} (hc : clsOf v = some c) (hcoll : (H.S.cls c).coll = some (kd, .one (.cls n)))
    (h : Members H o v la) {e : Id E × (Comp × Val)} (he : e ∈ la) : clsOf e.2.2 ≠ none := by
  obtain ⟨xs, h1, h2, _⟩ := members_mem h he
  have hI := hv.2 v (.self v)
  cases v with
  | lcoll c' ys =>
    simp [clsOf] at hc
    subst hc
    simp [tuplesOf] at h1
    subst h1
    exact hI.2 kd n hcoll _ (enum_mem_list (k := e.2.1) h2)
  | dcoll c' ys =>
    simp [clsOf] at hc
    subst hc
    simp [tuplesOf] at h1
    subst h1
    exact hI.2 kd n hcoll e.2 h2
  | rcd c' s => simp [tuplesOf] at h1
  | _ => simp [clsOf] at hc

theorem comparable_cls {v : Val} (h : clsOf v ≠ none) : comparable v = true := by
  cases v <;> simp [clsOf] at h <;> rfl

theorem slot_real (hs : Basic H o) {v w : Val} (hv : Real H.S v) {p : IProp}
    (h : H.normSlot (readAttr H.S v p.name) p (some v) = .ok (some w)) : Real H.S w :=
  hs.closed.slot v p w hv h

/-- A value that is compared with nothing without a difference has no content. -/
theorem blank_of_still (hs : Std H o) : ∀ (n : Nat) (l : Bool) (v : Val) (fa fb : FS), Real H.S v →
    comparable v = true → Still (diffIter H o n (leftOf l v) (rightOf l v) fa fb) → Blank H o v
  | 0, l, v, fa, fb, _, _, h => absurd h still_raise
  | n + 1, l, v, fa, fb, hv, hc, h => by
    have ih := blank_of_still hs n
    have h : Still (dispatch H o (diffIter H o n) (leftOf l v) (rightOf l v) fa fb) := h
    unfold dispatch at h
    rw [one_sided] at h
    have hcoll : ∀ c, clsOf v = some c → Still (compareColl H o (diffIter H o n) c (leftOf l v) (rightOf l v) fa fb) →
        Blank H o v := by
      intro c hcl h
      unfold compareColl at h
      split at h
      · exact absurd h still_raise
      · exact absurd h still_raise
      · rename_i kd t ht
        exact .simple (by intro c' hc'; rw [hcl] at hc'; simp at hc'; subst hc'; exact ⟨kd, t, ht⟩) (simple_one hs h)
      · rename_i kd m ht
        obtain ⟨la, hla, hb⟩ := records_one hs hv h
        refine .records hcl ht hla (fun e he => ?_)
        obtain ⟨k, hk⟩ := hb e he
        exact ih l _ _ _ (member_real hs hv hla he) (comparable_cls (member_cls hv hcl ht hla he)) hk
    cases v with
    | atom a => simp [comparable, tagOf] at hc
    | list xs => exact .simple (by simp [clsOf]) (simple_one hs h)
    | dict xs => exact .simple (by simp [clsOf]) (simple_one hs h)
    | lcoll c xs => exact hcoll c rfl (still_append.1 h).1
    | dcoll c xs => exact hcoll c rfl (still_append.1 h).1
    | rcd c s =>
      have hr := record_one hs (c := c) rfl h
      refine .record (slotVal H (.rcd c s)) (fun p hp hcp => ?_) (fun p hp hcp w hw => ?_)
      · obtain ⟨w, hw, _⟩ := hr p hp hcp
        rw [slotVal_eq hw, hw]
      · obtain ⟨w', hw', hst⟩ := hr p hp hcp
        rw [slotVal_eq hw'] at hw
        subst hw
        have hrw := slot_real hs.toBasic hv hw'
        have hst : Still (compareVals H o (diffIter H o n) (leftOf l w) (rightOf l w)
            (fa ++ [.str p.name]) (fb ++ [.str p.name])) := by cases l <;> exact hst
        obtain ⟨h1, _, h2⟩ := still_vals_one hs hrw hst
        exact ih l w _ _ hrw h1 h2

theorem calm_record_none (hs : Basic H o) {rec : Rec} {a b : Option Val} {fa fb : FS}
    (ha : ∀ nm, readSlot H a nm = none) (hb : ∀ nm, readSlot H b nm = none) :
    Calm (compareRecord H o rec a b fa fb) := by
  unfold compareRecord
  split
  · exact calm_raise _
  · refine calm_forEach fun p _ => calm_when fun _ => calm_bindE fun va hva => calm_bindE fun vb hvb => ?_
    rw [ha, hs.plain.unset] at hva
    rw [hb, hs.plain.unset] at hvb
    simp at hva hvb
    subst hva hvb
    exact calm_nil

theorem readSlot_coll {v : Val} (h : ∀ c s, v ≠ .rcd c s) (nm : String) : readSlot H (some v) nm = none := by
  cases v with
  | rcd c s => exact absurd rfl (h c s)
  | _ => rfl

theorem readSlot_sides {l : Bool} {v : Val} (h : ∀ c s, v ≠ .rcd c s) (nm : String) :
    readSlot H (leftOf l v) nm = none ∧ readSlot H (rightOf l v) nm = none := by
  cases l with
  | true => exact ⟨readSlot_coll h nm, rfl⟩
  | false => exact ⟨rfl, readSlot_coll h nm⟩

theorem items_nil_keyed {la : List (Option F × (Comp × Val))} {v : Val} (h : Items H o v la) (h' : Items H o v []) :
    la = [] := items_unique h h'

theorem calm_simple_one (hs : Basic H o) {l : Bool} {v : Val} {fa fb : FS} (h : Items H o v []) :
    Calm (compareSimple H o (leftOf l v) (rightOf l v) fa fb) := by
  unfold compareSimple
  refine calm_bindE fun A hA => calm_bindE fun B hB => ?_
  refine ((still_bags hs.ord).2 ?_).calm
  cases l with
  | true =>
    obtain ⟨la, hla, rfl⟩ := simpleBag_items hs.duck hA
    have : simpleBag H o (leftOf true v) none = .ok B := hB
    rw [simpleBag_none] at this
    simp at this
    subst this
    rw [items_unique hla h]
    exact ⟨rfl, rfl⟩
  | false =>
    obtain ⟨la, hla, rfl⟩ := simpleBag_items hs.duck hB
    have : simpleBag H o (leftOf false v) none = .ok A := hA
    rw [simpleBag_none] at this
    simp at this
    subst this
    rw [items_unique hla h]
    exact ⟨rfl, rfl⟩

theorem mem_of_entry {J : Type} [DecidableEq J] {la : List (J × (Comp × Val))} {e : Ent J}
    (he : e ∈ number [] (keyed la)) : ∃ u ∈ la, u.1 = e.1.1 ∧ u.2.1 = e.2 := by
  obtain ⟨⟨j, m⟩, k⟩ := e
  obtain ⟨u, hu, hk⟩ := nth_keyed.1 he
  exact ⟨(j, u), nth_mem hu, rfl, hk⟩

theorem calm_records_one (hs : Std H o) {rec : Rec} {l : Bool} {v : Val} (hv : Real H.S v) {n : String} {fa fb : FS}
    {la : List (Id E × (Comp × Val))} (hla : Members H o v la)
    (h : ∀ e ∈ la, ∀ fa fb, Calm (rec (leftOf l e.2.2) (rightOf l e.2.2) fa fb)) :
    Calm (compareRecords H o rec (.cls n) (leftOf l v) (rightOf l v) fa fb) := by
  unfold compareRecords
  simp only [idArgs_none hs.filter, idType_none hs.duck, bindE_ok]
  refine calm_when fun _ => calm_bindE fun A hA => calm_bindE fun B hB => ?_
  unfold compareMembers
  rw [hs.recurse]
  have hone : ((leftOf l v).isNone || (rightOf l v).isNone) = true := by cases l <;> rfl
  simp only [Bool.false_eq_true, if_false, hone, if_true]
  unfold compareOne
  refine calm_forEach fun e he => ?_
  rw [hs.ord.mem, List.mem_append] at he
  cases l with
  | true =>
    obtain ⟨la', hla', rfl⟩ := collBag_members hA
    have : collBag H o none (.fixed none) fa none = .ok B := hB
    rw [collBag_none] at this
    simp at this
    subst this
    have he' : e ∈ number [] (keyed la') := by
      rcases he with he | he
      · exact (mem_minus.1 he).1
      · simp [minus] at he
    obtain ⟨u, hu, _, hk⟩ := mem_of_entry he'
    rw [members_unique hla' hla] at hu
    obtain ⟨xs, h1, h2, _⟩ := members_mem hla hu
    have hi : itemAt (some v) u.2.1 = .ok u.2.2 := itemAt_member hv h1 h2
    simp only [descendOne, leftOf, if_true, ← hk, hi, bindE_ok]
    exact h u hu _ _
  | false =>
    obtain ⟨la', hla', rfl⟩ := collBag_members hB
    have : collBag H o none (.fixed none) fa none = .ok A := hA
    rw [collBag_none] at this
    simp at this
    subst this
    have he' : e ∈ number [] (keyed la') := by
      rcases he with he | he
      · simp [minus] at he
      · exact (mem_minus.1 he).1
    obtain ⟨u, hu, _, hk⟩ := mem_of_entry he'
    rw [members_unique hla' hla] at hu
    obtain ⟨xs, h1, h2, _⟩ := members_mem hla hu
    have hi : itemAt (some v) u.2.1 = .ok u.2.2 := itemAt_member hv h1 h2
    simp only [descendOne, leftOf, rightOf, Bool.false_eq_true, if_false, ← hk, hi, bindE_ok]
    exact h u hu _ _

theorem comparable_blank {v : Val} (h : Blank H o v) : comparable v = true := by
  cases h with
  | record => rfl
  | simple _ hi =>
    obtain ⟨xs, hxs, _⟩ := hi
    cases v <;> simp [tuplesOf] at hxs <;> rfl
  | records hc => exact comparable_cls (by rw [hc]; simp)

theorem calm_vals_one (hi : o.ignoreEmptySlots = true) {rec : Rec} {l : Bool} {v : Val} (hc : comparable v = true)
    {fa fb : FS} (h : Calm (rec (leftOf l v) (rightOf l v) fa fb)) :
    Calm (compareVals H o rec (leftOf l v) (rightOf l v) fa fb) := by
  cases l with
  | true =>
    simp only [leftOf, rightOf, if_true, compareVals, hi, hc, Bool.or_true, Bool.and_true]
    exact calm_net h
  | false =>
    simp only [leftOf, rightOf, Bool.false_eq_true, if_false, compareVals, hi, hc, Bool.or_true, Bool.and_true, if_true]
    exact calm_net h

theorem not_rcd_of_items {v : Val} {la : List (Option F × (Comp × Val))} (h : Items H o v la) :
    ∀ c s, v ≠ .rcd c s := by
  rintro c s rfl
  obtain ⟨xs, hxs, _⟩ := h
  simp [tuplesOf] at hxs

theorem not_rcd_of_members {v : Val} {la : List (Id E × (Comp × Val))} (h : Members H o v la) :
    ∀ c s, v ≠ .rcd c s := by
  rintro c s rfl
  obtain ⟨xs, hxs, _⟩ := h
  simp [tuplesOf] at hxs

/-- A value without content is compared with nothing without a difference. -/
theorem calm_of_blank (hs : Std H o) (hi : o.ignoreEmptySlots = true) {v : Val} (h : Blank H o v) :
    ∀ (n : Nat) (l : Bool) (fa fb : FS), Real H.S v →
      Calm (diffIter H o n (leftOf l v) (rightOf l v) fa fb) := by
  induction h with
  | @record c s va hva hb ih =>
    intro n l fa fb hv
    cases n with
    | zero => exact calm_raise _
    | succ n =>
      show Calm (dispatch H o (diffIter H o n) (leftOf l (.rcd c s)) (rightOf l (.rcd c s)) fa fb)
      unfold dispatch
      rw [one_sided]
      simp only
      unfold compareRecord
      split
      · exact calm_raise _
      · refine calm_forEach fun p hp => calm_when fun hf => calm_bindE fun va' hva' => calm_bindE fun vb' hvb' => ?_
        have hp' : p ∈ (H.S.cls c).props := (mem_propsOf (by rw [one_sided]; rfl)).1 hp
        have hcp : Compared o p := (isFiltered_compared hs.filter).1 hf
        have h1 := hva p hp' hcp
        cases hw : va p with
        | none =>
          have h2 : va' = none ∧ vb' = none := by
            cases l with
            | true =>
              have h3 : H.normSlot (readAttr H.S (.rcd c s) p.name) p (some (.rcd c s)) = .ok va' := hva'
              have h4 : H.normSlot none p none = .ok vb' := hvb'
              rw [h1, hw] at h3
              rw [hs.plain.unset] at h4
              simp at h3 h4
              exact ⟨h3.symm, h4.symm⟩
            | false =>
              have h3 : H.normSlot (readAttr H.S (.rcd c s) p.name) p (some (.rcd c s)) = .ok vb' := hvb'
              have h4 : H.normSlot none p none = .ok va' := hva'
              rw [h1, hw] at h3
              rw [hs.plain.unset] at h4
              simp at h3 h4
              exact ⟨h4.symm, h3.symm⟩
          rw [h2.1, h2.2]
          exact calm_nil
        | some w =>
          have h2 : va' = leftOf l w ∧ vb' = rightOf l w := by
            cases l with
            | true =>
              have h3 : H.normSlot (readAttr H.S (.rcd c s) p.name) p (some (.rcd c s)) = .ok va' := hva'
              have h4 : H.normSlot none p none = .ok vb' := hvb'
              rw [h1, hw] at h3
              rw [hs.plain.unset] at h4
              simp at h3 h4
              exact ⟨h3.symm, h4.symm⟩
            | false =>
              have h3 : H.normSlot (readAttr H.S (.rcd c s) p.name) p (some (.rcd c s)) = .ok vb' := hvb'
              have h4 : H.normSlot none p none = .ok va' := hva'
              rw [h1, hw] at h3
              rw [hs.plain.unset] at h4
              simp at h3 h4
              exact ⟨h4.symm, h3.symm⟩
          rw [h2.1, h2.2]
          rw [hw] at h1
          have hrw := slot_real hs.toBasic hv h1
          exact calm_vals_one hi (comparable_blank (hb p hp' hcp w hw)) (ih p hp' hcp w hw n l _ _ hrw)
  | @simple x hcls hit =>
    intro n l fa fb hv
    cases n with
    | zero => exact calm_raise _
    | succ n =>
      show Calm (dispatch H o (diffIter H o n) (leftOf l x) (rightOf l x) fa fb)
      have hr : Calm (compareRecord H o (diffIter H o n) (leftOf l x) (rightOf l x) fa fb) :=
        calm_record_none hs (fun nm => (readSlot_sides (not_rcd_of_items hit) nm).1)
          (fun nm => (readSlot_sides (not_rcd_of_items hit) nm).2)
      unfold dispatch
      rw [one_sided]
      cases x with
      | atom a => exact calm_nil
      | list xs => exact calm_simple_one hs hit
      | dict xs => exact calm_simple_one hs hit
      | rcd c s => exact hr
      | lcoll c xs =>
        obtain ⟨kd, t, ht⟩ := hcls c rfl
        refine calm_append ?_ hr
        unfold compareColl
        rw [ht]
        exact calm_simple_one hs hit
      | dcoll c xs =>
        obtain ⟨kd, t, ht⟩ := hcls c rfl
        refine calm_append ?_ hr
        unfold compareColl
        rw [ht]
        exact calm_simple_one hs hit
  | @records x c kd m la hcl hcoll hla _ ih =>
    intro n l fa fb hv
    cases n with
    | zero => exact calm_raise _
    | succ n =>
      show Calm (dispatch H o (diffIter H o n) (leftOf l x) (rightOf l x) fa fb)
      have hr : Calm (compareRecord H o (diffIter H o n) (leftOf l x) (rightOf l x) fa fb) :=
        calm_record_none hs (fun nm => (readSlot_sides (not_rcd_of_members hla) nm).1)
          (fun nm => (readSlot_sides (not_rcd_of_members hla) nm).2)
      have hc : Calm (compareColl H o (diffIter H o n) c (leftOf l x) (rightOf l x) fa fb) := by
        unfold compareColl
        rw [hcoll]
        exact calm_records_one hs hv hla (fun e he fa fb => ih e he n l fa fb (member_real hs hv hla he))
      unfold dispatch
      rw [one_sided]
      cases x with
      | atom a => exact calm_nil
      | list xs => simp [clsOf] at hcl
      | dict xs => simp [clsOf] at hcl
      | rcd c s => exact hr
      | lcoll c' xs =>
        simp [clsOf] at hcl
        subst hcl
        exact calm_append hc hr
      | dcoll c' xs =>
        simp [clsOf] at hcl
        subst hcl
        exact calm_append hc hr

end Normalize.Diff
