import Verif.Lemmas.DiffRecurse
import Verif.Props.DiffEqual

/-!
# C130: comparisons with `recurse` go place by place
-/

namespace Normalize.Diff
open Ident (IProp Schema readAttr veq Sub AtomLaws Unmixed SameShape)
open Spec (Closed Real PlainSlots Agree AgreeAt BlankAt Compared Blank Members Labels nth places NoDiffs ExactAtoms IdsFollow
  FlatRecord FlatItems IsAtom Collected PlacesIdentify)

section
variable {E F : Type} [DecidableEq E] [DecidableEq F] {H : Hooks E F} {o : Opts}

/-- C130: with `recurse`, a comparison that runs to its end reports no difference iff the two objects agree place by
place (`Spec.AgreeAt`), at any depth of nesting. -/
theorem C130_iff (hs : Deep H o) (n : Nat) (x y : Val) (hx : Real H.S x) (hy : Real H.S y) (hc : tagOf x ≠ none)
    (ht : tagOf x = tagOf y) (hend : (diff H o n x y).exc = none) :
    (∀ d ∈ (diff H o n x y).out, d.kind = .noChange ∨ d.kind = .moved) ↔ AgreeAt H o (some x) (some y) := by
  have hcx : comparable x = true := by
    cases h : tagOf x with
    | none => exact absurd h hc
    | some g => simp [comparable, h]
  constructor
  · intro h
    exact agree_of_still_at hs n x y [] [] hx hy hcx ht ⟨hend, h⟩
  · intro h
    exact (calm_of_agree_at hs h n [] [] (onO_some hx) (onO_some hy)).2
      (by intro u w hu hw; simp at hu hw; subst hu hw; exact ⟨hcx, ht⟩) rfl rfl

/-- C130, one direction for any run: objects that agree place by place have no differences, even if the comparison
raises. -/
theorem C130_sound (hs : Deep H o) (n : Nat) (x y : Val) (hx : Real H.S x) (hy : Real H.S y) (hc : tagOf x ≠ none)
    (ht : tagOf x = tagOf y) (h : AgreeAt H o (some x) (some y)) :
    ∀ d ∈ (diff H o n x y).out, d.kind = .noChange ∨ d.kind = .moved := by
  have hcx : comparable x = true := by
    cases h : tagOf x with
    | none => exact absurd h hc
    | some g => simp [comparable, h]
  exact (calm_of_agree_at hs h n [] [] (onO_some hx) (onO_some hy)).2
      (by intro u w hu hw; simp at hu hw; subst hu hw; exact ⟨hcx, ht⟩) rfl rfl

end

variable {o : Opts}

/-! ## `recurse` compares more deeply -/

/-- C130: a comparison with `recurse` is deeper: if it finds no difference, then there is none without `recurse`. -/
def C130_statement : Prop :=
  ∀ (D : Setup) (o : Opts) (n : Nat) (x y : Val), (∀ p, D.compareAs p = none) → (∀ v, D.compareItemAs v = none) →
    OrdOK D.hooks → AtomLaws D.S → ExactAtoms D.S → o.duckType = false → o.compareFilter = none → o.recurse = true →
    Real D.S x → Real D.S y → tagOf x ≠ none → tagOf x = tagOf y → NoDiffs (diff D.hooks o n x y) →
    (diff D.hooks { o with recurse := false } n x y).exc = none → NoDiffs (diff D.hooks { o with recurse := false } n x y)

section
variable {E F : Type} [DecidableEq E] [DecidableEq F] {H : Hooks E F}

theorem blank_of_places {v : Val} (h : BlankAt H o v) : Blank H { o with recurse := false } v := by
  induction h with
  | record va h1 _ ih => exact .record va h1 ih
  | simple h1 h2 => exact .simple h1 h2
  | records h1 h2 h3 => exact .records h1 h2 h3 (by simp)

theorem agree_of_places {T : Val → Prop} (hT : Closed H T) (hTR : ∀ v, T v → Real H.S v)
    (hl : ∀ c n, (H.S.cls c).coll ≠ some (.dict, .one (.cls n))) (hid : PlacesIdentify H o T) {a b : Option Val}
    (h : AgreeAt H o a b) : OnO T a → OnO T b → Agree H { o with recurse := false } a b := by
  induction h with
  | unset => exact fun _ _ => .unset
  | blankL h1 h2 => exact fun _ _ => .blankL h1 (blank_of_places h2)
  | blankR h1 h2 => exact fun _ _ => .blankR h1 (blank_of_places h2)
  | equal h1 h2 => exact fun _ _ => .equal h1 h2
  | record va vb h1 h2 _ ih =>
    exact fun ta tb => .record va vb h1 h2 fun p hp hcp => ih p hp hcp (closed_slot hT ta (h1 p hp hcp))
      (closed_slot hT tb (h2 p hp hcp))
  | simple h1 h2 h3 h4 h5 => exact fun _ _ => .simple h1 h2 h3 h4 h5
  | @records x y c kd n la lb hcx hcy hcoll hla hlb hpl htags hag ih =>
    intro ta tb
    have tx := ta x rfl
    have ty := tb y rfl
    obtain ⟨xs, hxs⟩ : ∃ l, x = .lcoll c l := by
      have hI := (hTR x tx).2 _ (.self _)
      cases x with
      | lcoll d l => simp only [clsOf, Option.some.injEq] at hcx; exact ⟨l, hcx ▸ rfl⟩
      | dcoll d l =>
        simp only [clsOf, Option.some.injEq] at hcx
        subst hcx
        obtain ⟨it, hit⟩ := hI.1
        rw [hcoll] at hit
        cases hit
        exact absurd hcoll (hl _ _)
      | rcd d s => exact absurd rfl (not_rcd_of_members hla d s)
      | _ => simp [clsOf] at hcx
    obtain ⟨ys, hys⟩ : ∃ l, y = .lcoll c l := by
      have hI := (hTR y ty).2 _ (.self _)
      cases y with
      | lcoll d l => simp only [clsOf, Option.some.injEq] at hcy; exact ⟨l, hcy ▸ rfl⟩
      | dcoll d l =>
        simp only [clsOf, Option.some.injEq] at hcy
        subst hcy
        obtain ⟨it, hit⟩ := hI.1
        rw [hcoll] at hit
        cases hit
        exact absurd hcoll (hl _ _)
      | rcd d s => exact absurd rfl (not_rcd_of_members hlb d s)
      | _ => simp [clsOf] at hcy
    subst hxs hys
    have hp : places la = places lb :=
      ((enum_before xs).sublist (places_sublist rfl hla)).eq_of_mem_iff ((enum_before ys).sublist (places_sublist rfl hlb)) hpl
    have mla : ∀ u ∈ la, T u.2.2 := fun u hu => by
      obtain ⟨xs', h1, h2, _⟩ := members_mem hla hu
      exact hT.member _ _ _ _ tx h1 h2
    have mlb : ∀ u ∈ lb, T u.2.2 := fun u hu => by
      obtain ⟨xs', h1, h2, _⟩ := members_mem hlb hu
      exact hT.member _ _ _ _ ty h1 h2
    have htw : List.Forall₂ (fun a b => a.1 = b.1 ∧ (tagOf a.2.2 = tagOf b.2.2 ∧
        Agree H { o with recurse := false } (some a.2.2) (some b.2.2))) la lb := by
      refine forall₂_of_get (by simpa [places] using congrArg List.length hp) ?_
      intro i u w hu hw
      have mu := List.mem_of_getElem? hu
      have mw := List.mem_of_getElem? hw
      have hk : u.2.1 = w.2.1 := by
        have h1 : (places la)[i]? = some u.2.1 := by simp [places, hu]
        have h2 : (places lb)[i]? = some w.2.1 := by simp [places, hw]
        rw [hp, h2] at h1
        simpa using h1.symm
      obtain ⟨as, ha, hma, hi⟩ := members_mem hla mu
      obtain ⟨bs, hb, hmb, hj⟩ := members_mem hlb mw
      exact ⟨hid _ _ _ _ ⟨_, c, kd, n, _, as, tx, rfl, hcoll, ha, hma⟩ ⟨_, c, kd, n, _, bs, ty, rfl, hcoll, hb, hmb⟩ (mla u mu) (mlb w mw) (hag u mu w mw hk) hi hj, htags u mu w mw hk,
        ih u mu w mw hk (onO_some (mla u mu)) (onO_some (mlb w mw))⟩
    exact .records hcx hcy hcoll hla hlb (by rw [labels_fst (R := fun a b => tagOf a.2 = tagOf b.2 ∧
        Agree H { o with recurse := false } (some a.2) (some b.2)) htw])
      (fun j m u w hu hw => (nth_twins (R := fun a b => tagOf a.2 = tagOf b.2 ∧
        Agree H { o with recurse := false } (some a.2) (some b.2)) htw hu hw).1)
      (fun j m u w hu hw => (nth_twins (R := fun a b => tagOf a.2 = tagOf b.2 ∧
        Agree H { o with recurse := false } (some a.2) (some b.2)) htw hu hw).2)

end

/-- **C130 (what holds).** If records are only collected in lists, and members that agree place by place have the same
identity, then objects without differences with `recurse` have none without it. -/
theorem C130_partial (D : Setup) (hc : Spec.CompareFlat D) (ho : OrdOK D.hooks) (hd : o.duckType = false)
    (hf : o.compareFilter = none) (hr : o.recurse = true) (hl : ∀ c n, (D.S.cls c).coll ≠ some (.dict, .one (.cls n)))
    (T : Val → Prop) (hT : Closed D.hooks T) (hTR : ∀ v, T v → Real D.S v) (hid : PlacesIdentify D.hooks o T)
    (m n : Nat) (x y : Val) (tx : T x) (ty : T y) (hcx : tagOf x ≠ none) (ht : tagOf x = tagOf y)
    (h : NoDiffs (diff D.hooks o m x y)) :
    ∀ d ∈ (diff D.hooks { o with recurse := false } n x y).out, d.kind = .noChange ∨ d.kind = .moved :=
  C39_sound (std_default (o := { o with recurse := false }) D hc ho hd hf rfl) n x y (hTR x tx) (hTR y ty) hcx ht
    (agree_of_places hT hTR hl hid ((C130_iff (deep_default D hc ho hd hf hr) m x y (hTR x tx) (hTR y ty) hcx ht h.1).1 h.2)
      (onO_some tx) (onO_some ty))

/-! ### Records identified by values without parts -/

/-- What `record_id` sees of a slot depends only on its normal form. -/
theorem normal_none (D : Setup) (r r' : Option Val)
    (h : (r.bind fun v => normalizeVal D.U D.text (some v)) = r'.bind fun v => normalizeVal D.U D.text (some v)) :
    normalizeVal D.U D.text (some (r.getD .none)) = normalizeVal D.U D.text (some (r'.getD .none)) := by
  have key : ∀ v, normalizeVal D.U D.text (some v) = none → normalizeVal D.U D.text (some Val.none) = none := by
    intro v hv
    simp only [normalizeVal] at hv ⊢
    split at hv
    · rename_i hb
      simp only [Bool.and_eq_true] at hb
      simp [hb.1, scrub, Val.none, valueIsEmpty]
    · simp at hv
  cases r with
  | none =>
    cases r' with
    | none => rfl
    | some v =>
      have h : none = normalizeVal D.U D.text (some v) := h
      simp only [Option.getD_none, Option.getD_some]
      rw [← h]
      exact key v h.symm
  | some u =>
    cases r' with
    | none =>
      have h : normalizeVal D.U D.text (some u) = none := h
      simp only [Option.getD_none, Option.getD_some]
      rw [h]
      exact (key u h).symm
    | some v => exact h

/-- The identity of a record depends only on the normal forms of its identifying properties. -/
theorem rid_norms (D : Setup) (hc : ∀ p, D.compareAs p = none) (n : Nat) (c : String) (a b : Val)
    (hcoll : (D.S.cls c).coll = none)
    (h : ∀ p, Ident.Identifies D.S c p → ((readAttr D.S a p.name).bind fun v => normalizeVal D.U D.text (some v)) =
      (readAttr D.S b p.name).bind fun v => normalizeVal D.U D.text (some v)) :
    Ident.rid D.S (some (slotHook D)) n (.cls c) none a = Ident.rid D.S (some (slotHook D)) n (.cls c) none b := by
  cases n with
  | zero => rfl
  | succ n =>
    have hk : ∀ v p obj, Ident.runHook (some (slotHook D)) v p obj =
        .ok ((normalizeVal D.U D.text (some v)).getD nothingVal) := by
      intro v p obj
      simp [Ident.runHook, slotHook, normalizeObjectSlot, hc p]
    simp only [Ident.rid, hcoll]
    congr 1
    refine mapE_congr (fun p hp => ?_)
    simp only [Ident.slotKey, hk, normal_none D _ _ (h p (Ident.idProps_identifies hp))]

theorem agreeAt_atoms (D : Setup) (ha : ExactAtoms D.S) {a b : Option Val} (h : AgreeAt D.hooks o a b)
    (h1 : ∀ v, a = some v → IsAtom v) (h2 : ∀ v, b = some v → IsAtom v) : a = b := by
  have hb : ∀ v, IsAtom v → ¬ BlankAt D.hooks o v := by
    rintro _ ⟨a, rfl⟩ h
    generalize hv : Val.atom a = v at h
    cases h with
    | record => simp at hv
    | simple _ h => subst hv; obtain ⟨xs, hxs, _⟩ := h; simp [tuplesOf] at hxs
    | records h => subst hv; simp [clsOf] at h
  cases h with
  | unset => rfl
  | blankL _ h => exact absurd h (hb _ (h1 _ rfl))
  | blankR _ h => exact absurd h (hb _ (h2 _ rfl))
  | equal _ h =>
    obtain ⟨a, rfl⟩ := h1 _ rfl
    obtain ⟨b, rfl⟩ := h2 _ rfl
    have h : veq D.S (.atom a) (.atom b) = .ok true := h
    rw [Ident.veq_atom] at h
    rw [ha a b (by simpa using h)]
  | record => obtain ⟨a, h⟩ := h1 _ rfl; simp at h
  | simple _ _ h =>
    obtain ⟨a, rfl⟩ := h1 _ rfl
    obtain ⟨xs, hxs, _⟩ := h
    simp [tuplesOf] at hxs
  | records h => obtain ⟨a, rfl⟩ := h1 _ rfl; simp [clsOf] at h

theorem norm_atom (D : Setup) {r : Option Val} (h : ∀ v, r = some v → IsAtom v) {w : Val}
    (hw : (r.bind fun v => normalizeVal D.U D.text (some v)) = some w) : IsAtom w := by
  cases r with
  | none => simp at hw
  | some v =>
    obtain ⟨a, rfl⟩ := h v rfl
    exact normalizeVal_atom hw

theorem recId_places (D : Setup) (hc : ∀ p, D.compareAs p = none) (ha : ExactAtoms D.S) {u w : Val}
    (hu : FlatRecord D u) (hw : FlatRecord D w) (h : AgreeAt D.hooks o (some u) (some w)) :
    D.hooks.recId none none u = D.hooks.recId none none w := by
  obtain ⟨c, s, rfl, hcoll, hp, _⟩ := hu
  obtain ⟨d, t, rfl, hcoll', hp', _⟩ := hw
  have hcd : c = d ∧ ∀ p ∈ (D.S.cls c).props, Compared o p → ∃ va vb,
      D.hooks.normSlot (readAttr D.S (.rcd c s) p.name) p (some (.rcd c s)) = .ok va ∧
      D.hooks.normSlot (readAttr D.S (.rcd d t) p.name) p (some (.rcd d t)) = .ok vb ∧ AgreeAt D.hooks o va vb := by
    generalize hx : some (Val.rcd c s) = x at h
    generalize hy : some (Val.rcd d t) = y at h
    cases h with
    | record va vb h1 h2 h3 =>
      simp only [Option.some.injEq, Val.rcd.injEq] at hx hy
      obtain ⟨rfl, rfl⟩ := hx
      obtain ⟨rfl, rfl⟩ := hy
      exact ⟨rfl, fun p hp hcp => ⟨_, _, h1 p hp hcp, h2 p hp hcp, h3 p hp hcp⟩⟩
    | equal ht h =>
      simp only [Option.some.injEq] at hx hy
      subst hx hy
      have h : veq D.S (.rcd c s) (.rcd d t) = .ok true := h
      obtain ⟨rfl, _⟩ := Ident.veq_rcd.1 h
      simp [tagOf] at ht
    | simple _ _ hi =>
      simp only [Option.some.injEq] at hx
      subst hx
      exact absurd rfl (not_rcd_of_items hi c s)
    | records _ _ _ hm =>
      simp only [Option.some.injEq] at hx
      subst hx
      exact absurd rfl (not_rcd_of_members hm c s)
    | _ => simp at hx hy
  obtain ⟨rfl, hr⟩ := hcd
  have hn : ∀ (r : Option Val) p obj, D.hooks.normSlot r p obj =
      .ok (r.bind fun v => normalizeVal D.U D.text (some v)) := by
    intro r p obj
    cases r with
    | none => rfl
    | some v => exact normSlot_some D hc v p obj
  have := rid_norms D hc D.depth c (.rcd c s) (.rcd c t) hcoll (fun p hpi => by
    obtain ⟨h1, h2, h3⟩ := hp p hpi
    obtain ⟨_, _, h4⟩ := hp' p hpi
    obtain ⟨va, vb, g1, g2, g3⟩ := hr p h1 (fun _ => h2)
    rw [hn, Except.ok.injEq] at g1 g2
    subst g1 g2
    exact agreeAt_atoms D ha g3 (fun v hv => norm_atom D h3 hv) (fun v hv => norm_atom D h4 hv))
  show recordIdOf D none none (.rcd c s) = recordIdOf D none none (.rcd c t)
  simp [recordIdOf, Ident.typeOf, this]

/-- The members of collections of records are identified by values without parts. -/
theorem collected_flat (D : Setup) {u : Val}
    (h : Collected D.hooks (fun v => Real D.S v ∧ ∀ w, Sub w v → FlatItems D w) u) : FlatRecord D u := by
  obtain ⟨x, c, kd, n, k, xs, tx, hcx, hcoll, hxs, hm⟩ := h
  have := tx.2 x (.self x)
  cases x <;> simp [clsOf] at hcx <;> subst hcx
  · simp [tuplesOf] at hxs
  · simp only [tuplesOf, Except.ok.injEq] at hxs
    subst hxs
    exact this.2.2 ⟨kd, n, hcoll⟩ u (enum_mem_list (k := k) hm)
  · simp only [tuplesOf, Except.ok.injEq] at hxs
    subst hxs
    exact this.2.2 ⟨kd, n, hcoll⟩ _ hm

/-- C130 for records whose collections are lists of records identified by values without parts: if there is no
difference with `recurse`, then there is none without. -/
theorem C130_flat (D : Setup) (hc : ∀ p, D.compareAs p = none) (ho : OrdOK D.hooks) (ha : ExactAtoms D.S)
    (hd : o.duckType = false) (hf : o.compareFilter = none) (hr : o.recurse = true)
    (hl : ∀ c n, (D.S.cls c).coll ≠ some (.dict, .one (.cls n))) (m n : Nat) (x y : Val)
    (hx : Real D.S x) (hy : Real D.S y) (fx : ∀ w, Sub w x → FlatItems D w) (fy : ∀ w, Sub w y → FlatItems D w)
    (hcx : tagOf x ≠ none) (ht : tagOf x = tagOf y) (h : NoDiffs (diff D.hooks o m x y)) :
    ∀ d ∈ (diff D.hooks { o with recurse := false } n x y).out, d.kind = .noChange ∨ d.kind = .moved := by
  refine C130_partial D (.none hc) ho hd hf hr hl _ (closed_parts D (.none hc) (FlatItems D) (fun _ => trivial)) (fun v hv => hv.1) ?_
    m n x y ⟨hx, fx⟩ ⟨hy, fy⟩ hcx ht h
  intro u w i j hu hw _ _ hag hi hj
  have := recId_places D hc ha (collected_flat D hu) (collected_flat D hw) hag
  rw [hi, hj] at this
  exact Except.ok.inj this

/-! ## Examples -/

namespace Ex

theorem no_dicts (c n : String) : ((setup {}).S.cls c).coll ≠ some (.dict, .one (.cls n)) := by
  show (cls c).coll ≠ _
  unfold cls
  split <;> simp

/-- The hypotheses hold of documents with different notes, and so does the conclusion. -/
example (n : Nat) : ∀ d ∈ (diff (hooks {}) {} n (noted "one") (noted "two")).out, d.kind = .noChange ∨ d.kind = .moved :=
  C130_flat (o := { recurse := true }) (setup {}) (fun _ => rfl) (ordOK _) (fun a b h => by simpa [setup, schema] using h) rfl
    rfl rfl no_dicts 9 n _ _ (real_noted _) (real_noted _) (flat_noted _) (flat_noted _) (by simp [noted, tagOf]) rfl
    ⟨by decide +kernel, by decide +kernel⟩

/-- The hypotheses of `C130_iff`. -/
example (t : TextOpts) : Deep (hooks t) { recurse := true } ∧ Real schema docA ∧ Real schema docB ∧ tagOf docA ≠ none ∧
    tagOf docA = tagOf docB ∧ (diff (hooks {}) { recurse := true } 9 docA docB).exc = none :=
  ⟨deep_default _ (.none fun _ => rfl) (ordOK t) rfl rfl rfl, real_docA, real_docB, by simp [docA, tagOf], rfl, by decide +kernel⟩

/-- With `recurse`, a list in another order is compared item by item; without, items are found by their identity. -/
example : (diff (hooks {}) { recurse := true } 9 (.lcoll "People" [person 1 "Ann", person 2 "Bob"])
      (.lcoll "People" [person 2 "Bob", person 1 "Ann"])).out.map (fun d => (d.kind, d.base)) =
      [(.modified, [.int 0, .str "id"]), (.modified, [.int 0, .str "name"]), (.modified, [.int 1, .str "id"]),
        (.modified, [.int 1, .str "name"])] ∧
    diff (hooks {}) {} 9 (.lcoll "People" [person 1 "Ann", person 2 "Bob"])
      (.lcoll "People" [person 2 "Bob", person 1 "Ann"]) = {} := by decide +kernel

end Ex

/-! ## What does not hold -/

/-- **C130 does not hold**: members of a dict are found at the same key whatever the order of insertion, but members with
the same identity are compared in that order. -/
theorem C130_violated : ¬ C130_statement := by
  intro h
  have := h Ex.setupBy { recurse := true } 9 Ex.byAB Ex.byBA (fun _ => rfl) (fun _ => rfl) (fun _ _ => List.Perm.refl _)
    ⟨Ex.laws.refl, Ex.laws.symm, Ex.laws.trans⟩ (fun a b h => by simpa [Ex.setupBy, Ex.schemaBy, Ex.schema] using h)
    rfl rfl rfl (Ex.real_by _ _ _ _ (by decide)) (Ex.real_by _ _ _ _ (by decide)) (by simp [Ex.byAB, tagOf]) rfl
    ⟨by decide +kernel, by decide +kernel⟩ (by decide +kernel)
  exact absurd this.2 (by decide +kernel)

namespace Ex

/-- The classes, and visits that are identified by a number that is extraneous. -/
def clsVisit (c : String) : Ident.ICls :=
  if c = "Visits" then { coll := some (.list, .one (.cls "Visit")) }
  else if c = "Visit" then
    { props := [{ name := "no", extraneous := true }, { name := "page" }], pk := [{ name := "no", extraneous := true }] }
  else cls c

/-- The default methods. -/
def setupVisit : Setup := { setup {} with S := { schema with cls := clsVisit } }

/-- One visit. -/
def visits (i : Int) : Val := .lcoll "Visits" [.rcd "Visit" [("no", .int i), ("page", .str "home")]]

theorem real_visits (i : Int) : Real setupVisit.S (visits i) := by
  refine .lcoll ⟨⟨_, rfl⟩, by simp [clsOf]⟩ ?_
  intro x hx
  simp only [List.mem_cons, List.not_mem_nil, or_false] at hx
  subst hx
  refine .rcd (by simp [Ident.Proper, setupVisit, clsVisit]) (by simp [setupVisit, clsVisit]) ?_
  intro x hx
  simp only [List.mem_cons, List.not_mem_nil, or_false] at hx
  rcases hx with rfl | rfl <;> exact .atom _

end Ex

/-- Nor does C130 hold of lists: if the primary key is extraneous, records with different keys are not matched without
`recurse`, while with `recurse` the key is not compared. -/
theorem C130_violated_key : ∃ (D : Setup) (x y : Val), (∀ p, D.compareAs p = none) ∧ OrdOK D.hooks ∧ Real D.S x ∧ Real D.S y ∧
    tagOf x = tagOf y ∧ (∀ c n, (D.S.cls c).coll ≠ some (.dict, .one (.cls n))) ∧
    diff D.hooks { recurse := true } 9 x y = {} ∧
    (diff D.hooks {} 9 x y).out = [⟨.removed, [.int 0], []⟩, ⟨.added, [], [.int 0]⟩] := by
  refine ⟨Ex.setupVisit, Ex.visits 1, Ex.visits 2, fun _ => rfl, fun _ _ => List.Perm.refl _, Ex.real_visits 1,
    Ex.real_visits 2, rfl, ?_, by decide +kernel, by decide +kernel⟩
  intro c n
  show (Ex.clsVisit c).coll ≠ _
  unfold Ex.clsVisit
  split
  · simp
  · split
    · simp
    · exact Ex.no_dicts c n

end Normalize.Diff
