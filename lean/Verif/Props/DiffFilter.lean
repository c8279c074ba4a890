import Verif.Props.DiffMirror
import Verif.Props.Mfs

/-!
# C45: comparing with a filter
-/

namespace Normalize.Diff
open Ident (IProp ICls Ty ItemTy CollKind Schema readAttr)
open Spec (Real PlainSlots Touches SimpleContainer SameFor Follow)
open Gen

variable {E F : Type} [DecidableEq E] [DecidableEq F] {H : Hooks E F} {o : Opts}

/-- The truth of `mfs[fs]` (diff.py:355) says whether the filter touches the place. -/
theorem selects_iff {ord : List MArg → List MArg} (hord : Mfs.OrdOK ord) {h : Heads} {qs : List FS}
    (hb : Built ord h qs) (hq : qs ≠ []) (p : FS) : selects h p = true ↔ Touches qs p := by
  obtain ⟨w, hcov, he⟩ := built_sound hord hb
  have hne : h ≠ [] := fun e => hq (he.1 e)
  have hn := C14_getitem_none hord hb hq p
  unfold selects
  cases hg : Mfs.getPath h p with
  | none =>
    simp only [Bool.false_eq_true, false_iff]
    rintro ⟨r, hr⟩
    exact hn.1 hg r hr
  | some s =>
    have hs : s ≠ [] := (Mfs.getPath_some w hg).2.1 hne
    have h1 : Mfs.nonEmpty s = true := by
      unfold Mfs.nonEmpty
      cases s with
      | nil => exact absurd rfl hs
      | cons _ _ => rfl
    simp only [h1, true_iff]
    by_contra hc
    have : Mfs.getPath h p = none := hn.2 (fun r hr => hc ⟨r, hr⟩)
    rw [hg] at this
    simp at this

/-- C45, first part: with `compare_filter` every entry is at a place that the filter touches. -/
def C45_statement : Prop := ∀ (D : Setup) (o : Opts) (ord : List MArg → List MArg) (h : Heads) (qs : List FS)
    (n : Nat) (x y : Val), (∀ p, D.compareAs p = none) → OrdOK D.hooks → Mfs.OrdOK ord → Built ord h qs → qs ≠ [] →
    o.duckType = false → o.compareFilter = some h → Real D.S x → Real D.S y →
    ∀ d ∈ (diff D.hooks o n x y).out, Touches qs d.base

namespace Ex

/-- `MultiFieldSelector(["tags", 0], ["title"])` -/
def someTags : Heads := [(.str "tags", .node [(.int 0, .all)]), (.str "title", .all)]

theorem someTags_built : Built id someTags [[.str "tags", .int 0], [.str "title"]] := .mk (.fs (.fs .nil)) rfl

end Ex

/-- C45 is false of the code: the items of a plain list are all compared if the filter selects one of them. -/
theorem C45_violated : ¬ C45_statement := by
  intro h
  have h1 := h (Ex.setup {}) { compareFilter := some Ex.someTags } id Ex.someTags _ 9 Ex.docA Ex.docB (fun _ => rfl)
    (Ex.ordOK {}) ordOK_id Ex.someTags_built (List.cons_ne_nil _ _) rfl rfl Ex.real_docA Ex.real_docB
    ⟨.removed, [.str "tags", .int 2], [.str "tags"]⟩ (by decide +kernel)
  rw [← selects_iff ordOK_id Ex.someTags_built (by simp)] at h1
  revert h1
  decide +kernel

/-- The items that are looked at are touched by the filter. -/
theorem looksAt_selects {h : Heads} (w : Mfs.WF h) (ha : o.active = some h) {fa : FS} {k : Comp} {ia : IdArgs}
    (hia : idArgs o fa = .ok ia) (hl : ia.looksAt fa k = true) (hs : selects h fa = true) (hlive : ia.dead = false) :
    selects h (fa ++ [k]) = true := by
  have hne : h ≠ [] := by
    unfold Opts.active at ha
    have := (Option.filter_eq_some_iff.1 ha).2
    rintro rfl
    simp [Mfs.nonEmpty] at this
  have hp : (if fa.isEmpty then some h else Mfs.getPath h fa) = Mfs.getPath h fa := by
    cases fa with
    | nil => rfl
    | cons _ _ => rfl
  unfold idArgs at hia
  rw [ha] at hia
  simp only [hp] at hia
  unfold selects at hs ⊢
  cases hg : Mfs.getPath h fa with
  | none => rw [hg] at hs; simp at hs
  | some cf =>
    rw [hg] at hs hia
    simp only at hs hia
    obtain ⟨w', hne', _⟩ := Mfs.getPath_some w hg
    have hcne := hne' hne
    rw [Mfs.getPath_append w, hg]
    simp only [Option.bind_some]
    have hnon : ∀ s : Heads, s ≠ [] → Mfs.nonEmpty s = true := by
      intro s hs
      cases s with
      | nil => exact absurd rfl hs
      | cons _ _ => rfl
    split at hia
    · rename_i hn
      obtain ⟨t, rfl⟩ := w'.single hn
      unfold Mfs.getPath
      split
      · rename_i s hs'
        split at hs'
        · simp at hs'
          subst hs'
          exact hnon _ hcne
        · have hk : Mfs.headKey [(Comp.none, t)] k = .none := by simp [Mfs.headKey, hn]
          rw [hk] at hs'
          cases t with
          | all => 
            simp [Mfs.lookup] at hs'
            subst hs'
            rfl
          | node s' =>
            simp [Mfs.lookup, Mfs.getPath] at hs'
            subst hs'
            exact hnon _ (w'.nonempty .none s' (by simp))
      · rename_i hs'
        exfalso
        have hk : Mfs.headKey [(Comp.none, t)] k = .none := by simp [Mfs.headKey, hn]
        rw [hk] at hs'
        split at hs'
        · simp at hs'
        · cases t <;> simp [Mfs.lookup, Mfs.getPath] at hs'
    · simp only [Except.ok.injEq] at hia
      subst hia
      have hc : Mfs.containsPath h (fa ++ [k]) = true := hl
      have hgp : Mfs.getPath h (fa ++ [k]) = Mfs.getPath cf [k] := by
        rw [Mfs.getPath_append w, hg]; rfl
      cases hg2 : Mfs.getPath cf [k] with
      | none =>
        have := Mfs.getPath_none w (hgp.trans hg2) []
        rw [List.append_nil] at this
        rw [this] at hc
        simp at hc
      | some s =>
        exact hnon s ((Mfs.getPath_some w' hg2).2.1 hcne)

/-- Where the entries of a filtered comparison are. -/
structure InFilter (S : Schema) (h : Heads) (x : Val) (d : DInfo) (fa : FS) : Prop where
  place : selects h d.base = true ∨ ∃ w k v, d.base = fa ++ w ++ [k] ∧ selects h (fa ++ w) = true ∧ Follow S x w v ∧
    SimpleContainer S v

theorem yields_filter (hp : PlainSlots H) (hd : o.duckType = false) {h : Heads} (w : Mfs.WF h)
    (ha : o.active = some h) {a b : Option Val} {fa fb : FS} {d : DInfo} (hy : Yields H o a b fa fb d) :
    ∀ x, a = some x → selects h fa = true → InFilter H.S h x d fa := by
  have hopen : ∀ {a b : Option Val} {fa : FS} {p : IProp} {va vb : Option Val}, Slot H o a b fa p va vb →
      selects h (fa ++ [.str p.name]) = true := by
    intro a b fa p va vb hs
    have := hs.open_
    unfold isFiltered at this
    rw [ha] at this
    simp at this
    exact this.2
  have hsimple : ∀ {x : Val} {b : Option Val}, IsSimple H (some x) b → SimpleContainer H.S x := by
    intro x b hs
    cases hs with
    | list xs h => cases h; exact .list _
    | dict xs h => cases h; exact .dict _
    | lcoll c xs k t h h' => cases h; exact .lcoll h'
    | dcoll c xs k t h h' => cases h; exact .dcoll h'
  have hkeyA : ∀ {a b : Option Val} {fa : FS} {ia : IdArgs} {A B : List (Ent (Id E))} {k : Comp},
      Recs H o a b fa ia A B → k ∈ A.map (·.2) → selects h fa = true → selects h (fa ++ [k]) = true := by
    intro a b fa ia A B k hr hk hs
    obtain ⟨n, _, hA, _⟩ := hr.recs
    obtain ⟨e, he, rfl⟩ := List.mem_map.1 hk
    obtain ⟨v, xs, _, _, hl, _⟩ := collBag_mem hA he
    exact looksAt_selects w ha hr.args hl hs hr.live
  induction hy with
  | added hs => intro x _ _; exact ⟨.inl (hopen hs)⟩
  | removed hs => intro x _ _; exact ⟨.inl (hopen hs)⟩
  | modified hs => intro x _ _; exact ⟨.inl (hopen hs)⟩
  | same hs => intro x _ _; exact ⟨.inl (hopen hs)⟩
  | netSame hs => intro x _ _; exact ⟨.inl (hopen hs)⟩
  | netL hs => intro x _ _; exact ⟨.inl (hopen hs)⟩
  | netR hs => intro x _ _; exact ⟨.inl (hopen hs)⟩
  | @sub a b fa fb p x' y' d hs hdesc _ ih =>
    intro x hx hsel
    subst hx
    obtain ⟨v, ⟨x'', hx'', hf⟩, hn⟩ := slot_left hp hs
    cases hx''
    have hcmp : comparable x' = true := by
      unfold descends at hdesc
      rw [hd] at hdesc
      simp [comparable] at hdesc
      obtain ⟨h1, h2⟩ := hdesc
      rw [← h2] at h1
      simpa [comparable] using h1
    have : x' = v := hp.keeps _ _ _ _ hn (.inr hcmp)
    subst this
    obtain ⟨h1⟩ := ih x' rfl (hopen hs)
    refine ⟨h1.imp_right ?_⟩
    rintro ⟨w, k, u, e1, e2, e3, e4⟩
    refine ⟨.str p.name :: w, k, u, ?_, ?_, Follow.trans hf e3, e4⟩
    · rw [e1]; simp
    · simpa using e2
  | @sMoved a b fa fb A B ka kb hb => 
    intro x hx hsel
    subst hx
    exact ⟨.inr ⟨[], ka, x, by simp, by simpa using hsel, .here, hsimple hb.simple⟩⟩
  | @sSame a b fa fb A B ka kb hb => 
    intro x hx hsel
    subst hx
    exact ⟨.inr ⟨[], ka, x, by simp, by simpa using hsel, .here, hsimple hb.simple⟩⟩
  | @sRemoved a b fa fb A B e hb => 
    intro x hx hsel
    subst hx
    exact ⟨.inr ⟨[], e.2, x, by simp, by simpa using hsel, .here, hsimple hb.simple⟩⟩
  | sAdded hb => intro x hx hsel; exact ⟨.inl hsel⟩
  | @sModified a b fa fb A B e e' hb => 
    intro x hx hsel
    subst hx
    exact ⟨.inr ⟨[], e.2, x, by simp, by simpa using hsel, .here, hsimple hb.simple⟩⟩
  | @item a b fa fb ia A B ka kb x' y' d hr hka hkb hxa hyb _ ih =>
    intro x hx hsel
    subst hx
    obtain ⟨h1⟩ := ih x' rfl (hkeyA hr hka hsel)
    refine ⟨h1.imp_right ?_⟩
    rintro ⟨w, k, u, e1, e2, e3, e4⟩
    refine ⟨ka :: w, k, u, ?_, ?_, .item hxa e3, e4⟩
    · rw [e1]; simp
    · simpa using e2
  | itemR => intro x hx; simp at hx
  | @itemL x' fa fb ia A B k x'' d hr hk hxa _ ih =>
    intro x hx hsel
    cases hx
    obtain ⟨h1⟩ := ih x'' rfl (hkeyA hr hk hsel)
    refine ⟨h1.imp_right ?_⟩
    rintro ⟨w, k', u, e1, e2, e3, e4⟩
    refine ⟨k :: w, k', u, ?_, ?_, .item hxa e3, e4⟩
    · rw [e1]; simp
    · simpa using e2
  | rMoved hr hka => intro x hx hsel; exact ⟨.inl (hkeyA hr hka hsel)⟩
  | rSame hr hka => intro x hx hsel; exact ⟨.inl (hkeyA hr hka hsel)⟩
  | rRemoved hr hka => intro x hx hsel; exact ⟨.inl (hkeyA hr hka hsel)⟩
  | rAdded hr => intro x hx hsel; exact ⟨.inl hsel⟩

/-- C45 (partial), first part: with `compare_filter` every entry is at a place that the filter touches, or is an
item of a container of values that are no records, and the filter touches the container.  What is missing: the
items of such containers are not filtered one by one (`C45_violated`). -/
theorem C45_partial (ho : OrdOK H) (hp : PlainSlots H) (hd : o.duckType = false)
    {ord : List MArg → List MArg} (hord : Mfs.OrdOK ord) {h : Heads} {qs : List FS} (hb : Built ord h qs)
    (hq : qs ≠ []) (hf : o.compareFilter = some h) (n : Nat) (x y : Val) :
    ∀ d ∈ (diff H o n x y).out, Touches qs d.base ∨
      ∃ w k v, d.base = w ++ [k] ∧ Touches qs w ∧ Follow H.S x w v ∧ SimpleContainer H.S v := by
  intro d hdm
  obtain ⟨w, hcov, he⟩ := built_sound hord hb
  have hne : h ≠ [] := fun e => hq (he.1 e)
  have hnon : Mfs.nonEmpty h = true := by
    cases h with
    | nil => exact absurd rfl hne
    | cons _ _ => rfl
  have ha : o.active = some h := by
    unfold Opts.active
    rw [hf]
    simp [Option.filter, hnon]
  have hs0 : selects h [] = true := hnon
  obtain ⟨h1⟩ := yields_filter hp hd w ha (yields_diffIter ho n _ _ _ _ _ hdm) x rfl hs0
  simp only [selects_iff hord hb hq, List.nil_append] at h1
  exact h1

/-! ## Second part -/

variable (D : Setup) {qs : List FS}

/-- Nothing, or an object of the class. -/
inductive RcdOr (c : String) : Option Val → Prop
  | none : RcdOr c none
  | cls {v} : tagOf v = some (.cls c) → RcdOr c (some v)

theorem RcdOr.same {c : String} {q : FS} {a a' : Option Val} (ha : RcdOr c a) (hs : SameFor D.S qs q a a') :
    RcdOr c a' := by
  cases hs with
  | refl => exact ha
  | rcd h => cases ha with | cls e => exact .cls e

theorem clsOf_of_tag {v : Val} {c : String} (h : tagOf v = some (.cls c)) : clsOf v = some c := by
  cases v <;> simp [tagOf] at h <;> simp [clsOf, h]

/-- Members cannot be read from a record. -/
theorem coll_rcd {rec : Rec} {c d : String} {s t} {a : Option Val} {fa fb : FS} :
    compareColl D.hooks o rec d a (some (.rcd c s)) fa fb = compareColl D.hooks o rec d a (some (.rcd c t)) fa fb := by
  have h1 : ∀ x, simpleBag D.hooks o x (some (.rcd c s)) = simpleBag D.hooks o x (some (.rcd c t)) := fun x => rfl
  have h2 : ∀ ty ia, collBag D.hooks o ty ia fa (some (.rcd c s)) = .error .typeError := fun _ _ => rfl
  have h3 : ∀ ty ia, collBag D.hooks o ty ia fa (some (.rcd c t)) = .error .typeError := fun _ _ => rfl
  unfold compareColl compareSimple compareRecords
  simp only [h1, h2, h3, Gen.bindE]

theorem same_norm {q v v'} (hs : SameFor D.S qs q v v') :
    SameFor D.S qs q (normalizeVal D.U D.text v) (normalizeVal D.U D.text v') := by
  cases hs with
  | refl => exact .refl
  | rcd h => simpa [normalizeVal, scrub, valueIsEmpty] using SameFor.rcd h

theorem same_tag {q v v'} (hs : SameFor D.S qs q (some v) (some v')) : tagOf v = tagOf v' := by
  cases hs <;> rfl

/-- Either the same, or both records of a class. -/
theorem same_cases {q v v'} (hs : SameFor D.S qs q v v') :
    v = v' ∨ ∃ c s t, v = some (.rcd c s) ∧ v' = some (.rcd c t) := by
  cases hs with
  | refl => exact .inl rfl
  | rcd h => exact .inr ⟨_, _, _, rfl, rfl⟩

theorem veq_differ {v w v' w' : Val} (ht : tagOf v ≠ tagOf w) {q r} (hv : SameFor D.S qs q (some v) (some v'))
    (hw : SameFor D.S qs r (some w) (some w')) : Ident.veq D.S v w = Ident.veq D.S v' w' := by
  rcases same_cases D hv with h1 | ⟨c, s, t, h1, h2⟩
  · cases h1
    rcases same_cases D hw with h1 | ⟨c, s, t, h1, h2⟩
    · cases h1; rfl
    · cases h1
      cases h2
      cases v with
      | rcd d u =>
        have : d ≠ c := by rintro rfl; exact ht rfl
        simp [Ident.veq, this]
      | _ => simp [Ident.veq, Ident.atomVs]
  · cases h1
    cases h2
    have ht' := same_tag D hw
    rw [ht'] at ht
    cases w with
    | rcd d u =>
      rcases same_cases D hw with h1 | ⟨c', s', t', h1, h2⟩
      · cases h1
        have : c ≠ d := by rintro rfl; exact ht rfl
        simp [Ident.veq, this]
      · cases h1
        cases h2
        have : c ≠ d := by rintro rfl; exact ht rfl
        simp [Ident.veq, this]
    | _ =>
      rcases same_cases D hw with h1 | ⟨c', s', t', h1, h2⟩
      · cases h1
        simp [Ident.veq]
      · cases h1

theorem outside_vals (hd : o.duckType = false) {rec : Rec} {q fb : FS} {va va' vb vb' : Option Val}
    (hrec : ∀ a a' b b', SameFor D.S qs q a a' → SameFor D.S qs q b b' →
      (∀ u v, a = some u → b = some v → tagOf u = tagOf v) → rec a b q fb = rec a' b' q fb)
    (hva : SameFor D.S qs q va va') (hvb : SameFor D.S qs q vb vb') :
    compareVals D.hooks o rec va vb q fb = compareVals D.hooks o rec va' vb' q fb := by
  have e1 : va.isSome = va'.isSome := by cases hva <;> rfl
  have e2 : vb.isSome = vb'.isSome := by cases hvb <;> rfl
  cases va with
  | none =>
    cases va' with
    | some _ => simp at e1
    | none =>
      cases vb with
      | none =>
        cases vb' with
        | some _ => simp at e2
        | none => rfl
      | some y =>
        cases vb' with
        | none => simp at e2
        | some y' =>
          have ht := same_tag D hvb
          have hr := hrec none none (some y) (some y') .refl hvb (by simp)
          simp only [compareVals, comparable, ht, hr]
          rfl
  | some x =>
    cases va' with
    | none => simp at e1
    | some x' =>
      have htx := same_tag D hva
      cases vb with
      | none =>
        cases vb' with
        | some _ => simp at e2
        | none =>
          have hr := hrec (some x) (some x') none none hva .refl (by simp)
          simp only [compareVals, comparable, htx, hr]
          rfl
      | some y =>
        cases vb' with
        | none => simp at e2
        | some y' =>
          have hty := same_tag D hvb
          simp only [compareVals, comparable, ← htx, ← hty, hd]
          by_cases ht : tagOf x = tagOf y
          · rw [hrec (some x) (some x') (some y) (some y') hva hvb (by
              intro u v hu hv; cases hu; cases hv; exact ht)]
            by_cases hcx : ((tagOf x).isSome || (tagOf y).isSome) = true
            · have hcy : (tagOf y).isSome = true := by simpa [ht] using hcx
              simp only [hcy, ht, decide_true, Bool.true_or, Bool.and_true, if_true]
            · have h1 : tagOf x = none := by simp at hcx; exact hcx.1
              rcases same_cases D hva with h2 | ⟨_, _, _, h2, _⟩
              · cases h2
                rcases same_cases D hvb with h3 | ⟨_, _, _, h3, _⟩
                · cases h3; rfl
                · cases h3; rw [h1] at ht; simp [tagOf] at ht
              · cases h2; simp [tagOf] at h1
          · have hv : D.hooks.itemsEqual x y = D.hooks.itemsEqual x' y' := veq_differ D ht hva hvb
            simp [ht, hv]

/-- Reading a property that the filter touches. -/
theorem same_read {c : String} {q : FS} {a a' : Option Val} (ha : RcdOr c a) (hs : SameFor D.S qs q a a') {p : IProp}
    (hp : p ∈ (D.S.cls c).props) (ht : Touches qs (q ++ [.str p.name])) :
    SameFor D.S qs (q ++ [.str p.name]) (readSlot D.hooks a p.name) (readSlot D.hooks a' p.name) := by
  cases hs with
  | refl => exact .refl
  | rcd h =>
    cases ha with
    | cls e =>
      simp [tagOf] at e
      subst e
      exact h p hp ht

theorem outside_record (hc : ∀ p, D.compareAs p = none) (hd : o.duckType = false) {h : Heads}
    (hact : o.active = some h) (hsel : ∀ p, selects h p = true → Touches qs p) {rec : Rec} {c : String} {q fb : FS}
    {a a' b b' : Option Val}
    (hrec : ∀ q fb a a' b b', SameFor D.S qs q a a' → SameFor D.S qs q b b' →
      (∀ u v, a = some u → b = some v → tagOf u = tagOf v) → rec a b q fb = rec a' b' q fb)
    (ra : RcdOr c a) (rb : RcdOr c b) (ha : SameFor D.S qs q a a') (hb : SameFor D.S qs q b b') :
    compareRecord D.hooks o rec a b q fb = compareRecord D.hooks o rec a' b' q fb := by
  have ra' := ra.same D ha
  have rb' := rb.same D hb
  have e1 : a.isSome = a'.isSome := by cases ha <;> rfl
  have e2 : b.isSome = b'.isSome := by cases hb <;> rfl
  have hclash : ∀ {a b}, RcdOr c a → RcdOr c b → typeClash o a b = false := by
    intro a b ra rb
    cases ra <;> cases rb <;> simp_all [typeClash]
  have hprops : propsOf D.hooks a b = propsOf D.hooks a' b' := by
    have hp : ∀ {a b}, RcdOr c a → RcdOr c b → propsOf D.hooks a b =
        if a.isSome || b.isSome then (D.S.cls c).props.insertionSort (fun p q => p.name ≤ q.name) else [] := by
      intro a b ra rb
      cases ra with
      | none =>
        cases rb with
        | none => rfl
        | cls e => simp [propsOf, clsOf_of_tag e, Setup.hooks]
      | cls e => simp [propsOf, clsOf_of_tag e, Setup.hooks]
    rw [hp ra rb, hp ra' rb', e1, e2]
  have hmem : ∀ p ∈ propsOf D.hooks a b, p ∈ (D.S.cls c).props := by
    intro p hp
    cases ra with
    | none =>
      cases rb with
      | none => simp [propsOf] at hp
      | cls e => simp [propsOf, clsOf_of_tag e] at hp; exact hp
    | cls e => simp [propsOf, clsOf_of_tag e] at hp; exact hp
  unfold compareRecord
  rw [hclash ra rb, hclash ra' rb', ← hprops]
  simp only [Bool.false_eq_true, if_false]
  have hall : ∀ p ∈ propsOf D.hooks a b, compareProp D.hooks o rec a b q fb p = compareProp D.hooks o rec a' b' q fb p := by
    intro p hp
    unfold compareProp
    cases hf : isFiltered o p (q ++ [.str p.name]) with
    | true => rfl
    | false =>
      have ht : Touches qs (q ++ [.str p.name]) := by
        apply hsel
        unfold isFiltered at hf
        rw [hact] at hf
        simp at hf
        exact hf.2
      have hnorm : ∀ v obj, D.hooks.normSlot v p obj = .ok (normalizeVal D.U D.text v) := by
        intro v obj
        cases v with
        | none => rfl
        | some v =>
          show normalizeObjectSlot D (some v) p obj = _
          simp [normalizeObjectSlot, hc p]
      simp only [hnorm, Gen.bindE]
      rw [outside_vals D hd (hrec _ _) (same_norm D (same_read D ra ha (hmem p hp) ht))
        (same_norm D (same_read D rb hb (hmem p hp) ht))]
  generalize propsOf D.hooks a b = l at hall
  induction l with
  | nil => rfl
  | cons p l ih =>
    simp only [Gen.forEach]
    rw [hall p (by simp), ih (fun x hx => hall x (by simp [hx]))]

theorem outside_diffIter (hc : ∀ p, D.compareAs p = none) (hd : o.duckType = false) {h : Heads}
    (hact : o.active = some h) (hsel : ∀ p, selects h p = true → Touches qs p) (n : Nat) :
    ∀ q fb a a' b b', SameFor D.S qs q a a' → SameFor D.S qs q b b' →
      (∀ u v, a = some u → b = some v → tagOf u = tagOf v) →
      diffIter D.hooks o n a b q fb = diffIter D.hooks o n a' b' q fb := by
  induction n with
  | zero => intros; rfl
  | succ n ih =>
    intro q fb a a' b b' ha hb ht
    rcases same_cases D ha with h1 | ⟨c, s, t, h1, h2⟩
    · rcases same_cases D hb with h3 | ⟨c, s, t, h3, h4⟩
      · rw [h1, h3]
      · have ra : RcdOr c a := by
          cases a with
          | none => exact .none
          | some u => exact .cls (ht u _ rfl h3)
        have hr := outside_record D hc hd hact hsel (fb := fb) ih ra (h3 ▸ .cls rfl) ha hb
        subst h1 h3 h4
        cases a with
        | none => exact hr
        | some u =>
          have := ht u _ rfl rfl
          cases u with
          | rcd _ _ => exact hr
          | lcoll d xs =>
            simp only [diffIter, dispatch, Option.orElse]
            rw [hr, coll_rcd D (s := s) (t := t)]
          | dcoll d xs =>
            simp only [diffIter, dispatch, Option.orElse]
            rw [hr, coll_rcd D (s := s) (t := t)]
          | _ => simp [tagOf] at this
    · have rb : RcdOr c b := by
        cases b with
        | none => exact .none
        | some u => exact .cls (ht _ u h1 rfl).symm
      have hr := outside_record D hc hd hact hsel (fb := fb) ih (h1 ▸ .cls rfl) rb ha hb
      subst h1 h2
      exact hr

/-- C45, second part: differences outside the filter do not affect the result, for objects whose properties hold
anything that is not touched, at any depth of nested records. -/
theorem C45_outside_partial (D : Setup) (hc : ∀ p, D.compareAs p = none) (hd : o.duckType = false)
    {ord : List MArg → List MArg} (hord : Mfs.OrdOK ord) {h : Heads} {qs : List FS} (hb : Built ord h qs)
    (hq : qs ≠ []) (hf : o.compareFilter = some h) (n : Nat) (x x' y y' : Val)
    (ht : tagOf x = tagOf y) (hx : SameFor D.S qs [] (some x) (some x'))
    (hy : SameFor D.S qs [] (some y) (some y')) :
    diff D.hooks o n x y = diff D.hooks o n x' y' := by
  have hnon : Mfs.nonEmpty h = true := by
    obtain ⟨_, _, he⟩ := built_sound hord hb
    cases h with
    | nil => exact absurd (he.1 rfl) hq
    | cons _ _ => rfl
  have ha : o.active = some h := by
    unfold Opts.active
    rw [hf]
    simp [Option.filter, hnon]
  exact outside_diffIter D hc hd ha (fun p => (selects_iff hord hb hq p).1) n [] [] _ _ _ _ hx hy (by
    intro u v hu hv
    cases hu
    cases hv
    exact ht)

namespace Ex

/-- `MultiFieldSelector(["title"], ["author", "id"], ["people", None, "name"])` -/
def someFields : Heads := [(.str "title", .all), (.str "author", .node [(.str "id", .all)]),
  (.str "people", .node [(.none, .node [(.str "name", .all)])])]

/-- The field selectors. -/
def fields : List FS := [[.str "title"], [.str "author", .str "id"], [.str "people", .none, .str "name"]]

theorem someFields_built : Built id someFields fields := .mk (.fs (.fs (.fs .nil))) rfl

/-- A filtered comparison. -/
def filtered : Opts := { compareFilter := some someFields }

end Ex

/-- The hypotheses of `C45_partial` are met: the differences in the words, the tags, the scores and the name of
the author are not reported. -/
example : Ex.filtered.duckType = false ∧ Ex.filtered.compareFilter = some Ex.someFields ∧
    Built id Ex.someFields Ex.fields ∧
    (diff (Ex.hooks {}) Ex.filtered 9 Ex.docA Ex.docB).exc = none ∧
    (diff (Ex.hooks {}) Ex.filtered 9 Ex.docA Ex.docB).out.length = 4 ∧
    (diff (Ex.hooks {}) {} 9 Ex.docA Ex.docB).out.length = 11 :=
  ⟨rfl, rfl, Ex.someFields_built, by decide +kernel⟩

/-- The hypotheses of `C45_outside_partial` are met by two documents that differ in the author's name. -/
example : SameFor Ex.schema Ex.fields [] (some (.rcd "Doc" [("title", .str "t"), ("author", Ex.person 1 "Ann")]))
    (some (.rcd "Doc" [("title", .str "t"), ("author", Ex.person 1 "Bob"), ("tags", .list [])])) := by
  have h0 : ∀ p, Touches Ex.fields p → selects Ex.someFields p = true :=
    fun p => (selects_iff ordOK_id Ex.someFields_built (List.cons_ne_nil _ _) p).2
  refine .rcd ?_
  intro p hp ht
  have ht := h0 _ ht
  simp only [Ex.schema, Ex.cls, List.mem_cons, List.not_mem_nil, or_false] at hp
  rcases hp with rfl | rfl | rfl | rfl | rfl | rfl | rfl
  · exact .refl
  · refine .rcd ?_
    intro p hp ht
    have ht := h0 _ ht
    simp only [Ex.schema, Ex.cls, List.mem_cons, List.not_mem_nil, or_false] at hp
    rcases hp with rfl | rfl
    · exact .refl
    · exact absurd ht (by decide +kernel)
  · exact .refl
  · exact .refl
  · exact absurd ht (by decide +kernel)
  · exact .refl
  · exact .refl

end Normalize.Diff
