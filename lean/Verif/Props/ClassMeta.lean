import Verif.Lemmas.ClassMeta

/-!
# C56, C70, C71: record classes
-/

namespace Normalize.ClassMeta
open Spec

variable {s s' : State} {bases : List Nat} {attrs : List (String × AVal)} {c : Nat}

/-! ## What a successful declaration does -/

/-- The parts of a successful declaration. -/
structure Made (s : State) (bases : List Nat) (attrs : List (String × AVal)) (c : Nat) (s' : State) (l : Loop) (r : RecInfo)
    (m : List Nat) : Prop where
  keys : Keys (inherited s bases)
  loop : (addAttrs { props := s.props, properties := inherited s bases } attrs).1 = .ok l
  pk : primaryKey attrs l.properties = .ok r.primaryKey
  mro : newMro s bases = some m
  cls : c = s.classes.length
  properties : r.properties = l.properties
  sorted : r.sorted = sortedProps l.props l.properties
  eager : r.eager = eagerProps l.props l.properties
  state : s' = { props := bindAll s.classes.length l.props l.localProps,
                 classes := s.classes ++ [{ dict := classDict attrs l.auxProps, mro := s.classes.length :: m, info := some r }] }

theorem keys_nil {α : Type} : Keys ([] : List (String × α)) := List.nodup_nil

theorem newRecord_made (h : newRecord s bases attrs = (.ok c, s')) : ∃ l r m, Made s bases attrs c s' l r m := by
  unfold newRecord at h
  by_cases hk : Keys (inherited s bases)
  · rw [(addBases_eq keys_nil).1 (by simpa using hk), List.nil_append] at h
    simp only at h
    split at h
    · cases h
    · rename_i l ps hl
      split at h
      · cases h
      · rename_i pk hpk
        split at h
        · cases h
        · rename_i m hm
          cases h
          exact ⟨l, _, m, hk, by rw [hl], hpk, hm, rfl, rfl, rfl, rfl, rfl⟩
  · rw [(addBases_eq keys_nil).2 (by simpa using hk)] at h
    cases h

theorem newRecord_error {e : CErr} (h : newRecord s bases attrs = (.error e, s')) :
    s'.classes = s.classes ∧ PLater s.props s'.props ∧ ∀ p : Nat, s'.props[p]?.map (·.cls) = s.props[p]?.map (·.cls) := by
  unfold newRecord at h
  by_cases hk : Keys (inherited s bases)
  · rw [(addBases_eq keys_nil).1 (by simpa using hk), List.nil_append] at h
    simp only at h
    have hlater := addAttrs_later { props := s.props, properties := inherited s bases } attrs
    have hcls := addAttrs_cls { props := s.props, properties := inherited s bases } attrs
    split at h
    · rename_i e' ps hl
      cases h
      rw [hl] at hlater hcls
      exact ⟨rfl, hlater.1, hcls⟩
    · rename_i l ps hl
      rw [hl] at hlater hcls
      have hp : PLater s.props l.props ∧ ∀ p : Nat, l.props[p]?.map (·.cls) = s.props[p]?.map (·.cls) := by
        rw [hlater.2.2 l rfl]; exact ⟨hlater.1, hcls⟩
      split at h
      · cases h; exact ⟨rfl, hp⟩
      · split at h
        · cases h; exact ⟨rfl, hp⟩
        · cases h
  · rw [(addBases_eq keys_nil).2 (by simpa using hk)] at h
    cases h
    exact ⟨rfl, .rfl, fun _ => rfl⟩

theorem Made.props {l : Loop} {r : RecInfo} {m : List Nat} (h : Made s bases attrs c s' l r m) (hb : IsBody s attrs) :
    PLater s.props l.props ∧ (∀ k i, (k, i) ∈ l.localProps ↔ OwnProp attrs k i ∧ Unbound s.props i) ∧
    PLater l.props s'.props ∧ Keys l.properties ∧ ∀ k p, (k, p) ∈ l.properties ↔ UnionProp s bases attrs k p := by
  have hlater := addAttrs_later { props := s.props, properties := inherited s bases } attrs
  have h1 : PLater s.props l.props := by rw [hlater.2.2 l h.loop]; exact hlater.1
  have h2 : ∀ k i, (k, i) ∈ l.localProps ↔ OwnProp attrs k i ∧ Unbound s.props i := by
    intro k i
    rw [addAttrs_local _ _ keys_nil hb.dict (by simp) l h.loop k i]
    simp
  have hun : ∀ k i, (k, i) ∈ l.localProps → Unbound l.props i := by
    -- the loop binds nothing
    intro k i hki
    have hu := ((h2 k i).1 hki).2
    have : ∀ (l : Loop) (attrs : List (String × AVal)), Unbound l.props i → ∀ l', (addAttrs l attrs).1 = .ok l' → Unbound l'.props i := by
      intro l attrs
      refine addAttrs_ind (P := fun l attrs r => Unbound l.props i → ∀ l', r.1 = .ok l' → Unbound l'.props i) ?_ ?_ ?_ ?_ ?_ l attrs
      · rintro l h l' ⟨⟩; exact h
      · rintro l nm v rest _ _ l' ⟨⟩
      · rintro l nm j rest _ _ _ l' ⟨⟩
      · intro l nm j p rest _ hp ih h l' hl'
        exact ih ((step_unbound hp i).2 h) l' hl'
      · intro l nm v rest _ _ ih h l' hl'
        exact ih h l' hl'
    exact this _ _ hu l h.loop
  obtain ⟨h3, h4⟩ := addAttrs_properties { props := s.props, properties := inherited s bases } attrs h.keys hb.dict l h.loop
  refine ⟨h1, h2, ?_, h3, ?_⟩
  · rw [h.state]
    exact bindAll_later hun
  · intro k p
    rw [h4, mem_inherited]
    rfl

/-! ## Invariants -/

theorem isRec_append {ps ps' : List PObj} {cs : List Cls} {cl : Cls} {c : Nat} {r : RecInfo} :
    IsRecordClass ⟨ps', cs ++ [cl]⟩ c r ↔ IsRecordClass ⟨ps, cs⟩ c r ∨ (c = cs.length ∧ cl.info = some r) := by
  unfold IsRecordClass
  simp only
  constructor
  · rintro ⟨x, h1, h2⟩
    rcases Nat.lt_trichotomy c cs.length with h | h | h
    · rw [List.getElem?_append_left h] at h1
      exact .inl ⟨x, h1, h2⟩
    · subst h
      rw [List.getElem?_concat_length] at h1
      cases h1
      exact .inr ⟨rfl, h2⟩
    · rw [List.getElem?_eq_none (by simp; omega)] at h1
      cases h1
  · rintro (⟨x, h1, h2⟩ | ⟨rfl, h2⟩)
    · have := (List.getElem?_eq_some_iff.1 h1).1
      exact ⟨x, by rw [List.getElem?_append_left this]; exact h1, h2⟩
    · exact ⟨cl, by rw [List.getElem?_concat_length], h2⟩

theorem isRec_lt {ps : List PObj} {cs : List Cls} {c : Nat} {r : RecInfo} (h : IsRecordClass ⟨ps, cs⟩ c r) : c < cs.length := by
  obtain ⟨x, h1, _⟩ := h
  exact (List.getElem?_eq_some_iff.1 h1).1

/-- What is true in all the states. -/
structure Inv (s : State) : Prop where
  mro : ∀ (c : Nat) (cl : Cls), s.classes[c]? = some cl → (∃ t, cl.mro = c :: t) ∧ cl.mro.Nodup ∧ ∀ d ∈ cl.mro, d < s.classes.length
  keys : ∀ c r, IsRecordClass s c r → Keys r.properties
  bound : ∀ c r, IsRecordClass s c r → ∀ k p, (k, p) ∈ r.properties → ∃ o, s.props[p]? = some o ∧ o.bound = true
  up : ∀ c d r, Ancestor s c d → IsRecordClass s d r → ∃ r', IsRecordClass s c r' ∧ ∀ k p, (k, p) ∈ r.properties → ∃ q, (k, q) ∈ r'.properties
  own : ∀ c r k p, IsRecordClass s c r → OwnAttr s c k (.prop p) → (k, p) ∈ r.properties
  sorted : ∀ c r, IsRecordClass s c r → r.sorted.Perm ((r.properties.map (·.2)).filter (counts s.props)) ∧
    r.sorted.Pairwise (fun i j => nameLe s.props i j = true)
  eager : ∀ c r, IsRecordClass s c r → r.eager = eagerProps s.props r.properties

theorem counts_later {ps ps' : List PObj} (h : PLater ps ps') {i : Nat} {o : PObj} (ho : ps[i]? = some o) :
    counts ps' i = counts ps i := by
  obtain ⟨o', ho', hs⟩ := h.2 i o ho
  simp [counts, ho, ho', hs.extraneous]

theorem eager_later {ps ps' : List PObj} (h : PLater ps ps') {i : Nat} {o : PObj} (ho : ps[i]? = some o) :
    eagerAt ps' i = eagerAt ps i := by
  obtain ⟨o', ho', hs⟩ := h.2 i o ho
  simp [eagerAt, ho, ho', PObj.eagerInit, hs.lazy, hs.required, hs.hasDefault]

theorem name_later {ps ps' : List PObj} (h : PLater ps ps') {i : Nat} {o : PObj} (ho : ps[i]? = some o) (hb : o.bound = true) :
    nameOf ps' i = nameOf ps i := by
  obtain ⟨o', ho', hs⟩ := h.2 i o ho
  rw [hs.bound hb] at ho'
  simp [nameOf, ho, ho']

theorem Inv.later {ps ps' : List PObj} {cs : List Cls} (h : Inv ⟨ps, cs⟩) (hp : PLater ps ps') : Inv ⟨ps', cs⟩ where
  mro := h.mro
  keys := h.keys
  bound := by
    intro c r hr k p hkp
    obtain ⟨o, ho, hb⟩ := h.bound c r hr k p hkp
    obtain ⟨o', ho', hs⟩ := hp.2 p o ho
    exact ⟨o, (hs.bound hb) ▸ ho', hb⟩
  up := h.up
  own := h.own
  sorted := by
    intro c r hr
    obtain ⟨h1, h2⟩ := h.sorted c r hr
    have hmem : ∀ i ∈ r.properties.map (·.2), ∃ o, ps[i]? = some o ∧ o.bound = true := by
      intro i hi
      obtain ⟨⟨k, i'⟩, hk, rfl⟩ := List.mem_map.1 hi
      exact h.bound c r hr k i' hk
    constructor
    · have : (r.properties.map (·.2)).filter (counts ps') = (r.properties.map (·.2)).filter (counts ps) := by
        refine List.filter_congr (fun i hi => ?_)
        obtain ⟨o, ho, _⟩ := hmem i hi
        exact counts_later hp ho
      rw [this]
      exact h1
    · refine List.Pairwise.imp_of_mem ?_ h2
      intro i j hi hj hij
      have hi' := List.mem_filter.1 (h1.mem_iff.1 hi)
      have hj' := List.mem_filter.1 (h1.mem_iff.1 hj)
      obtain ⟨o, ho, hb⟩ := hmem i hi'.1
      obtain ⟨o', ho', hb'⟩ := hmem j hj'.1
      simp only [nameLe, name_later hp ho hb, name_later hp ho' hb'] at *
      exact hij
  eager := by
    intro c r hr
    rw [h.eager c r hr]
    unfold eagerProps
    congr 1
    refine List.filter_congr (fun x hx => ?_)
    obtain ⟨o, ho, _⟩ := h.bound c r hr x.1 x.2 hx
    exact (eager_later hp ho).symm

/-- The new class. -/
theorem Inv.add {ps : List PObj} {cs : List Cls} {cl : Cls} (h : Inv ⟨ps, cs⟩) {m : List Nat} (hm : cl.mro = cs.length :: m)
    (hn : newMro ⟨ps, cs⟩ bases = some m) (hb : ∀ b ∈ bases, b < cs.length)
    (keys : ∀ r, cl.info = some r → Keys r.properties)
    (bound : ∀ r, cl.info = some r → ∀ k p, (k, p) ∈ r.properties → ∃ o, ps[p]? = some o ∧ o.bound = true)
    (up : ∀ b ∈ bases, ∀ r, IsRecordClass ⟨ps, cs⟩ b r → ∃ r', cl.info = some r' ∧ ∀ k p, (k, p) ∈ r.properties → ∃ q, (k, q) ∈ r'.properties)
    (own : ∀ r k p, cl.info = some r → alookup cl.dict k = some (.prop p) → (k, p) ∈ r.properties)
    (sorted : ∀ r, cl.info = some r → r.sorted.Perm ((r.properties.map (·.2)).filter (counts ps)) ∧
      r.sorted.Pairwise (fun i j => nameLe ps i j = true))
    (eager : ∀ r, cl.info = some r → r.eager = eagerProps ps r.properties) : Inv ⟨ps, cs ++ [cl]⟩ := by
  have hlt : ∀ d ∈ m, d < cs.length := by
    intro d hd
    rcases (newMro_spec hn).2.2.2 d hd with hd | ⟨b, _, hd⟩
    · exact hb d hd
    · unfold mroOf at hd
      cases hc : cs[b]? with
      | none => simp only [hc] at hd; cases hd
      | some x => simp only [hc] at hd; exact (h.mro b x hc).2.2 d hd
  have get : ∀ {c : Nat} {x : Cls}, (cs ++ [cl])[c]? = some x → cs[c]? = some x ∨ (c = cs.length ∧ x = cl) := by
    intro c x hx
    rcases Nat.lt_trichotomy c cs.length with h | h | h
    · rw [List.getElem?_append_left h] at hx; exact .inl hx
    · subst h; rw [List.getElem?_concat_length] at hx; cases hx; exact .inr ⟨rfl, rfl⟩
    · rw [List.getElem?_eq_none (by simp; omega)] at hx; cases hx
  refine ⟨?_, ?_, ?_, ?_, ?_, ?_, ?_⟩
  · intro c x hx
    rcases get hx with hx | ⟨rfl, rfl⟩
    · obtain ⟨h1, h2, h3⟩ := h.mro c x hx
      exact ⟨h1, h2, fun d hd => by have := h3 d hd; simp only [List.length_append] at *; omega⟩
    · rw [hm]
      refine ⟨⟨m, rfl⟩, List.nodup_cons.2 ⟨fun hmem => Nat.lt_irrefl _ (hlt _ hmem), (newMro_spec hn).1⟩, ?_⟩
      intro d hd
      simp only [List.length_append, List.length_singleton]
      rcases List.mem_cons.1 hd with rfl | hd
      · omega
      · have := hlt d hd; omega
  · intro c r hr
    rcases (isRec_append (ps := ps)).1 hr with hr | ⟨_, hr⟩
    · exact h.keys c r hr
    · exact keys r hr
  · intro c r hr
    rcases (isRec_append (ps := ps)).1 hr with hr | ⟨_, hr⟩
    · exact h.bound c r hr
    · exact bound r hr
  · rintro c d r ⟨x, hx, hd⟩ hr
    rcases get hx with hx | ⟨rfl, rfl⟩
    · have hdlt := (h.mro c x hx).2.2 d hd
      rcases (isRec_append (ps := ps)).1 hr with hr | ⟨h1, _⟩
      · obtain ⟨r', h1, h2⟩ := h.up c d r ⟨x, hx, hd⟩ hr
        exact ⟨r', (isRec_append (ps := ps)).2 (.inl h1), h2⟩
      · simp only at hdlt; omega
    · rw [hm] at hd
      rcases List.mem_cons.1 hd with rfl | hd
      · exact ⟨r, hr, fun k p hkp => ⟨p, hkp⟩⟩
      · have hdlt := hlt d hd
        have hr' : IsRecordClass ⟨ps, cs⟩ d r := by
          rcases (isRec_append (ps := ps)).1 hr with hr | ⟨h1, _⟩
          · exact hr
          · omega
        have : ∃ b ∈ bases, ∃ r', IsRecordClass ⟨ps, cs⟩ b r' ∧ ∀ k p, (k, p) ∈ r.properties → ∃ q, (k, q) ∈ r'.properties := by
          rcases (newMro_spec hn).2.2.2 d hd with hd | ⟨b, hbb, hd⟩
          · exact ⟨d, hd, r, hr', fun k p hkp => ⟨p, hkp⟩⟩
          · unfold mroOf at hd
            cases hc : cs[b]? with
            | none => simp only [hc] at hd; cases hd
            | some y =>
              simp only [hc] at hd
              obtain ⟨r', h1, h2⟩ := h.up b d r ⟨y, hc, hd⟩ hr'
              exact ⟨b, hbb, r', h1, h2⟩
        obtain ⟨b, hbb, r', h1, h2⟩ := this
        obtain ⟨r'', h3, h4⟩ := up b hbb r' h1
        refine ⟨r'', (isRec_append (ps := ps)).2 (.inr ⟨rfl, h3⟩), fun k p hkp => ?_⟩
        obtain ⟨q, hq⟩ := h2 k p hkp
        exact h4 k q hq
  · rintro c r k p hr ⟨x, hx, hd⟩
    rcases get hx with hx | ⟨rfl, rfl⟩
    · rcases (isRec_append (ps := ps)).1 hr with hr | ⟨h1, _⟩
      · exact h.own c r k p hr ⟨x, hx, hd⟩
      · have := (List.getElem?_eq_some_iff.1 hx).1; omega
    · rcases (isRec_append (ps := ps)).1 hr with hr | ⟨_, hr⟩
      · have := isRec_lt hr; omega
      · exact own r k p hr hd
  · intro c r hr
    rcases (isRec_append (ps := ps)).1 hr with hr | ⟨_, hr⟩
    · exact h.sorted c r hr
    · exact sorted r hr
  · intro c r hr
    rcases (isRec_append (ps := ps)).1 hr with hr | ⟨_, hr⟩
    · exact h.eager c r hr
    · exact eager r hr

theorem sortedProps_spec (ps : List PObj) (properties : List (String × Nat)) :
    (sortedProps ps properties).Perm ((properties.map (·.2)).filter (counts ps)) ∧
    (sortedProps ps properties).Pairwise (fun i j => nameLe ps i j = true) := by
  refine ⟨sortBy_perm _ _, sortBy_sorted ?_ ?_ _⟩
  · intro a b c h1 h2
    simp only [nameLe, decide_eq_true_eq] at *
    exact String.le_trans h1 h2
  · intro a b
    simp only [nameLe, decide_eq_true_eq]
    exact String.le_total _ _

theorem nameOf_bindAll (n : Nat) (ps : List PObj) (loc : List (String × Nat)) (i : Nat) : nameOf (bindAll n ps loc) i = nameOf ps i := by
  unfold nameOf
  rw [bindAll_get]
  by_cases h : i ∈ loc.map (·.2)
  · rw [if_pos h]
    cases ps[i]? with
    | none => rfl
    | some o => rfl
  · rw [if_neg h]

theorem nameLe_bindAll (n : Nat) (ps : List PObj) (loc : List (String × Nat)) : nameLe (bindAll n ps loc) = nameLe ps := by
  funext i j
  simp only [nameLe, nameOf_bindAll]

theorem newMro_props {ps ps' : List PObj} {cs : List Cls} : newMro ⟨ps, cs⟩ bases = newMro ⟨ps', cs⟩ bases := rfl

theorem later_new {ps : List PObj} {o : PObj} : PLater ps (ps ++ [o]) := by
  refine ⟨by simp, fun i x hx => ⟨x, ?_, .rfl⟩⟩
  rw [List.getElem?_append_left (List.getElem?_eq_some_iff.1 hx).1]
  exact hx

theorem Made.inv {l : Loop} {r : RecInfo} {m : List Nat} (h : Made s bases attrs c s' l r m) (hb : IsBody s attrs) (hi : Inv s)
    (hbs : ∀ b ∈ bases, b < s.classes.length) : Inv s' := by
  obtain ⟨h1, h2, h3, h4, h5⟩ := h.props hb
  have hs := h.state
  obtain ⟨ps, cs⟩ := s
  subst hs
  simp only at *
  have hlater := h1.trans h3
  have hnames : nameLe (bindAll cs.length l.props l.localProps) = nameLe l.props := nameLe_bindAll _ _ _
  have exists_of : ∀ k p, (k, p) ∈ l.properties → ∃ o, l.props[p]? = some o ∧
      ∃ o', (bindAll cs.length l.props l.localProps)[p]? = some o' ∧ o'.bound = true := by
    intro k p hkp
    have hcase : ∃ o, ps[p]? = some o ∧ (o.bound = true ∨ OwnProp attrs k p) := by
      rcases (h5 k p).1 hkp with hown | ⟨_, b, _, r', hr', hkp'⟩
      · have := hb.exist k p hown
        exact ⟨ps[p], by simp [this], .inr hown⟩
      · obtain ⟨o, ho, hbd⟩ := hi.bound b r' hr' k p hkp'
        exact ⟨o, ho, .inl hbd⟩
    obtain ⟨o, ho, hor⟩ := hcase
    obtain ⟨o1, ho1, hs1⟩ := h1.2 p o ho
    obtain ⟨o2, ho2, hs2⟩ := h3.2 p o1 ho1
    refine ⟨o1, ho1, o2, ho2, ?_⟩
    by_cases hbd : o.bound = true
    · have e1 := hs1.bound hbd
      subst e1
      have e2 := hs2.bound hbd
      subst e2
      exact hbd
    · have hown : OwnProp attrs k p := hor.resolve_left hbd
      have hloc : p ∈ l.localProps.map (·.2) := by
        refine List.mem_map.2 ⟨(k, p), (h2 k p).2 ⟨hown, o, ho, by simpa using hbd⟩, rfl⟩
      rw [bindAll_get, if_pos hloc, ho1] at ho2
      cases ho2
      rfl
  refine Inv.add (m := m) (bases := bases) (hi.later hlater) rfl ?_ hbs ?_ ?_ ?_ ?_ ?_ ?_
  · rw [newMro_props (ps' := ps)]; exact h.mro
  · rintro r' ⟨⟩; rw [h.properties]; exact h4
  · rintro r' ⟨⟩ k p hkp
    rw [h.properties] at hkp
    obtain ⟨_, _, h6⟩ := exists_of k p hkp
    exact h6
  · intro b hbb r' hr'
    refine ⟨r, rfl, fun k p hkp => ?_⟩
    by_cases hown : ∃ q, OwnProp attrs k q
    · obtain ⟨q, hq⟩ := hown
      exact ⟨q, by rw [h.properties]; exact (h5 k q).2 (.inl hq)⟩
    · exact ⟨p, by rw [h.properties]; exact (h5 k p).2 (.inr ⟨fun q hq => hown ⟨q, hq⟩, b, hbb, r', hr', hkp⟩)⟩
  · rintro r' k p ⟨⟩ hd
    rw [h.properties]
    refine (h5 k p).2 (.inl (classDict_prop ?_ hd))
    exact addAttrs_aux { props := ps, properties := inherited ⟨ps, cs⟩ bases } attrs (by simp) l h.loop
  · rintro r' ⟨⟩
    rw [h.sorted, h.properties, hnames]
    obtain ⟨h6, h7⟩ := sortedProps_spec l.props l.properties
    refine ⟨?_, h7⟩
    have : (l.properties.map (·.2)).filter (counts (bindAll cs.length l.props l.localProps)) =
        (l.properties.map (·.2)).filter (counts l.props) := by
      refine List.filter_congr (fun i hi => ?_)
      obtain ⟨⟨k, i'⟩, hk, rfl⟩ := List.mem_map.1 hi
      obtain ⟨o, ho, _⟩ := exists_of k i' hk
      exact counts_later h3 ho
    rw [this]
    exact h6
  · rintro r' ⟨⟩
    rw [h.eager, h.properties]
    unfold eagerProps
    congr 1
    refine List.filter_congr (fun x hx => ?_)
    obtain ⟨o, ho, _⟩ := exists_of x.1 x.2 hx
    exact (eager_later h3 ho).symm

/-- The ways a class statement can go. -/
theorem declare_cases (s : State) (mt : Bool) (bases : List Nat) (attrs : List (String × AVal)) :
    (∃ e s', declare s mt bases attrs = (.error e, s') ∧ s'.classes = s.classes ∧ PLater s.props s'.props ∧
      ∀ p : Nat, s'.props[p]?.map (·.cls) = s.props[p]?.map (·.cls)) ∨
    ((∀ b ∈ bases, b < s.classes.length) ∧
      ((∃ c s' l r m, declare s mt bases attrs = (.ok c, s') ∧ Made s bases attrs c s' l r m) ∨
      ((∀ b ∈ bases, isRecord s b = false) ∧ mt = false ∧ ∃ m, newMro s bases = some m ∧
        declare s mt bases attrs = (.ok s.classes.length,
          { s with classes := s.classes ++ [{ dict := attrs, mro := s.classes.length :: m, info := none }] })))) := by
  unfold declare
  split
  · rename_i hb
    have hb : ∀ b ∈ bases, b < s.classes.length := by simpa using hb
    split
    · rcases hn : newRecord s bases attrs with ⟨_ | c, s'⟩
      · exact .inl ⟨_, s', rfl, newRecord_error hn⟩
      · obtain ⟨l, r, m, hmade⟩ := newRecord_made hn
        exact .inr ⟨hb, .inl ⟨c, s', l, r, m, rfl, hmade⟩⟩
    · rename_i hr
      simp only [Bool.or_eq_true, not_or, Bool.not_eq_true] at hr
      unfold newPlain
      cases hm : newMro s bases with
      | none => exact .inl ⟨_, s, rfl, rfl, .rfl, fun _ => rfl⟩
      | some m =>
        refine .inr ⟨hb, .inr ⟨?_, hr.1, m, rfl, rfl⟩⟩
        intro b hbb
        have := List.any_eq_false.1 hr.2 b hbb
        simpa using this
  · exact .inl ⟨_, s, rfl, rfl, .rfl, fun _ => rfl⟩

theorem isRecord_false (h : isRecord s c = false) (r : RecInfo) : ¬ IsRecordClass s c r := by
  rintro ⟨cl, h1, h2⟩
  simp [isRecord, h1, h2] at h

theorem declare_inv {mt : Bool} (hi : Inv s) (hb : IsBody s attrs) : Inv (declare s mt bases attrs).2 := by
  rcases declare_cases s mt bases attrs with ⟨e, s', h1, h2, h3, hcls⟩ | ⟨hbs, ⟨c, s', l, r, m, h1, h2⟩ | ⟨hp, _, m, hm, h1⟩⟩
  · rw [h1]
    obtain ⟨ps, cs⟩ := s
    obtain ⟨ps', cs'⟩ := s'
    simp only at h2 h3
    subst h2
    exact hi.later h3
  · rw [h1]
    exact h2.inv hb hi hbs
  · rw [h1]
    obtain ⟨ps, cs⟩ := s
    refine Inv.add (m := m) (bases := bases) hi rfl hm hbs ?_ ?_ ?_ ?_ ?_ ?_
    · rintro r ⟨⟩
    · rintro r ⟨⟩
    · intro b hbb r hr
      exact absurd hr (isRecord_false (hp b hbb) r)
    · rintro r k p ⟨⟩
    · rintro r ⟨⟩
    · rintro r ⟨⟩

theorem inv_init : Inv {} := by
  refine ⟨?_, ?_, ?_, ?_, ?_, ?_, ?_⟩
  · rintro c cl ⟨⟩
  · rintro c r ⟨_, ⟨⟩, _⟩
  · rintro c r ⟨_, ⟨⟩, _⟩
  · rintro c d r ⟨_, ⟨⟩, _⟩
  · rintro c r k p ⟨_, ⟨⟩, _⟩
  · rintro c r ⟨_, ⟨⟩, _⟩
  · rintro c r ⟨_, ⟨⟩, _⟩

theorem declared_inv (h : DeclaredState s) : Inv s := by
  induction h with
  | init => exact inv_init
  | @prop s r d l x e _ ih => exact ih.later later_new
  | cls _ hb ih => exact declare_inv ih hb

/-! ## C56 -/

variable {mt : Bool}

/-- The class statement makes a record class: the metaclass is given, or one of the bases is a record class. -/
def ForRecord (s : State) (mt : Bool) (bases : List Nat) : Prop := mt = true ∨ ∃ b ∈ bases, ∃ r, IsRecordClass s b r

theorem declare_record (hb : ∀ b ∈ bases, b < s.classes.length) (h : ForRecord s mt bases) :
    declare s mt bases attrs = newRecord s bases attrs := by
  unfold declare
  rw [if_pos (by simpa using hb), if_pos]
  rcases h with rfl | ⟨b, hbb, r, cl, h1, h2⟩
  · rfl
  · rw [Bool.or_eq_true]
    refine .inr (List.any_eq_true.2 ⟨b, hbb, ?_⟩)
    simp [isRecord, h1, h2]

theorem declare_made (h : declare s mt bases attrs = (.ok c, s')) (hr : ForRecord s mt bases) :
    (∀ b ∈ bases, b < s.classes.length) ∧ ∃ l r m, Made s bases attrs c s' l r m := by
  have hb : ∀ b ∈ bases, b < s.classes.length := by
    unfold declare at h
    split at h
    · rename_i hb; simpa using hb
    · cases h
  rw [declare_record hb hr] at h
  exact ⟨hb, newRecord_made h⟩

theorem Made.isRec {l : Loop} {r : RecInfo} {m : List Nat} (h : Made s bases attrs c s' l r m) : IsRecordClass s' c r := by
  rw [h.state, h.cls]
  exact ⟨_, List.getElem?_concat_length, rfl⟩

/-- C56: the properties of a class are its own and those of its bases that it does not override. -/
theorem C56_union (hb : IsBody s attrs) (h : declare s mt bases attrs = (.ok c, s')) (hr : ForRecord s mt bases) :
    ∃ r, IsRecordClass s' c r ∧ ∀ k p, (k, p) ∈ r.properties ↔ UnionProp s bases attrs k p := by
  obtain ⟨_, l, r, m, hm⟩ := declare_made h hr
  exact ⟨r, hm.isRec, by rw [hm.properties]; exact (hm.props hb).2.2.2.2⟩

theorem isRec_unique {r r' : RecInfo} (h : IsRecordClass s c r) (h' : IsRecordClass s c r') : r = r' := by
  obtain ⟨x, h1, h2⟩ := h
  obtain ⟨y, h3, h4⟩ := h'
  rw [h1] at h3
  cases h3
  rw [h2] at h4
  exact Option.some.inj h4

/-- C56: each name stands for one property. -/
theorem C56_unique (hs : DeclaredState s) {k : String} {p q : Nat} (hp : HasProp s c k p) (hq : HasProp s c k q) : p = q := by
  obtain ⟨r, h1, h2⟩ := hp
  obtain ⟨r', h3, h4⟩ := hq
  cases isRec_unique h1 h3
  exact ((declared_inv hs).keys c r h1).unique h2 h4

theorem keys_propsOf (hi : Inv s) (b : Nat) : Keys (propsOf s b) := by
  unfold propsOf
  cases hc : s.classes[b]? with
  | none => exact keys_nil
  | some cl =>
    cases hr : cl.info with
    | none => simp only [hr]; exact keys_nil
    | some r => simp only [hr]; exact hi.keys b r ⟨cl, hc, hr⟩

theorem newRecord_first (s : State) (bases : List Nat) (attrs : List (String × AVal)) :
    (¬ Keys (inherited s bases) → (newRecord s bases attrs).1 = .error .multipleInheritanceClash) ∧
    (Keys (inherited s bases) →
      (∀ e, (addAttrs { props := s.props, properties := inherited s bases } attrs).1 = .error e → (newRecord s bases attrs).1 = .error e) ∧
      (∀ l, (addAttrs { props := s.props, properties := inherited s bases } attrs).1 = .ok l →
        (∀ e, primaryKey attrs l.properties = .error e → (newRecord s bases attrs).1 = .error e) ∧
        (∀ pk, primaryKey attrs l.properties = .ok pk →
          (newMro s bases = none → (newRecord s bases attrs).1 = .error .mroConflict) ∧
          (∀ m, newMro s bases = some m → (newRecord s bases attrs).1 = .ok s.classes.length)))) := by
  constructor
  · intro hk
    unfold newRecord
    rw [(addBases_eq keys_nil).2 (by simpa using hk)]
  · intro hk
    unfold newRecord
    rw [(addBases_eq keys_nil).1 (by simpa using hk), List.nil_append]
    simp only
    rcases addAttrs { props := s.props, properties := inherited s bases } attrs with ⟨_ | l, ps⟩
    · refine ⟨?_, ?_⟩
      · rintro e ⟨⟩; rfl
      · rintro l ⟨⟩
    · refine ⟨?_, ?_⟩
      · rintro e ⟨⟩
      · rintro l' ⟨⟩
        simp only
        cases primaryKey attrs l.properties with
        | error e =>
          refine ⟨?_, ?_⟩
          · rintro e ⟨⟩; rfl
          · rintro pk ⟨⟩
        | ok pk =>
          refine ⟨?_, ?_⟩
          · rintro e ⟨⟩
          · rintro pk' ⟨⟩
            simp only
            cases newMro s bases with
            | none => exact ⟨fun _ => rfl, fun m hm => (by cases hm)⟩
            | some m => exact ⟨fun hm => (by cases hm), fun _ _ => rfl⟩

theorem addAttrs_error {l : Loop} {e : CErr} : (addAttrs l attrs).1 = .error e → e = .reservedPropertyName ∨ e = .badId := by
  refine addAttrs_ind (P := fun _ _ r => r.1 = .error e → e = .reservedPropertyName ∨ e = .badId) ?_ ?_ ?_ ?_ ?_ l attrs
  · rintro l ⟨⟩
  · rintro l nm v rest _ ⟨⟩; exact .inl rfl
  · rintro l nm i rest _ _ ⟨⟩; exact .inr rfl
  · exact fun _ _ _ _ _ _ _ h => h
  · exact fun _ _ _ _ _ _ h => h

theorem coercePk_error {has : List (String × Nat)} : ∀ {es : List PkEntry} {e : CErr}, coercePk has es = .error e →
    e = .keyError ∨ e = .propertiesNotKnown
  | [], e, h => by cases h
  | x :: es, e, h => by
    cases x with
    | name n =>
      simp only [coercePk] at h
      split at h
      · cases h; exact .inl rfl
      · split at h
        · rename_i e' he'; cases h; exact coercePk_error he'
        · cases h
    | prop q =>
      simp only [coercePk] at h
      split at h
      · split at h
        · rename_i e' he'; cases h; exact coercePk_error he'
        · cases h
      · cases h; exact .inr rfl
    | other => cases h; exact .inr rfl

theorem primaryKey_error {has : List (String × Nat)} {e : CErr} (h : primaryKey attrs has = .error e) :
    e = .keyError ∨ e = .propertiesNotKnown ∨ e = .typeError := by
  unfold primaryKey at h
  split at h
  · cases h
  · rcases coercePk_error h with h | h
    · exact .inl h
    · exact .inr (.inl h)
  · cases h; exact .inr (.inr rfl)

/-- C56: two bases with a property of the same name raise `MultipleInheritanceClash`, and nothing else does. -/
theorem C56_clash (hs : DeclaredState s) (hbs : ∀ b ∈ bases, b < s.classes.length) (hr : ForRecord s mt bases) :
    (declare s mt bases attrs).1 = .error .multipleInheritanceClash ↔ Clashing s bases := by
  rw [declare_record hbs hr]
  have hk := keys_inherited (bases := bases) (keys_propsOf (declared_inv hs))
  obtain ⟨h1, h2⟩ := newRecord_first s bases attrs
  by_cases hc : Clashing s bases
  · simp [h1 (fun h => hk.1 h hc), hc]
  · simp only [hc, iff_false]
    obtain ⟨h3, h4⟩ := h2 (hk.2 hc)
    cases hl : (addAttrs { props := s.props, properties := inherited s bases } attrs).1 with
    | error e =>
      rw [h3 e hl]
      rcases addAttrs_error hl with rfl | rfl <;> simp
    | ok l =>
      obtain ⟨h5, h6⟩ := h4 l hl
      cases hp : primaryKey attrs l.properties with
      | error e =>
        rw [h5 e hp]
        rcases primaryKey_error hp with rfl | rfl | rfl <;> simp
      | ok pk =>
        obtain ⟨h7, h8⟩ := h6 pk hp
        cases hm : newMro s bases with
        | none => rw [h7 hm]; simp
        | some m => rw [h8 m hm]; simp

theorem asksForPk_congr {has has' : String → Nat → Prop} (h : ∀ k p, has k p ↔ has' k p) {pk : List Nat} :
    AsksForPk has attrs pk ↔ AsksForPk has' attrs pk := by
  have : has = has' := by funext k p; exact propext (h k p)
  rw [this]

/-- C56: when a declaration goes through. -/
theorem C56_ok (hs : DeclaredState s) (hb : IsBody s attrs) (hbs : ∀ b ∈ bases, b < s.classes.length) (hr : ForRecord s mt bases) :
    (∃ c, (declare s mt bases attrs).1 = .ok c) ↔ ¬ Clashing s bases ∧ ¬ UsesReserved attrs ∧
      (∃ pk, AsksForPk (UnionProp s bases attrs) attrs pk) ∧ ∃ m, newMro s bases = some m := by
  rw [declare_record hbs hr]
  have hk := keys_inherited (bases := bases) (keys_propsOf (declared_inv hs))
  constructor
  · rintro ⟨c, hc⟩
    obtain ⟨l, r, m, hm⟩ := newRecord_made (s' := (newRecord s bases attrs).2) (c := c) (by rw [← hc])
    have hp := hm.props hb
    refine ⟨hk.1 hm.keys, ((addAttrs_ok _ _).2.1 l hm.loop).free, ⟨r.primaryKey, ?_⟩, m, hm.mro⟩
    rw [← asksForPk_congr hp.2.2.2.2]
    exact (primaryKey_iff hp.2.2.2.1 hb.dict).1 hm.pk
  · rintro ⟨hc, hres, ⟨pk, hpk⟩, m, hm⟩
    obtain ⟨_, h2⟩ := newRecord_first s bases attrs
    obtain ⟨_, h4⟩ := h2 (hk.2 hc)
    obtain ⟨l, hl⟩ := (addAttrs_ok { props := s.props, properties := inherited s bases } attrs).1 ⟨hb.exist, hres⟩
    obtain ⟨h3, h5⟩ := addAttrs_properties { props := s.props, properties := inherited s bases } attrs (hk.2 hc) hb.dict l hl
    have hsame : ∀ k p, (k, p) ∈ l.properties ↔ UnionProp s bases attrs k p := by
      intro k p
      rw [h5, mem_inherited]
      rfl
    have := (primaryKey_iff h3 hb.dict).2 ((asksForPk_congr hsame).2 hpk)
    exact ⟨_, ((h4 l hl).2 pk this).2 m hm⟩

/-- C56: the reserved names are refused. -/
theorem C56_reserved (hs : DeclaredState s) (hb : IsBody s attrs) (hbs : ∀ b ∈ bases, b < s.classes.length) (hr : ForRecord s mt bases)
    (hc : ¬ Clashing s bases) (hu : UsesReserved attrs) : (declare s mt bases attrs).1 = .error .reservedPropertyName := by
  rw [declare_record hbs hr]
  have hk := keys_inherited (bases := bases) (keys_propsOf (declared_inv hs))
  exact ((newRecord_first s bases attrs).2 (hk.2 hc)).1 _ ((addAttrs_ok _ _).2.2 hb.exist hu)

/-- C56: the primary key is what this declaration asks for, and it is made of properties of the class. -/
theorem C56_pk (hb : IsBody s attrs) (h : declare s mt bases attrs = (.ok c, s')) (hr : ForRecord s mt bases) :
    ∃ r, IsRecordClass s' c r ∧ AsksForPk (UnionProp s bases attrs) attrs r.primaryKey ∧
      ∀ p ∈ r.primaryKey, ∃ k, (k, p) ∈ r.properties := by
  obtain ⟨_, l, r, m, hm⟩ := declare_made h hr
  have hp := hm.props hb
  have ha := (primaryKey_iff hp.2.2.2.1 hb.dict).1 hm.pk
  refine ⟨r, hm.isRec, (asksForPk_congr hp.2.2.2.2).1 ha, ?_⟩
  intro p hpm
  rw [hm.properties]
  rcases ha with ⟨_, h0⟩ | ⟨es, _, h2⟩
  · rw [h0] at hpm; cases hpm
  · obtain ⟨e, _, he⟩ : ∃ e ∈ es, StandsFor (fun k p => (k, p) ∈ l.properties) e p := by
      generalize r.primaryKey = pk at hpm h2
      clear * - hpm h2
      induction h2 with
      | nil => cases hpm
      | cons h _ ih =>
        rcases List.mem_cons.1 hpm with rfl | hpm
        · exact ⟨_, List.mem_cons_self, h⟩
        · obtain ⟨e, h3, h4⟩ := ih hpm
          exact ⟨e, List.mem_cons_of_mem _ h3, h4⟩
    cases e with
    | name k => exact ⟨k, he⟩
    | prop q => obtain ⟨rfl, k, hk⟩ := he; exact ⟨k, hk⟩
    | other => exact he.elim

/-- C56: the eager properties are the required ones and those with a default, except for the lazy ones. -/
theorem C56_eager (hs : DeclaredState s) {r : RecInfo} (h : IsRecordClass s c r) (k : String) :
    k ∈ r.eager ↔ ∃ p, HasProp s c k p ∧ IsEager s p := by
  rw [(declared_inv hs).eager c r h]
  unfold eagerProps
  rw [List.mem_map]
  have he : ∀ p, eagerAt s.props p = true ↔ IsEager s p := by
    intro p
    unfold eagerAt IsEager
    cases hp : s.props[p]? with
    | none => simp
    | some o =>
      simp only [Option.some.injEq, exists_eq_left', PObj.eagerInit]
      cases o.lazy <;> simp
  constructor
  · rintro ⟨⟨k', p⟩, hm, rfl⟩
    rw [List.mem_filter] at hm
    exact ⟨p, ⟨r, h, hm.1⟩, (he p).1 hm.2⟩
  · rintro ⟨p, ⟨r', h', hm⟩, hp⟩
    cases isRec_unique h h'
    exact ⟨(k, p), List.mem_filter.2 ⟨hm, (he p).2 hp⟩, rfl⟩

/-- C56: the sorted properties are those that count in comparisons, in the order of their names, for ever. -/
theorem C56_sorted (hs : DeclaredState s) {r : RecInfo} (h : IsRecordClass s c r) :
    (∀ p, p ∈ r.sorted ↔ ∃ k o, HasProp s c k p ∧ s.props[p]? = some o ∧ o.extraneous = false) ∧
    r.sorted.Pairwise (fun p q => ∀ a b, HasName s p a → HasName s q b → a ≤ b) := by
  obtain ⟨h1, h2⟩ := (declared_inv hs).sorted c r h
  constructor
  · intro p
    rw [h1.mem_iff, List.mem_filter, List.mem_map]
    constructor
    · rintro ⟨⟨⟨k, p'⟩, hm, rfl⟩, hc⟩
      unfold counts at hc
      cases hp : s.props[p']? with
      | none => rw [hp] at hc; cases hc
      | some o => exact ⟨k, o, ⟨r, h, hm⟩, rfl, by simpa [hp] using hc⟩
    · rintro ⟨k, o, ⟨r', h', hm⟩, ho, he⟩
      cases isRec_unique h h'
      exact ⟨⟨(k, p), hm, rfl⟩, by simp [counts, ho, he]⟩
  · refine h2.imp ?_
    rintro p q hpq a b ⟨o, ho, ha⟩ ⟨o', ho', hb'⟩
    simpa [nameLe, nameOf, ho, ho', ha, hb'] using hpq

/-- C56: a declaration, whether it goes through or not, changes no other class, and no property of another class. -/
theorem C56_others (hb : IsBody s attrs) :
    (∀ (d : Nat) cl, s.classes[d]? = some cl → (declare s mt bases attrs).2.classes[d]? = some cl) ∧
    ∀ (p : Nat) o, s.props[p]? = some o → o.cls ≠ none → (declare s mt bases attrs).2.props[p]? = some o := by
  have bd : ∀ {o : PObj}, o.cls ≠ none → o.bound = true := by
    intro o ho
    unfold PObj.bound
    cases hc : o.cls with
    | none => exact absurd hc ho
    | some d => rfl
  have key : ∀ {ps' : List PObj}, PLater s.props ps' → ∀ (p : Nat) o, s.props[p]? = some o → o.cls ≠ none → ps'[p]? = some o := by
    intro ps' h p o ho hc
    obtain ⟨o', ho', hs⟩ := h.2 p o ho
    rw [ho', hs.bound (bd hc)]
  rcases declare_cases s mt bases attrs with ⟨e, s', h1, h2, h3, hcls⟩ | ⟨_, ⟨c, s', l, r, m, h1, h2⟩ | ⟨_, _, m, hm, h1⟩⟩
  · rw [h1]
    exact ⟨fun d cl hd => by rw [h2]; exact hd, key h3⟩
  · rw [h1]
    have hp := h2.props hb
    refine ⟨fun d cl hd => ?_, key (hp.1.trans hp.2.2.1)⟩
    rw [h2.state]
    simp only
    rw [List.getElem?_append_left (List.getElem?_eq_some_iff.1 hd).1]
    exact hd
  · rw [h1]
    refine ⟨fun d cl hd => ?_, fun p o ho _ => ho⟩
    simp only
    rw [List.getElem?_append_left (List.getElem?_eq_some_iff.1 hd).1]
    exact hd

/-! ## C70: attribute access on the class -/

/-- C70: the property listed under a name is what attribute access on the class finds. -/
def C70_statement : Prop := ∀ (s : State) (c : Nat) (k : String) (p : Nat), DeclaredState s → HasProp s c k p → Finds s c k (.prop p)

theorem finds_iff {k : String} {v : AVal} : Finds s c k v ↔ find s k (mroOf s c) = some v := by
  rw [find_iff]
  unfold Finds mroOf
  constructor
  · rintro ⟨cl, i, d, h1, h2⟩
    simp only [h1]
    exact ⟨i, d, h2⟩
  · intro h
    cases hc : s.classes[c]? with
    | none =>
      simp only [hc] at h
      obtain ⟨i, d, h1, _⟩ := h
      simp at h1
    | some cl =>
      simp only [hc] at h
      obtain ⟨i, d, h1⟩ := h
      exact ⟨cl, i, d, rfl, h1⟩

theorem find_congr {k : String} : ∀ {l : List Nat}, (∀ d ∈ l, s'.classes[d]? = s.classes[d]?) → find s' k l = find s k l
  | [], _ => rfl
  | d :: l, h => by
    rw [find, find, h d List.mem_cons_self, find_congr (fun e he => h e (List.mem_cons_of_mem _ he))]

/-- An added class, seen from the others. -/
theorem add_old {cl : Cls} {ps' : List PObj} (hi : Inv s) {d : Nat} (hd : d < s.classes.length) (k : String) :
    mroOf ⟨ps', s.classes ++ [cl]⟩ d = mroOf s d ∧ find ⟨ps', s.classes ++ [cl]⟩ k (mroOf s d) = find s k (mroOf s d) := by
  constructor
  · simp only [mroOf, List.getElem?_append_left hd]
  · refine find_congr (fun e he => ?_)
    unfold mroOf at he
    cases hc : s.classes[d]? with
    | none => rw [hc] at he; cases he
    | some x =>
      rw [hc] at he
      have := (hi.mro d x hc).2.2 e he
      simp only
      rw [List.getElem?_append_left this]

theorem ownAttr_old {cl : Cls} {ps' : List PObj} {d : Nat} {k : String} {v : AVal} (hd : d < s.classes.length) :
    OwnAttr ⟨ps', s.classes ++ [cl]⟩ d k v ↔ OwnAttr s d k v := by
  simp only [OwnAttr, List.getElem?_append_left hd]

theorem onlyProps_old {cl : Cls} {ps' : List PObj} {k : String} (h : OnlyProps ⟨ps', s.classes ++ [cl]⟩ k) : OnlyProps s k := by
  intro d v hv
  obtain ⟨x, hx, hl⟩ := hv
  have hd := (List.getElem?_eq_some_iff.1 hx).1
  obtain ⟨⟨r, hr⟩, h2⟩ := h d v ((ownAttr_old hd).2 ⟨x, hx, hl⟩)
  refine ⟨⟨r, ?_⟩, h2⟩
  rcases (isRec_append (ps := s.props)).1 hr with hr | ⟨h1, _⟩
  · exact hr
  · omega

theorem declared_finds (h : DeclaredState s) : ∀ k, OnlyProps s k → ∀ c p, HasProp s c k p → find s k (mroOf s c) = some (.prop p) := by
  induction h with
  | init => rintro k _ c p ⟨r, ⟨_, ⟨⟩, _⟩, _⟩
  | @prop s r d l x e _ ih =>
    intro k hk c p hp
    have := ih k hk c p hp
    rw [← this]
    exact find_congr (fun _ _ => rfl)
  | @cls s mt bases attrs hs hb ih =>
    have hi := declared_inv hs
    intro k hk c p hp
    rcases declare_cases s mt bases attrs with ⟨e, s', h1, h2, h3, hcls⟩ | ⟨hbs, ⟨n, s', l, r, m, h1, h2⟩ | ⟨_, _, m, hm, h1⟩⟩
    · rw [h1] at hk hp ⊢
      obtain ⟨ps, cs⟩ := s
      obtain ⟨ps', cs'⟩ := s'
      simp only at h2
      subst h2
      rw [← ih k hk c p hp]
      exact find_congr (fun _ _ => rfl)
    · rw [h1] at hk hp ⊢
      have hprops := h2.props hb
      have hst := h2.state
      subst hst
      simp only at hk hp ⊢
      have hkold := onlyProps_old hk
      obtain ⟨r', hr', hkp⟩ := hp
      rcases (isRec_append (ps := s.props)).1 hr' with hr' | ⟨h3, h4⟩
      · obtain ⟨h5, h6⟩ := add_old (ps' := bindAll s.classes.length l.props l.localProps)
          (cl := { dict := classDict attrs l.auxProps, mro := s.classes.length :: m, info := some r }) hi (isRec_lt hr') k
        rw [h5, h6]
        exact ih k hkold c p ⟨r', hr', hkp⟩
      · subst h3
        cases h4
        rw [h2.properties, hprops.2.2.2.2] at hkp
        have hmro : mroOf ⟨bindAll s.classes.length l.props l.localProps,
            s.classes ++ [{ dict := classDict attrs l.auxProps, mro := s.classes.length :: m, info := some r }]⟩ s.classes.length =
            s.classes.length :: m := by
          simp [mroOf]
        rw [hmro]
        have haux := addAttrs_aux { props := s.props, properties := inherited s bases } attrs (by simp) l h2.loop
        have hownnew : ∀ w, OwnAttr ⟨bindAll s.classes.length l.props l.localProps,
            s.classes ++ [{ dict := classDict attrs l.auxProps, mro := s.classes.length :: m, info := some r }]⟩ s.classes.length k w →
            ∃ q, w = .prop q ∧ OwnProp attrs k q := by
          intro w hw
          obtain ⟨_, q, rfl⟩ := hk _ w hw
          obtain ⟨x, hx, hl⟩ := hw
          rw [List.getElem?_concat_length] at hx
          cases hx
          exact ⟨q, rfl, classDict_prop haux hl⟩
        rcases hkp with hown | ⟨hnone, b, hbb, r', hrb, hkb⟩
        · obtain ⟨w, hw⟩ := classDict_keeps (aux := l.auxProps) hb.dict hown
          have hwo : OwnAttr ⟨bindAll s.classes.length l.props l.localProps,
              s.classes ++ [{ dict := classDict attrs l.auxProps, mro := s.classes.length :: m, info := some r }]⟩ s.classes.length k w :=
            ⟨_, List.getElem?_concat_length, hw⟩
          obtain ⟨q, rfl, hq⟩ := hownnew w hwo
          have := Keys.unique hb.dict hown hq
          cases this
          exact find_cons_own hwo
        · rw [find_cons_not (fun w hw => by
            obtain ⟨q, _, hq⟩ := hownnew w hw
            exact hnone q hq)]
          obtain ⟨hnd, _, hsub, hmem⟩ := newMro_spec h2.mro
          have hlt : ∀ d ∈ m, d < s.classes.length := by
            intro d hd
            rcases hmem d hd with hd | ⟨b', _, hd⟩
            · exact hbs d hd
            · unfold mroOf at hd
              cases hc : s.classes[b']? with
              | none => rw [hc] at hd; cases hd
              | some x => rw [hc] at hd; exact (hi.mro b' x hc).2.2 d hd
          rw [find_congr (s := s) (fun d hd => by
            simp only
            rw [List.getElem?_append_left (hlt d hd)])]
          refine find_sublist (hsub b hbb) hnd (ih k hkold b p ⟨r', hrb, hkb⟩) ?_
          intro e he w hw
          obtain ⟨⟨re, hre⟩, q, rfl⟩ := hkold e w hw
          have hq := hi.own e re k q hre hw
          have hanc : ∃ b' ∈ bases, e ∈ mroOf s b' := by
            rcases hmem e he with he | h
            · refine ⟨e, he, ?_⟩
              obtain ⟨x, hx, _⟩ := hw
              obtain ⟨⟨t, ht⟩, _⟩ := hi.mro e x hx
              simp [mroOf, hx, ht]
            · exact h
          obtain ⟨b', hbb', heb'⟩ := hanc
          by_cases hsame : b' = b
          · subst hsame; exact heb'
          · exfalso
            have hanc : Ancestor s b' e := by
              unfold mroOf at heb'
              cases hc : s.classes[b']? with
              | none => rw [hc] at heb'; cases heb'
              | some x => rw [hc] at heb'; exact ⟨x, hc, heb'⟩
            obtain ⟨rb', hrb', h7⟩ := hi.up b' e re hanc hre
            obtain ⟨q', hq'⟩ := h7 k q hq
            have hnc := (keys_inherited (bases := bases) (keys_propsOf hi)).1 h2.keys
            obtain ⟨i, hbi⟩ := List.getElem?_of_mem hbb
            obtain ⟨j, hbj⟩ := List.getElem?_of_mem hbb'
            rcases Nat.lt_trichotomy i j with h | h | h
            · exact hnc ⟨i, j, b, b', k, p, q', h, hbi, hbj, ⟨r', hrb, hkb⟩, ⟨rb', hrb', hq'⟩⟩
            · subst h; rw [hbi] at hbj; cases hbj; exact hsame rfl
            · exact hnc ⟨j, i, b', b, k, q', p, h, hbj, hbi, ⟨rb', hrb', hq'⟩, ⟨r', hrb, hkb⟩⟩
    · rw [h1] at hk hp ⊢
      simp only at hk hp ⊢
      obtain ⟨r', hr', hkp⟩ := hp
      rcases (isRec_append (ps := s.props)).1 hr' with hr' | ⟨_, h4⟩
      · obtain ⟨h5, h6⟩ := add_old (ps' := s.props) (cl := { dict := attrs, mro := s.classes.length :: m, info := none }) hi (isRec_lt hr') k
        rw [h5, h6]
        exact ih k (onlyProps_old hk) c p ⟨r', hr', hkp⟩
      · cases h4

/-- C70, for the names that are used for nothing but properties of record classes. -/
theorem C70_partial (hs : DeclaredState s) {k : String} (hk : OnlyProps s k) {p : Nat} (hp : HasProp s c k p) : Finds s c k (.prop p) :=
  finds_iff.2 (declared_finds hs k hk c p hp)

/-! ## C71: the names of the properties -/

/-- C71: a property that is listed under a name has this name, and is bound to the class or to an ancestor of it. -/
def C71_statement : Prop := ∀ (s : State) (c : Nat) (k : String) (p : Nat), DeclaredState s → HasProp s c k p →
  HasName s p k ∧ ∃ o d, s.props[p]? = some o ∧ o.cls = some d ∧ Ancestor s c d

/-- What is true if no property object is used twice. -/
structure Once (s : State) : Prop where
  named : ∀ (p : Nat) o, s.props[p]? = some o → o.bound = true → ∃ n, o.name = some n
  right : ∀ c r, IsRecordClass s c r → ∀ k p, (k, p) ∈ r.properties →
    ∃ o d, s.props[p]? = some o ∧ o.name = some k ∧ o.cls = some d ∧ Ancestor s c d

theorem declaredOnce_declared (h : DeclaredOnce s) : DeclaredState s := by
  induction h with
  | init => exact .init
  | prop _ ih => exact .prop ih
  | cls _ hb _ ih => exact .cls ih hb

theorem ancestor_old {cl : Cls} {ps' : List PObj} {d e : Nat} (h : Ancestor s d e) : Ancestor ⟨ps', s.classes ++ [cl]⟩ d e := by
  obtain ⟨x, hx, he⟩ := h
  exact ⟨x, by simp only; rw [List.getElem?_append_left (List.getElem?_eq_some_iff.1 hx).1]; exact hx, he⟩

theorem named_later {ps ps' : List PObj} {cs : List Cls} (h : Once ⟨ps, cs⟩) (hp : PLater ps ps')
    (hcls : ∀ p : Nat, ps'[p]?.map (·.cls) = ps[p]?.map (·.cls)) (p : Nat) (o : PObj) (ho : ps'[p]? = some o) (hb : o.bound = true) :
    ∃ n, o.name = some n := by
  have := hcls p
  rw [ho] at this
  cases hq : ps[p]? with
  | none => rw [hq] at this; cases this
  | some o' =>
    rw [hq] at this
    simp only [Option.map_some, Option.some.injEq] at this
    have hb' : o'.bound = true := by
      unfold PObj.bound at *
      rw [← this]
      exact hb
    obtain ⟨o'', ho'', hs⟩ := hp.2 p o' hq
    rw [ho] at ho''
    cases ho''
    rw [hs.bound hb']
    exact h.named p o' hq hb'

theorem right_later {ps ps' : List PObj} {cs : List Cls} (h : Once ⟨ps, cs⟩) (hp : PLater ps ps') (c : Nat) (r : RecInfo)
    (hr : IsRecordClass ⟨ps, cs⟩ c r) (k : String) (p : Nat) (hkp : (k, p) ∈ r.properties) :
    ∃ o d, ps'[p]? = some o ∧ o.name = some k ∧ o.cls = some d ∧ Ancestor ⟨ps, cs⟩ c d := by
  obtain ⟨o, d, h1, h2, h3, h4⟩ := h.right c r hr k p hkp
  obtain ⟨o', ho', hs⟩ := hp.2 p o h1
  rw [hs.bound (by simp [PObj.bound, h3])] at ho'
  exact ⟨o, d, ho', h2, h3, h4⟩

theorem declaredOnce_once (h : DeclaredOnce s) : Once s := by
  induction h with
  | init =>
    refine ⟨?_, ?_⟩
    · rintro p o ⟨⟩
    · rintro c r ⟨_, ⟨⟩, _⟩
  | @prop s r d l x e _ ih =>
    have hl : PLater s.props (newProp s r d l x e).2.props := later_new
    refine ⟨?_, ?_⟩
    · intro p o ho hb
      rcases Nat.lt_trichotomy p s.props.length with h | h | h
      · refine ih.named p o ?_ hb
        simp only [newProp] at ho
        rwa [List.getElem?_append_left h] at ho
      · subst h
        simp only [newProp, List.getElem?_concat_length] at ho
        cases ho
        cases hb
      · simp only [newProp] at ho
        rw [List.getElem?_eq_none (by simp; omega)] at ho
        cases ho
    · intro c r' hr k p hkp
      obtain ⟨o, dd, h1, h2, h3, h4⟩ := ih.right c r' hr k p hkp
      obtain ⟨o', ho', hs⟩ := hl.2 p o h1
      rw [hs.bound (by simp [PObj.bound, h3])] at ho'
      exact ⟨o, dd, ho', h2, h3, h4⟩
  | @cls s mt bases attrs hs hb hf ih =>
    have hi := declared_inv (declaredOnce_declared hs)
    rcases declare_cases s mt bases attrs with ⟨e, s', h1, h2, h3, hcls⟩ | ⟨hbs, ⟨n, s', l, r, m, h1, h2⟩ | ⟨_, _, m, hm, h1⟩⟩
    · rw [h1]
      obtain ⟨ps, cs⟩ := s
      obtain ⟨ps', cs'⟩ := s'
      simp only at h2 h3 hcls
      subst h2
      exact ⟨named_later ih h3 hcls, fun c r hr k p hkp => right_later ih h3 c r hr k p hkp⟩
    · rw [h1]
      obtain ⟨hp1, hp2, hp3, hp4, hp5⟩ := h2.props hb
      have hst := h2.state
      have hname : ∀ k p, OwnProp attrs k p → Unbound s.props p → ∃ o, l.props[p]? = some o ∧ o.name = some k := by
        intro k p hkp hu
        exact addAttrs_name { props := s.props, properties := inherited s bases } attrs p hb.dict
          (fun a b ha hb' => (hf a p ha).2 b hb') hu l h2.loop k hkp
      have hfresh : ∀ k p, OwnProp attrs k p → Unbound s.props p := by
        intro k p hkp
        have hlt := hb.exist k p hkp
        refine ⟨s.props[p], by simp [hlt], ?_⟩
        cases hbd : (s.props[p]).bound with
        | false => rfl
        | true =>
          obtain ⟨n, hn⟩ := ih.named p _ (by simp [hlt]) hbd
          exact absurd ⟨_, by simp [hlt], hn⟩ ((hf k p hkp).1 n)
      have hbound : ∀ k p, OwnProp attrs k p → ∃ o, s'.props[p]? = some o ∧ o.name = some k ∧ o.cls = some s.classes.length := by
        intro k p hkp
        obtain ⟨o, ho, hn⟩ := hname k p hkp (hfresh k p hkp)
        have hloc : p ∈ l.localProps.map (·.2) := List.mem_map.2 ⟨(k, p), (hp2 k p).2 ⟨hkp, hfresh k p hkp⟩, rfl⟩
        refine ⟨o.bindTo s.classes.length, ?_, hn, rfl⟩
        rw [hst]
        simp only
        rw [bindAll_get, if_pos hloc, ho]
        rfl
      refine ⟨?_, ?_⟩
      · intro p o ho hbd
        by_cases hown : ∃ k, OwnProp attrs k p
        · obtain ⟨k, hk⟩ := hown
          obtain ⟨o', ho', hn, _⟩ := hbound k p hk
          simp only at ho
          rw [ho] at ho'
          cases ho'
          exact ⟨k, hn⟩
        · refine ih.named p o ?_ hbd
          have hloc : p ∉ l.localProps.map (·.2) := by
            intro hm
            obtain ⟨⟨k, p'⟩, hk, rfl⟩ := List.mem_map.1 hm
            exact hown ⟨k, ((hp2 k p').1 hk).1⟩
          simp only [hst] at ho
          rw [bindAll_get, if_neg hloc] at ho
          have hl2 := addAttrs_later { props := s.props, properties := inherited s bases } attrs
          rw [hl2.2.2 l h2.loop, addAttrs_other _ _ _ (fun k hk => hown ⟨k, hk⟩)] at ho
          exact ho
      · intro c r' hr' k p hkp
        have hr'' := hr'
        rw [hst] at hr''
        rcases (isRec_append (ps := s.props)).1 hr'' with hold | ⟨h3, h4⟩
        · obtain ⟨o, d, h5, h6, h7, h8⟩ := right_later ih (hp1.trans hp3) c r' hold k p hkp
          refine ⟨o, d, h5, h6, h7, ?_⟩
          rw [hst]
          exact ancestor_old h8
        · cases h4
          rw [h2.properties, hp5] at hkp
          rcases hkp with hown | ⟨_, b, hbb, rb, hrb, hkb⟩
          · obtain ⟨o, ho, hn, hc⟩ := hbound k p hown
            refine ⟨o, _, ho, hn, hc, ?_⟩
            rw [hst, h3]
            exact ⟨_, List.getElem?_concat_length, List.mem_cons_self⟩
          · obtain ⟨o, d, h5, h6, h7, x, hx, hd⟩ := right_later ih (hp1.trans hp3) b rb hrb k p hkb
            refine ⟨o, d, h5, h6, h7, ?_⟩
            rw [hst, h3]
            refine ⟨_, List.getElem?_concat_length, List.mem_cons_of_mem _ ?_⟩
            refine ((newMro_spec h2.mro).2.2.1 b hbb).subset ?_
            simp only at hx
            simp [mroOf, hx, hd]
    · rw [h1]
      refine ⟨ih.named, ?_⟩
      intro c r hr k p hkp
      rcases (isRec_append (ps := s.props)).1 hr with hr | ⟨_, h4⟩
      · obtain ⟨o, d, h5, h6, h7, h8⟩ := ih.right c r hr k p hkp
        exact ⟨o, d, h5, h6, h7, ancestor_old h8⟩
      · cases h4

/-- C71, if no property object is used twice. -/
theorem C71_partial (hs : DeclaredOnce s) {k : String} {p : Nat} (hp : HasProp s c k p) :
    HasName s p k ∧ ∃ o d, s.props[p]? = some o ∧ o.cls = some d ∧ Ancestor s c d := by
  obtain ⟨r, hr, hkp⟩ := hp
  obtain ⟨o, d, h1, h2, h3, h4⟩ := (declaredOnce_once hs).right c r hr k p hkp
  exact ⟨⟨o, h1, h2⟩, o, d, h1, h3, h4⟩

/-- C71, so no property is listed under two names. -/
theorem C71_distinct_partial (hs : DeclaredOnce s) {k k' : String} {p : Nat} (hp : HasProp s c k p) (hp' : HasProp s c k' p) : k = k' := by
  obtain ⟨⟨o, h1, h2⟩, _⟩ := C71_partial hs hp
  obtain ⟨⟨o', h3, h4⟩, _⟩ := C71_partial hs hp'
  rw [h1] at h3
  cases h3
  rw [h2] at h4
  exact Option.some.inj h4

/-! ## C72: the accessors -/

theorem endsInDigit_iff (k : String) : endsInDigit k = true ↔ EndsInDigit k := by
  unfold endsInDigit EndsInDigit
  have dig : ∀ d : Char, d ∈ "0123456789".toList ↔ d.isDigit = true := by
    intro d
    have : "0123456789".toList = ['0', '1', '2', '3', '4', '5', '6', '7', '8', '9'] := by decide
    rw [this]
    simp only [List.mem_cons, List.not_mem_nil, or_false, Char.isDigit, Bool.and_eq_true, decide_eq_true_eq]
    constructor
    · rintro (rfl | rfl | rfl | rfl | rfl | rfl | rfl | rfl | rfl | rfl) <;> decide
    · rintro ⟨h1, h2⟩
      have h1 : 48 ≤ d.val.toNat := h1
      have h2 : d.val.toNat ≤ 57 := h2
      have : ∀ n : Nat, 48 ≤ n → n ≤ 57 → n = 48 ∨ n = 49 ∨ n = 50 ∨ n = 51 ∨ n = 52 ∨ n = 53 ∨ n = 54 ∨ n = 55 ∨ n = 56 ∨ n = 57 := by
        omega
      have key : ∀ e : Char, d.val.toNat = e.val.toNat → d = e := fun e h => Char.ext (UInt32.toNat_inj.1 h)
      rcases this _ h1 h2 with h | h | h | h | h | h | h | h | h | h
      · exact .inl (key '0' h)
      · exact .inr (.inl (key '1' h))
      · exact .inr (.inr (.inl (key '2' h)))
      · exact .inr (.inr (.inr (.inl (key '3' h))))
      · exact .inr (.inr (.inr (.inr (.inl (key '4' h)))))
      · exact .inr (.inr (.inr (.inr (.inr (.inl (key '5' h))))))
      · exact .inr (.inr (.inr (.inr (.inr (.inr (.inl (key '6' h)))))))
      · exact .inr (.inr (.inr (.inr (.inr (.inr (.inr (.inl (key '7' h))))))))
      · exact .inr (.inr (.inr (.inr (.inr (.inr (.inr (.inr (.inl (key '8' h)))))))))
      · exact .inr (.inr (.inr (.inr (.inr (.inr (.inr (.inr (.inr (key '9' h)))))))))
  cases h : k.toList.getLast? with
  | none =>
    rw [List.getLast?_eq_none_iff] at h
    simp only [Bool.false_eq_true, false_iff]
    rintro ⟨l, d, h1, _⟩
    rw [h] at h1
    simp at h1
  | some c =>
    simp only [decide_eq_true_eq]
    rw [dig]
    constructor
    · intro hc
      obtain ⟨l, hl⟩ := List.getLast?_eq_some_iff.1 h
      exact ⟨l, c, hl, hc⟩
    · rintro ⟨l, d, h1, h2⟩
      rw [h1, List.getLast?_concat] at h
      cases h
      exact h2

/-- Each property of the body is there once. -/
def EachOnce (attrs : List (String × AVal)) : Prop := ∀ k k' p, OwnProp attrs k p → OwnProp attrs k' p → k' = k

theorem EachOnce.tail {x : String × AVal} (h : EachOnce (x :: attrs)) : EachOnce attrs :=
  fun k k' p h1 h2 => h k k' p (List.mem_cons_of_mem _ h1) (List.mem_cons_of_mem _ h2)

theorem accessor_cons {ps : List PObj} {nm : String} {v : AVal} {p : Nat} {a : String} :
    AccessorOf ps ((nm, v) :: attrs) p a ↔ (v = .prop p ∧ ∃ o, ps[p]? = some o ∧ o.cls = none ∧
      (o.emptyAttr = .named a ∨ (o.emptyAttr = .unset ∧ ¬ EndsInDigit nm ∧ a = nm ++ "0"))) ∨ AccessorOf ps attrs p a := by
  unfold AccessorOf
  constructor
  · rintro ⟨k, o, h1, h2⟩
    rcases ownProp_cons.1 h1 with ⟨rfl, h⟩ | h
    · exact .inl ⟨h, o, h2⟩
    · exact .inr ⟨k, o, h, h2⟩
  · rintro (⟨rfl, o, h2⟩ | ⟨k, o, h, h2⟩)
    · exact ⟨nm, o, List.mem_cons_self, h2⟩
    · exact ⟨k, o, List.mem_cons_of_mem _ h, h2⟩

theorem accessor_congr {ps ps' : List PObj} {p : Nat} {a : String} (h : (∃ k, OwnProp attrs k p) → ps'[p]? = ps[p]?) :
    AccessorOf ps' attrs p a ↔ AccessorOf ps attrs p a := by
  unfold AccessorOf
  constructor
  · rintro ⟨k, o, h1, h2, h3⟩; exact ⟨k, o, h1, by rw [← h ⟨k, h1⟩]; exact h2, h3⟩
  · rintro ⟨k, o, h1, h2, h3⟩; exact ⟨k, o, h1, by rw [h ⟨k, h1⟩]; exact h2, h3⟩

open Classical in
theorem step_aux {l : Loop} {nm : String} {i : Nat} {o : PObj} (a : String) (v : AVal) (hp : l.props[i]? = some o) :
    alookup (step l nm i o).auxProps a = some v ↔
      if o.cls = none ∧ (o.emptyAttr = .named a ∨ (o.emptyAttr = .unset ∧ ¬ EndsInDigit nm ∧ a = nm ++ "0")) then v = .aux i
      else alookup l.auxProps a = some v := by
  unfold step
  cases hb : o.bound with
  | true =>
    have : o.cls ≠ none := by
      intro h; simp [PObj.bound, h] at hb
    simp [this]
  | false =>
    have hc : o.cls = none := by
      cases h : o.cls with
      | none => rfl
      | some d => simp [PObj.bound, h] at hb
    simp only [Bool.false_eq_true, if_false, hc, true_and]
    unfold addAux PObj.setName
    simp only
    rw [← endsInDigit_iff]
    cases he : o.emptyAttr with
    | unset =>
      simp only [reduceCtorEq, false_or, true_and]
      cases hd : endsInDigit nm with
      | true => simp
      | false =>
        simp only [Bool.false_eq_true, if_false, not_false_eq_true, true_and]
        rw [Normalize.alookup_aset]
        by_cases ha : nm ++ "0" = a
        · subst ha; simp [eq_comm]
        · have ha' : ¬ a = nm ++ "0" := fun e => ha e.symm
          simp [ha, ha']
    | off => simp
    | named b =>
      simp only [EAttr.named.injEq, reduceCtorEq, false_and, or_false]
      rw [Normalize.alookup_aset]
      by_cases ha : b = a
      · subst ha; simp [eq_comm]
      · simp [ha]

theorem addAttrs_accessors (l : Loop) (attrs : List (String × AVal)) : Keys attrs → EachOnce attrs →
    ∀ l', (addAttrs l attrs).1 = .ok l' → ∀ a p,
    (alookup l'.auxProps a = some (.aux p) → alookup l.auxProps a = some (.aux p) ∨ AccessorOf l.props attrs p a) ∧
    ((∀ q, AccessorOf l.props attrs q a → q = p) → (alookup l.auxProps a = some (.aux p) ∨ AccessorOf l.props attrs p a) →
      alookup l'.auxProps a = some (.aux p)) := by
  refine addAttrs_ind (P := fun l attrs r => Keys attrs → EachOnce attrs → ∀ l', r.1 = .ok l' → ∀ a p,
    (alookup l'.auxProps a = some (.aux p) → alookup l.auxProps a = some (.aux p) ∨ AccessorOf l.props attrs p a) ∧
    ((∀ q, AccessorOf l.props attrs q a → q = p) → (alookup l.auxProps a = some (.aux p) ∨ AccessorOf l.props attrs p a) →
      alookup l'.auxProps a = some (.aux p))) ?_ ?_ ?_ ?_ ?_ l attrs
  · rintro l _ _ l' ⟨⟩ a p
    refine ⟨.inl, fun _ h => h.elim id ?_⟩
    rintro ⟨k, o, h, _⟩
    cases h
  · rintro l nm v rest _ _ _ l' ⟨⟩
  · rintro l nm i rest _ _ _ _ l' ⟨⟩
  · intro l nm i o rest _ hp ih ha hu l' hl' a p
    simp only [Keys, List.map_cons, List.nodup_cons] at ha
    have hrest : ∀ k, ¬ OwnProp rest k i := by
      intro k hk
      have := hu nm k i List.mem_cons_self (List.mem_cons_of_mem _ hk)
      subst this
      exact ha.1 (mem_keys hk)
    have hc : ∀ q, AccessorOf (step l nm i o).props rest q a ↔ AccessorOf l.props rest q a := by
      intro q
      refine accessor_congr (fun ⟨k, hk⟩ => ?_)
      have hqi : i ≠ q := by rintro rfl; exact hrest k hk
      unfold step
      split
      · rfl
      · simp [hqi]
    obtain ⟨h1, h2⟩ := ih ha.2 hu.tail l' hl' a p
    simp only [hc] at h1 h2
    have hsi : ∀ v, _ := fun v => step_aux (l := l) (nm := nm) a v hp
    constructor
    · intro h
      rw [accessor_cons]
      rcases h1 h with h | h
      · rw [hsi] at h
        split at h
        · rename_i hcond
          cases h
          exact .inr (.inl ⟨rfl, o, hp, hcond⟩)
        · exact .inl h
      · exact .inr (.inr h)
    · intro hq h
      refine h2 (fun q hq' => hq q (accessor_cons.2 (.inr hq'))) ?_
      by_cases hcond : o.cls = none ∧ (o.emptyAttr = .named a ∨ (o.emptyAttr = .unset ∧ ¬ EndsInDigit nm ∧ a = nm ++ "0"))
      · have := hq i (accessor_cons.2 (.inl ⟨rfl, o, hp, hcond⟩))
        subst this
        left
        rw [hsi, if_pos hcond]
      · rcases h with h | h
        · left
          rw [hsi, if_neg hcond]
          exact h
        · rcases accessor_cons.1 h with ⟨h3, o', ho', h4⟩ | h
          · cases h3
            rw [hp] at ho'
            cases ho'
            exact absurd h4 hcond
          · exact .inr h
  · intro l nm v rest _ hv ih ha hu l' hl' a p
    simp only [Keys, List.map_cons, List.nodup_cons] at ha
    have hc : ∀ q, AccessorOf l.props ((nm, v) :: rest) q a ↔ AccessorOf l.props rest q a := by
      intro q
      rw [accessor_cons]
      exact ⟨fun h => h.elim (fun h => absurd h.1 (hv q)) id, .inr⟩
    simp only [hc]
    exact ih ha.2 hu.tail l' hl' a p

theorem addAttrs_auxKeys (l : Loop) (attrs : List (String × AVal)) : Keys l.auxProps →
    ∀ l', (addAttrs l attrs).1 = .ok l' → Keys l'.auxProps := by
  refine addAttrs_ind (P := fun l attrs r => Keys l.auxProps → ∀ l', r.1 = .ok l' → Keys l'.auxProps) ?_ ?_ ?_ ?_ ?_ l attrs
  · rintro l h l' ⟨⟩; exact h
  · rintro l nm v rest _ _ l' ⟨⟩
  · rintro l nm i rest _ _ _ l' ⟨⟩
  · intro l nm i o rest _ _ ih h l' hl'
    refine ih ?_ l' hl'
    unfold step
    split
    · exact h
    · unfold addAux
      split
      · exact h.aset _ _
      · exact h
  · exact fun l nm v rest _ _ ih h l' hl' => ih h l' hl'

theorem update_get : ∀ {e d : List (String × AVal)} {k : String}, Keys e → alookup (update d e) k =
    match alookup e k with
    | some v => some v
    | none => alookup d k
  | [], d, k, _ => rfl
  | (k', w) :: e, d, k, h => by
    simp only [Keys, List.map_cons, List.nodup_cons] at h
    simp only [update, alookup]
    rw [update_get h.2, Normalize.alookup_aset]
    by_cases hk : k' = k
    · subst hk
      rw [alookup_none.2 h.1]
      simp
    · simp [hk]

/-- C72: the class gets an accessor for each of its own new properties, unless its name ends in a digit, and no other. -/
theorem C72 (hb : IsBody s attrs) (hu : EachOnce attrs) (hnone : ∀ k p, (k, AVal.aux p) ∉ attrs)
    (h : declare s mt bases attrs = (.ok c, s')) (hr : ForRecord s mt bases) (a : String) (p : Nat) :
    (OwnAttr s' c a (.aux p) → AccessorOf s.props attrs p a) ∧
    (AccessorOf s.props attrs p a → (∀ q, AccessorOf s.props attrs q a → q = p) →
      a ∉ ["primary_key", "properties", "_sorted_properties", "eager_properties"] → OwnAttr s' c a (.aux p)) := by
  obtain ⟨_, l, r, m, hm⟩ := declare_made h hr
  obtain ⟨h1, h2⟩ := addAttrs_accessors { props := s.props, properties := inherited s bases } attrs hb.dict hu l hm.loop a p
  have hkeys := addAttrs_auxKeys { props := s.props, properties := inherited s bases } attrs keys_nil l hm.loop
  have hget : ∀ v, OwnAttr s' c a v ↔ alookup (classDict attrs l.auxProps) a = some v := by
    intro v
    rw [hm.state, hm.cls]
    unfold OwnAttr
    simp
  simp only [hget]
  constructor
  · intro hl
    unfold classDict at hl
    rcases update_some hl with hl | hl
    · simp at hl
    · rw [update_get hkeys] at hl
      cases ha : alookup l.auxProps a with
      | none =>
        rw [ha] at hl
        exact absurd (mem_of_alookup hl) (hnone a p)
      | some v =>
        rw [ha] at hl
        cases hl
        exact (h1 ha).elim (fun h => by cases h) id
  · intro hacc huniq hna
    unfold classDict
    simp only [List.mem_cons, List.not_mem_nil, or_false, not_or] at hna
    obtain ⟨n1, n2, n3, n4⟩ := hna
    rw [update_get (by simp [Keys])]
    have : alookup [("primary_key", AVal.added), ("properties", .added), ("_sorted_properties", .added), ("eager_properties", .added)] a = none := by
      rw [alookup_none]
      simp [n1, n2, n3, n4]
    rw [this]
    simp only
    rw [update_get hkeys, h2 huniq (.inr hacc)]

/-! ## Examples -/

/-- Make a property. -/
def pr (s : State) (required hasDefault lazy extraneous : Bool) : State := (newProp s required hasDefault lazy extraneous .unset).2

-- Record; A(Record) with x (required), y (with a default, lazy) and primary_key = ["x"]; a mixin; B(A, Mixin) with y (with a default)
def exRecord : State := (declare {} true [] []).2
def exProps : State := pr (pr (pr exRecord true false false false) false true true false) false true false true
def exBodyA : List (String × AVal) := [("x", .prop 0), ("y", .prop 1), ("primary_key", .pk [.name "x"])]
def exA : State := (declare exProps false [0] exBodyA).2
def exMixin : State := (declare exA false [] [("helper", .other)]).2
def exBodyB : List (String × AVal) := [("y", .prop 2), ("primary_key", .pk [.name "x", .prop 2])]
def exB : State := (declare exMixin false [1, 2] exBodyB).2

theorem bodyA : IsBody exProps exBodyA := ⟨by decide, by
  rintro k p (_ | ⟨_, _ | ⟨_, _ | ⟨_, ⟨⟩⟩⟩⟩) <;> decide⟩

theorem bodyB : IsBody exMixin exBodyB := ⟨by decide, by
  rintro k p (_ | ⟨_, _ | ⟨_, ⟨⟩⟩⟩) <;> decide⟩

theorem bodyMixin : IsBody exA [("helper", .other)] := ⟨by decide, by
  rintro k p (_ | ⟨_, ⟨⟩⟩)⟩

theorem exDeclared : DeclaredState exB :=
  .cls (.cls (.cls (.prop (.prop (.prop (.cls .init ⟨by decide, by rintro k p ⟨⟩⟩)))) bodyA) bodyMixin) bodyB

-- B has x from A and its own y; x is eager and so is B's y, but A's y is not; B's y does not count; mro of B
example : declare exMixin false [1, 2] exBodyB = (.ok 3, exB) ∧
    (exB.classes[3]?.map (·.info)) = some (some { properties := [("x", 0), ("y", 2)], primaryKey := [0, 2], sorted := [0], eager := ["x", "y"] }) ∧
    (exB.classes[1]?.map (·.info)) = some (some { properties := [("x", 0), ("y", 1)], primaryKey := [0], sorted := [0, 1], eager := ["x"] }) ∧
    (exB.classes[3]?.map (·.mro)) = some [3, 1, 0, 2] ∧
    (exB.props.map (fun o => (o.name, o.cls))) = [(some "x", some 1), (some "y", some 1), (some "y", some 3)] := by
  decide +kernel

example : ForRecord exMixin false [1, 2] :=
  .inr ⟨1, by simp, _, _, by with_unfolding_all rfl, by with_unfolding_all rfl⟩

-- two bases that share x; a name for itself; a primary key of another class
example : (declare exB false [3, 1] []).1 = .error .multipleInheritanceClash ∧
    (declare exB false [1] [("properties", .other)]).1 = .error .reservedPropertyName ∧
    (declare exB false [1] [("primary_key", .pk [.prop 2])]).1 = .error .propertiesNotKnown ∧
    (declare exB false [1] [("primary_key", .pk [.name "z"])]).1 = .error .keyError := by decide +kernel

theorem exOnce : DeclaredOnce exB := by
  refine .cls (.cls (.cls (.prop (.prop (.prop (.cls .init ⟨by decide, by rintro k p ⟨⟩⟩ (by rintro k p ⟨⟩))))) bodyA ?_) bodyMixin ?_) bodyB ?_
  · rintro k p (_ | ⟨_, _ | ⟨_, _ | ⟨_, ⟨⟩⟩⟩⟩)
    · refine ⟨?_, ?_⟩
      · rintro n ⟨o, ⟨⟩, ⟨⟩⟩
      · rintro k' (_ | ⟨_, _ | ⟨_, _ | ⟨_, ⟨⟩⟩⟩⟩); rfl
    · refine ⟨?_, ?_⟩
      · rintro n ⟨o, ⟨⟩, ⟨⟩⟩
      · rintro k' (_ | ⟨_, _ | ⟨_, _ | ⟨_, ⟨⟩⟩⟩⟩); rfl
  · rintro k p (_ | ⟨_, ⟨⟩⟩)
  · rintro k p (_ | ⟨_, _ | ⟨_, ⟨⟩⟩⟩)
    refine ⟨?_, ?_⟩
    · rintro n ⟨o, ho, hn⟩
      have : exMixin.props[2]? = some { hasDefault := true, extraneous := true } := by decide +kernel
      rw [this] at ho
      cases ho
      cases hn
    · rintro k' (_ | ⟨_, _ | ⟨_, ⟨⟩⟩⟩); rfl

theorem onlyProps_of (s : State) (k : String) (h : s.classes.all (fun cl =>
    match alookup cl.dict k with
    | none => true
    | some (.prop _) => cl.info.isSome
    | some _ => false) = true) : OnlyProps s k := by
  rintro d v ⟨cl, hcl, hl⟩
  have := List.all_eq_true.1 h cl (List.mem_of_getElem? hcl)
  rw [hl] at this
  cases v with
  | prop p =>
    simp only at this
    cases hr : cl.info with
    | none => rw [hr] at this; cases this
    | some r => exact ⟨⟨r, cl, hcl, hr⟩, p, rfl⟩
  | _ => cases this

example : OnlyProps exB "x" ∧ OnlyProps exB "y" :=
  ⟨onlyProps_of _ _ (by decide +kernel), onlyProps_of _ _ (by decide +kernel)⟩

-- class Q(Record): foo = Property(); bar1 = Property(); nobody = Property(empty_attr="nil")
def exAcc0 : State := pr (pr (pr exRecord false false false false) false false false false) false false false false

def exAcc1 : State := { exAcc0 with props := exAcc0.props.set 2 { exAcc0.props[2] with emptyAttr := .named "nil" } }

example : (declare exAcc1 false [0] [("foo", .prop 0), ("bar1", .prop 1), ("nobody", .prop 2)]).2.classes[1]?.map (·.dict.map Prod.fst) =
    some ["foo", "bar1", "nobody", "foo0", "nil", "primary_key", "properties", "_sorted_properties", "eager_properties"] := by
  decide +kernel

example : AccessorOf exAcc1.props [("foo", .prop 0), ("bar1", .prop 1), ("nobody", .prop 2)] 0 "foo0" :=
  ⟨"foo", { }, .head _, by with_unfolding_all rfl, rfl, .inr ⟨rfl, by rw [← endsInDigit_iff]; decide, by decide⟩⟩

/-! ## What goes wrong -/

-- class P(Record): foo = Property(); foo0 = Property()
def exFoo : State := (declare (pr (pr exRecord false false false false) false false false false) false [0]
  [("foo", .prop 0), ("foo0", .prop 1)]).2

theorem exFooDeclared : DeclaredState exFoo :=
  .cls (.prop (.prop (.cls .init ⟨by decide, by rintro k p ⟨⟩⟩))) ⟨by decide, by
    rintro k p (_ | ⟨_, _ | ⟨_, ⟨⟩⟩⟩) <;> decide⟩

/-- C70 is false of the code: the property `foo0` is lost behind the accessor that goes with a property `foo`. -/
theorem C70_violated : ¬ C70_statement := by
  intro h
  have := h exFoo 1 "foo0" 1 exFooDeclared ⟨_, ⟨_, by with_unfolding_all rfl, by with_unfolding_all rfl⟩, by decide +kernel⟩
  rw [finds_iff] at this
  revert this
  decide +kernel

-- class Q(A): x = None
def exShadow : State := (declare exB false [1] [("x", .other)]).2

/-- A subclass that hides a property behind something else still lists the property. -/
theorem C70_shadow_violated : DeclaredState exShadow ∧ HasProp exShadow 4 "x" 0 ∧ Finds exShadow 4 "x" .other := by
  refine ⟨.cls exDeclared ⟨by decide, by rintro k p (_ | ⟨_, ⟨⟩⟩)⟩, ?_, ?_⟩
  · exact ⟨_, ⟨_, by with_unfolding_all rfl, by with_unfolding_all rfl⟩, by decide +kernel⟩
  · rw [finds_iff]
    decide +kernel

-- class R(Record): a = b = Property()
def exAlias : State := (declare (pr exRecord false false false false) false [0] [("a", .prop 0), ("b", .prop 0)]).2

/-- C71 is false of the code: a property object that is there under two names has the last one. -/
theorem C71_violated : ¬ C71_statement := by
  intro h
  have hd : DeclaredState exAlias := .cls (.prop (.cls .init ⟨by decide, by rintro k p ⟨⟩⟩)) ⟨by decide, by
    rintro k p (_ | ⟨_, _ | ⟨_, ⟨⟩⟩⟩) <;> decide⟩
  obtain ⟨⟨o, h1, h2⟩, _⟩ := h exAlias 1 "a" 0 hd ⟨_, ⟨_, by with_unfolding_all rfl, by with_unfolding_all rfl⟩, by decide +kernel⟩
  have : exAlias.props[0]?.map (·.name) = some (some "b") := by decide +kernel
  rw [h1] at this
  simp only [Option.map_some, Option.some.injEq] at this
  rw [h2] at this
  revert this
  decide

end Normalize.ClassMeta
