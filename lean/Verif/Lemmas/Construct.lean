import Verif.Lemmas.Property

/-! Lemmas about construction. -/

namespace Normalize.Slots

open Spec

variable {V : Type} [DecidableEq V] {w : World V} {c : Cls V}

theorem runCheck_iff {p : PropDef V} {v u : V} :
    runCheck p v = .ok u ↔ u = v ∧ ∀ f, p.check = some f → f u = .ok true := by
  constructor
  · intro h; obtain ⟨h1, h2⟩ := runCheck_ok h; exact ⟨h1.symm, h2⟩
  · rintro ⟨rfl, h⟩
    unfold runCheck
    split
    · rfl
    · rename_i f hc; rw [h f hc]

theorem afterCoerce_iff {p : PropDef V} {isa : V → Bool} {nv u : V} {b : Bool} :
    afterCoerce w p isa nv b = .ok u ↔
      (isa nv = true ∧ u = nv ∧ ∀ f, p.check = some f → f u = .ok true) ∨
      (isa nv = false ∧ b = true ∧ nv = w.none ∧ p.required = false ∧ u = w.unset) := by
  unfold afterCoerce
  split
  · rename_i h; rw [runCheck_iff]; simp [h]
  · rename_i h
    have h : isa nv = false := by simpa using h
    split
    · rename_i h1
      obtain ⟨a, b, c⟩ := h1
      constructor
      · intro e; injection e with e; exact .inr ⟨h, a, b, c, e.symm⟩
      · rintro (⟨e, _⟩ | ⟨_, _, _, _, e⟩)
        · rw [h] at e; simp at e
        · rw [e]
    · rename_i h1
      simp only [h, reduceCtorEq, Bool.false_eq_true, false_and, true_and, false_or, false_iff]
      rintro ⟨a, b, c, _⟩; exact h1 ⟨a, b, c⟩

theorem typeSafe_iff {p : PropDef V} {v u : V} {b : Bool} :
    typeSafe w p v b = .ok u ↔
      Converts w p v u ∨ (b = true ∧ Swallows w p v ∧ u = w.unset) := by
  unfold typeSafe Converts Swallows Acceptable
  split
  · rename_i h
    obtain ⟨h1, h2, h3⟩ := h
    have h3 : p.isa = none := by simpa using h3
    simp [h1, h2, h3]
  · rename_i hreq
    cases hisa : p.isa with
    | none =>
      simp only [runCheck_iff]
      simp only [reduceCtorEq, false_implies, implies_true, true_and, false_and, exists_false, or_false,
        and_false]
      have : p.required = true → v ≠ w.none := by
        intro hr hv; exact hreq ⟨hv, hr, by simp [hisa]⟩
      constructor
      · rintro ⟨rfl, h⟩; exact ⟨h, rfl, this⟩
      · rintro ⟨h, rfl, _⟩; exact ⟨rfl, h⟩
    | some isa =>
      simp only
      split
      · rename_i h
        rw [runCheck_iff]
        simp only [Option.some.injEq, forall_eq', reduceCtorEq, false_and, false_or, exists_eq_left']
        simp only [h, true_and, Bool.true_eq_false, false_and, or_false, and_false]
        constructor
        · rintro ⟨rfl, h'⟩; exact ⟨⟨h, h'⟩, rfl⟩
        · rintro ⟨⟨_, h'⟩, rfl⟩; exact ⟨rfl, h'⟩
      · rename_i h
        have h : isa v = false := by simpa using h
        simp only [Option.some.injEq, forall_eq', reduceCtorEq, false_and, false_or, exists_eq_left']
        simp only [h, Bool.false_eq_true, false_and, true_and, false_or]
        split
        · rename_i nv hc
          rw [afterCoerce_iff]
          simp only [hc, CoerceRes.ok.injEq, reduceCtorEq, or_false]
          constructor
          · rintro (⟨h1, rfl, h2⟩ | ⟨h1, hb, rfl, h2, h3⟩)
            · exact .inl ⟨⟨h1, h2⟩, rfl⟩
            · exact .inr ⟨hb, ⟨h2, h1, rfl⟩, h3⟩
          · rintro (⟨⟨h1, h2⟩, rfl⟩ | ⟨hb, ⟨h2, h1, rfl⟩, h3⟩)
            · exact .inl ⟨h1, rfl, h2⟩
            · exact .inr ⟨h1, hb, rfl, h2, h3⟩
        · rename_i nv hc
          rw [afterCoerce_iff]
          simp only [hc, CoerceRes.subtype.injEq, reduceCtorEq, false_or]
          constructor
          · rintro (⟨h1, rfl, h2⟩ | ⟨h1, hb, rfl, h2, h3⟩)
            · exact .inl ⟨⟨h1, h2⟩, rfl⟩
            · exact .inr ⟨hb, ⟨h2, h1, rfl⟩, h3⟩
          · rintro (⟨⟨h1, h2⟩, rfl⟩ | ⟨hb, ⟨h2, h1, rfl⟩, h3⟩)
            · exact .inl ⟨h1, rfl, h2⟩
            · exact .inr ⟨h1, hb, rfl, h2, h3⟩
        · rename_i e hc
          simp [hc]

theorem converts_unique {p : PropDef V} {v u u' : V} (h : Converts w p v u) (h' : Converts w p v u') :
    u = u' := by
  have a := (typeSafe_iff (b := false)).2 (.inl h)
  have b := (typeSafe_iff (b := false)).2 (.inl h')
  rw [a] at b; injection b

theorem converts_not_swallows {p : PropDef V} {v u : V} (h : Converts w p v u) (h' : Swallows w p v) :
    False := by
  obtain ⟨ha, hc⟩ := h
  obtain ⟨_, isa, hi, hv, hn, hco⟩ := h'
  rcases hc with ⟨hc, _⟩ | ⟨isa', hi', hc⟩
  · rw [hi] at hc; simp at hc
  · rw [hi] at hi'; injection hi' with hi'; subst hi'
    rcases hc with ⟨hc, _⟩ | ⟨_, hc⟩
    · rw [hv] at hc; simp at hc
    · have : isa u = true := ha.1 _ hi
      have : u = w.none := by
        rcases hc with hc | hc <;> rcases hco with hco | hco <;> rw [hc] at hco <;> simp at hco <;> exact hco
      subst this
      simp_all

/-- Construction of one property is deterministic. -/
theorem ctor_unique {p : PropDef V} {a s s' : Option V} (h : Ctor w p a s) (h' : Ctor w p a s') :
    s = s' := by
  cases h with
  | passed h =>
    cases h' with
    | passed h' => rw [converts_unique h h']
    | dropped h' => exact (converts_not_swallows h h').elim
  | dropped h =>
    cases h' with
    | passed h' => exact (converts_not_swallows h' h).elim
    | dropped h' => rfl
  | default hl hd h =>
    cases h' with
    | default _ hd' h' => rw [hd] at hd'; injection hd' with hd'; injection hd' with hd'; subst hd'; rw [converts_unique h h']
    | defaultDropped _ hd' h' =>
      rw [hd] at hd'; injection hd' with hd'; injection hd' with hd'; subst hd'
      exact (converts_not_swallows h h').elim
    | absent h' => simp [hl, hd] at h'
  | defaultDropped hl hd h =>
    cases h' with
    | default _ hd' h' =>
      rw [hd] at hd'; injection hd' with hd'; injection hd' with hd'; subst hd'
      exact (converts_not_swallows h' h).elim
    | defaultDropped _ hd' h' => rfl
    | absent h' => rfl
  | absent h =>
    cases h' with
    | default hl hd h' => simp [hl, hd] at h
    | defaultDropped _ _ _ => rfl
    | absent _ => rfl

/-- the slot `s` written over the state -/
def State.fill (st : State V) (nm : String) : Option V → State V
  | some u => st.put nm u
  | none => st

theorem initValue_spec {p : PropDef V} {nm : String} {st : State V} {v : V} (hv : v ≠ w.unset)
    (hco : ∀ v u, (p.coerce v = .ok u ∨ p.coerce v = .subtype u) → u ≠ w.unset) :
    (∃ s, Ctor w p (some v) s ∧ initValue w p nm st v = (.ok (), st.fill nm s)) ∨
    ((¬ ∃ s, Ctor w p (some v) s) ∧ ∃ e, initValue w p nm st v = (.error e, st)) := by
  unfold initValue
  simp only [hv, if_false]
  cases h : typeSafe w p v true with
  | ok u =>
    left
    rcases typeSafe_iff.1 h with h1 | ⟨_, h1, rfl⟩
    · refine ⟨some u, .passed h1, ?_⟩
      have : u ≠ w.unset := by
        rcases h1.2 with ⟨_, rfl, _⟩ | ⟨_, _, ⟨_, rfl⟩ | ⟨_, h2⟩⟩
        · exact hv
        · exact hv
        · exact hco _ _ h2
      simp [this, State.fill]
    · exact ⟨none, .dropped h1, by simp [State.fill, h1.1]⟩
  | error e =>
    right
    refine ⟨?_, e, rfl⟩
    rintro ⟨s, hs⟩
    cases hs with
    | passed h1 => rw [(typeSafe_iff (b := true)).2 (.inl h1)] at h; simp at h
    | dropped h1 => rw [(typeSafe_iff (b := true)).2 (.inr ⟨rfl, h1, rfl⟩)] at h; simp at h

theorem initProp_spec {ex : State V → Op V → Res V V} {p : PropDef V} {nm : String} {st : State V}
    {arg : Option V} (hv : ∀ v, arg = some v → v ≠ w.unset)
    (hd : ∀ d, p.default = some (.ret d) → d ≠ w.unset)
    (hco : ∀ v u, (p.coerce v = .ok u ∨ p.coerce v = .subtype u) → u ≠ w.unset)
    (hsimp : p.kind.isLazy = false → ∀ prog, p.default = some prog → Simple prog) :
    (∃ s st', Ctor w p arg s ∧ initProp w ex p nm st arg = some (.ok (), st') ∧
      st'.slots = (st.fill nm s).slots) ∨
    ((¬ ∃ s, Ctor w p arg s) ∧ ∃ e st', initProp w ex p nm st arg = some (.error e, st') ∧
      (p.default = none → arg = none → e = .propertyRequired)) := by
  unfold initProp
  cases arg with
  | some v =>
    rcases initValue_spec (p := p) (nm := nm) (st := st) (hv v rfl) hco with ⟨s, h1, h2⟩ | ⟨h1, e, h2⟩
    · exact .inl ⟨s, _, h1, congrArg some h2, rfl⟩
    · exact .inr ⟨h1, e, _, congrArg some h2, by simp⟩
  | none =>
    simp only
    cases hl : p.kind.isLazy with
    | true => exact .inl ⟨none, st, .absent (.inl hl), by simp, rfl⟩
    | false =>
      simp only [Bool.false_eq_true, if_false, getDefault]
      cases hdf : p.default with
      | none =>
        simp only [initValue, if_true]
        cases hr : p.required with
        | true =>
          right
          refine ⟨?_, .propertyRequired, st, by simp, by simp⟩
          rintro ⟨s, hs⟩
          cases hs with
          | default _ h _ => rw [hdf] at h; simp at h
          | defaultDropped _ h _ => rw [hdf] at h; simp at h
          | absent h => simp [hl, hr] at h
        | false => exact .inl ⟨none, st, .absent (.inr ⟨hdf, hr⟩), by simp, rfl⟩
      | some prog =>
        have := hsimp hl prog hdf
        cases this with
        | @ret d =>
          simp only [runProg]
          rcases initValue_spec (p := p) (nm := nm) (st := st.log nm) (hd d hdf) hco with
            ⟨s, h1, h2⟩ | ⟨h1, e, h2⟩
          · left
            refine ⟨s, _, ?_, congrArg some h2, ?_⟩
            · cases h1 with
              | passed h => exact .default hl hdf h
              | dropped h => exact .defaultDropped hl hdf h
            · cases s <;> rfl
          · right
            refine ⟨?_, e, _, congrArg some h2, by simp⟩
            rintro ⟨s, hs⟩
            apply h1
            cases hs with
            | default _ h h' => rw [hdf] at h; injection h with h; injection h with h; subst h; exact ⟨_, .passed h'⟩
            | defaultDropped _ h h' => rw [hdf] at h; injection h with h; injection h with h; subst h; exact ⟨_, .dropped h'⟩
            | absent h => simp [hl, hdf] at h
        | @raise e =>
          right
          refine ⟨?_, e, _, rfl, by simp⟩
          rintro ⟨s, hs⟩
          cases hs with
          | default _ h _ => rw [hdf] at h; simp at h
          | defaultDropped _ h _ => rw [hdf] at h; simp at h
          | absent h => simp [hl, hdf] at h

/-- What initialising a list of properties does. -/
theorem initAll_spec {ex : State V → Op V → Res V V} (kw : List (String × V)) (hp : Private w c kw)
    (hsd : SimpleDefaults c) :
    ∀ (l : List (String × Option V)) (st : State V), (l.map (·.1)).Nodup →
      (∀ x ∈ l, ∀ v, x.2 = some v → v ≠ w.unset) → (∀ x ∈ l, st.slots x.1 = none) →
      (∃ st', initAll w c ex l st = some (.ok (), st') ∧
        (∀ x ∈ l, ∃ p, c.find x.1 = some p ∧ Ctor w p x.2 (st'.slots x.1)) ∧
        (∀ nm, nm ∉ l.map (·.1) → st'.slots nm = st.slots nm)) ∨
      (∃ e st', initAll w c ex l st = some (.error e, st') ∧
        ∃ x ∈ l, (c.find x.1 = none ∧ e = .propertyNotKnown) ∨
          ∃ p, c.find x.1 = some p ∧ (¬ ∃ s, Ctor w p x.2 s) ∧
            (p.default = none → x.2 = none → e = .propertyRequired)) := by
  intro l
  induction l with
  | nil => intro st _ _ _; left; exact ⟨st, rfl, by simp, by simp⟩
  | cons x l ih =>
    obtain ⟨nm, arg⟩ := x
    intro st hnd hv hst
    simp only [List.map_cons, List.nodup_cons] at hnd
    simp only [initAll]
    cases hf : c.find nm with
    | none => right; exact ⟨_, _, rfl, (nm, arg), by simp, .inl ⟨hf, rfl⟩⟩
    | some p =>
      obtain ⟨x, hx, hxp⟩ : ∃ x ∈ c.props, x.2 = p := by
        unfold Cls.find at hf
        rw [Option.map_eq_some_iff] at hf
        obtain ⟨x, hx, rfl⟩ := hf
        exact ⟨x, List.mem_of_find?_eq_some hx, rfl⟩
      subst hxp
      simp only
      rcases initProp_spec (ex := ex) (p := x.2) (nm := nm) (st := st) (arg := arg)
          (hv (nm, arg) (by simp)) (hp.defaults x hx) (hp.coerced x hx) (hsd x hx) with
        ⟨s, st1, h1, h2, h3⟩ | ⟨h1, e, st1, h2, h3⟩
      · rw [h2]
        simp only
        have hst1 : ∀ y ∈ l, st1.slots y.1 = none := by
          intro y hy
          have hne : y.1 ≠ nm := by rintro rfl; exact hnd.1 (List.mem_map.2 ⟨y, hy, rfl⟩)
          rw [h3]
          cases s with
          | none => exact hst y (by simp [hy])
          | some u => simp [State.fill, State.put, hne, hst y (by simp [hy])]
        have hown : st1.slots nm = s := by
          rw [h3]
          cases s with
          | none => exact hst (nm, arg) (by simp)
          | some u => simp [State.fill, State.put]
        rcases ih st1 hnd.2 (fun y hy => hv y (by simp [hy])) hst1 with
          ⟨st', e1, e2, e3⟩ | ⟨e, st', e1, y, hy, e2⟩
        · left
          refine ⟨st', e1, ?_, ?_⟩
          · intro y hy
            rcases List.mem_cons.1 hy with rfl | hy
            · refine ⟨_, hf, ?_⟩
              simp only
              rw [e3 _ hnd.1, hown]; exact h1
            · exact e2 y hy
          · intro nm' hnm'
            simp only [List.map_cons, List.mem_cons, not_or] at hnm'
            rw [e3 _ hnm'.2, h3]
            cases s with
            | none => rfl
            | some u => simp [State.fill, State.put, hnm'.1]
        · right; exact ⟨e, st', e1, y, by simp [hy], e2⟩
      · rw [h2]
        right
        exact ⟨e, st1, rfl, (nm, arg), by simp, .inr ⟨_, hf, h1, h3⟩⟩

theorem find_of_mem (hnd : (c.props.map (·.1)).Nodup) {x : String × PropDef V} (hx : x ∈ c.props) :
    c.find x.1 = some x.2 := by
  unfold Cls.find
  rw [Option.map_eq_some_iff]
  refine ⟨x, ?_, rfl⟩
  generalize c.props = l at hnd hx
  induction l with
  | nil => simp at hx
  | cons y l ih =>
    simp only [List.map_cons, List.nodup_cons] at hnd
    rcases List.mem_cons.1 hx with rfl | hx
    · simp
    · have : y.1 ≠ x.1 := by intro e; exact hnd.1 (e ▸ List.mem_map.2 ⟨x, hx, rfl⟩)
      rw [List.find?_cons_of_neg (by simpa using this)]
      exact ih hnd.2 hx

theorem mem_of_find {nm : String} {p : PropDef V} (hf : c.find nm = some p) : (nm, p) ∈ c.props := by
  unfold Cls.find at hf
  rw [Option.map_eq_some_iff] at hf
  obtain ⟨x, hx, rfl⟩ := hf
  have h1 := List.mem_of_find?_eq_some hx
  have h2 := List.find?_some hx
  simp at h2
  subst h2; exact h1

theorem lookup_of_mem {kw : List (String × V)} (hnd : (kw.map (·.1)).Nodup) {x : String × V}
    (hx : x ∈ kw) : lookupKw kw x.1 = some x.2 := by
  unfold lookupKw
  rw [Option.map_eq_some_iff]
  refine ⟨x, ?_, rfl⟩
  induction kw with
  | nil => simp at hx
  | cons y l ih =>
    simp only [List.map_cons, List.nodup_cons] at hnd
    rcases List.mem_cons.1 hx with rfl | hx
    · simp
    · have : y.1 ≠ x.1 := by intro e; exact hnd.1 (e ▸ List.mem_map.2 ⟨x, hx, rfl⟩)
      rw [List.find?_cons_of_neg (by simpa using this)]
      exact ih hnd.2 hx

theorem lookup_none {kw : List (String × V)} {nm : String} (h : nm ∉ kw.map (·.1)) :
    lookupKw kw nm = none := by
  unfold lookupKw
  rw [Option.map_eq_none_iff, List.find?_eq_none]
  intro x hx e
  simp at e
  exact h (List.mem_map.2 ⟨x, hx, e⟩)

/-- What the constructor does. -/
theorem construct_spec {n : Nat} {ord : List String → List String} {kw : List (String × V)}
    (hnd : (c.props.map (·.1)).Nodup) (hkw : (kw.map (·.1)).Nodup) (ho : SetOrder ord)
    (hp : Private w c kw) (hsd : SimpleDefaults c) :
    (∃ st, construct w c n ord [] kw = some (.ok (), st) ∧
      (∀ x ∈ kw, ∃ p, c.find x.1 = some p) ∧
      (∀ nm p, c.find nm = some p → Ctor w p (lookupKw kw nm) (st.slots nm)) ∧
      (∀ nm, c.find nm = none → st.slots nm = none)) ∨
    (∃ e st, construct w c n ord [] kw = some (.error e, st) ∧
      ((∃ x ∈ kw, c.find x.1 = none ∧ e = .propertyNotKnown) ∨
        ∃ nm p, c.find nm = some p ∧ (¬ ∃ s, Ctor w p (lookupKw kw nm) s) ∧
          (p.default = none → lookupKw kw nm = none → e = .propertyRequired))) := by
  unfold construct
  simp only [List.isEmpty_nil, Bool.not_true, Bool.false_and, Bool.false_eq_true, if_false, if_true]
  generalize hm : c.eagerNames.filter (fun nm => !(kw.map (·.1)).contains nm) = miss
  have hmiss : ∀ nm, nm ∈ miss ↔ nm ∈ c.eagerNames ∧ nm ∉ kw.map (·.1) := by
    intro nm; rw [← hm]; simp only [List.mem_filter, Bool.not_eq_true', List.contains_eq_mem,
      decide_eq_false_iff_not]
  have hmnd : (ord miss).Nodup := by
    rw [(ho miss).nodup_iff, ← hm]
    refine List.filter_sublist.nodup ?_
    unfold Cls.eagerNames
    exact (List.Sublist.map _ List.filter_sublist).nodup hnd
  have hom : ∀ nm, nm ∈ ord miss ↔ nm ∈ miss := fun nm => (ho miss).mem_iff
  have hnames : (kw.map (fun x => (x.1, some x.2)) ++
      (ord miss).map (fun nm => (nm, (none : Option V)))).map (·.1) = kw.map (·.1) ++ ord miss := by
    simp [Function.comp_def]
  rcases initAll_spec (ex := exec w c n) kw hp hsd
      (kw.map (fun x => (x.1, some x.2)) ++ (ord miss).map (fun nm => (nm, none))) .empty
      (by
        rw [hnames, List.nodup_append]
        refine ⟨hkw, hmnd, ?_⟩
        rintro a ha b hb rfl
        exact ((hmiss _).1 ((hom _).1 hb)).2 ha)
      (by
        intro x hx v hv
        rcases List.mem_append.1 hx with hx | hx
        · obtain ⟨y, hy, rfl⟩ := List.mem_map.1 hx
          simp at hv; subst hv; exact hp.passed y hy
        · obtain ⟨y, hy, rfl⟩ := List.mem_map.1 hx
          simp at hv)
      (by intro x _; rfl) with ⟨st, h1, h2, h3⟩ | ⟨e, st, h1, x, hx, h2⟩
  · left
    refine ⟨st, h1, ?_, ?_, ?_⟩
    · intro x hx
      obtain ⟨p, hp, _⟩ := h2 (x.1, some x.2) (by
        apply List.mem_append_left; exact List.mem_map.2 ⟨x, hx, rfl⟩)
      exact ⟨p, hp⟩
    · intro nm p hf
      by_cases hin : nm ∈ kw.map (·.1)
      · obtain ⟨x, hx, rfl⟩ := List.mem_map.1 hin
        obtain ⟨q, hq, hc⟩ := h2 (x.1, some x.2) (by
          apply List.mem_append_left; exact List.mem_map.2 ⟨x, hx, rfl⟩)
        simp only at hq hc
        rw [hf] at hq; injection hq with hq; subst hq
        rw [lookup_of_mem hkw hx]; exact hc
      · rw [lookup_none hin]
        by_cases he : nm ∈ c.eagerNames
        · obtain ⟨q, hq, hc⟩ := h2 (nm, none) (by
            apply List.mem_append_right
            exact List.mem_map.2 ⟨nm, (hom _).2 ((hmiss _).2 ⟨he, hin⟩), rfl⟩)
          simp only at hq hc
          rw [hf] at hq; injection hq with hq; subst hq
          exact hc
        · have hs : st.slots nm = none := by
            rw [h3 nm]
            · rfl
            · rw [hnames]
              simp only [List.mem_append, not_or]
              exact ⟨hin, fun h => he ((hmiss _).1 ((hom _).1 h)).1⟩
          rw [hs]
          apply Ctor.absent
          have : p.eager = false := by
            cases h : p.eager with
            | false => rfl
            | true =>
              exfalso; apply he
              unfold Cls.eagerNames
              exact List.mem_map.2 ⟨(nm, p), List.mem_filter.2 ⟨mem_of_find hf, h⟩, rfl⟩
          unfold PropDef.eager at this
          split at this
          · left; assumption
          · right
            simp only [Bool.or_eq_false_iff, Option.isSome_eq_false_iff, Option.isNone_iff_eq_none] at this
            exact this.symm
    · intro nm hf
      rw [h3 nm]
      · rfl
      · intro hin
        obtain ⟨x, hx, rfl⟩ := List.mem_map.1 hin
        obtain ⟨p, hp, _⟩ := h2 x hx
        rw [hf] at hp; simp at hp
  · right
    refine ⟨e, st, h1, ?_⟩
    rcases List.mem_append.1 hx with hx | hx
    · obtain ⟨y, hy, rfl⟩ := List.mem_map.1 hx
      rcases h2 with ⟨h2, h3⟩ | ⟨p, h2, h3, h4⟩
      · left; exact ⟨y, hy, h2, h3⟩
      · right; simp only at h2 h3 h4
        exact ⟨y.1, p, h2, by rw [lookup_of_mem hkw hy]; exact h3, by
          rw [lookup_of_mem hkw hy]; simp⟩
    · obtain ⟨y, hy, rfl⟩ := List.mem_map.1 hx
      have hy' := (hmiss _).1 ((hom _).1 hy)
      rcases h2 with ⟨h2, h3⟩ | ⟨p, h2, h3, h4⟩
      · exfalso
        obtain ⟨z, hz, hz'⟩ := List.mem_map.1 hy'.1
        have := find_of_mem hnd (List.mem_filter.1 hz).1
        rw [hz', h2] at this; simp at this
      · right; simp only at h2 h3 h4
        exact ⟨y, p, h2, by rw [lookup_none hy'.2]; exact h3, by rw [lookup_none hy'.2]; exact fun a _ => h4 a trivial⟩

end Normalize.Slots
