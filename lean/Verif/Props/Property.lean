import Verif.Lemmas.Construct

/-!
# C21–C26, C30, C31: properties, construction, pickling
-/

namespace Normalize.Slots

open Spec

variable {V : Type} [DecidableEq V] {w : World V} {c : Cls V}

/-! ## C21 -/

/-- C21: in every reachable state, whatever a type-checked property (safe, read-only, v1 or a lazy variant
of these) holds is an instance of its declared type and passes its check. -/
theorem C21_type_safe {st : State V} (hr : Reach w c st) {nm : String} {p : PropDef V}
    (hf : c.find nm = some p) (hk : p.kind.isData = true) {v : V} (hv : st.slots nm = some v) :
    Acceptable p v := by
  let P : State V → Prop := fun st => ∀ v, st.slots nm = some v → Acceptable p v
  have hput : ∀ st nm' u, P st → (nm' = nm → Acceptable p u) → P (st.put nm' u) := by
    intro st nm' u hP hu v hv
    simp only [State.put] at hv
    split at hv
    · rename_i h; injection hv with hv; subst hv; exact hu h.symm
    · exact hP v hv
  have hdrop : ∀ st nm', P st → P (st.drop nm') := by
    intro st nm' hP v hv
    simp only [State.drop] at hv
    split at hv
    · simp at hv
    · exact hP v hv
  refine Reach.invariant P ?_ ?_ ?_ ?_ ?_ ?_ hr v hv
  · intro v hv; simp [State.empty] at hv
  · intro st nm' hP; exact hP
  · intro st nm' p' v hf' hP
    rcases initValue_cases (w := w) p' nm' st v with h | ⟨u, h, hne, hts⟩
    · rw [h]; exact hP
    · rw [h]
      apply hput _ _ _ hP
      rintro rfl
      rw [hf] at hf'; injection hf' with hf'; subst hf'
      exact (typeSafe_ok hts (.inr hne)).1
  · intro st st' nm' p' v v' hf' _ _ _ hP hts
    apply hput _ _ _ hP
    rintro rfl
    rw [hf] at hf'; injection hf' with hf'; subst hf'
    exact (typeSafe_ok hts (.inl rfl)).1
  · intro st nm' v hP
    rcases setAttr_cases (w := w) (c := c) st nm' v with h | ⟨u, h, hu⟩ | ⟨h, _⟩
    · rw [h]; exact hP
    · rw [h]
      apply hput _ _ _ hP
      rintro rfl
      obtain ⟨v0, hts⟩ := (hu p hf).2 hk
      exact (typeSafe_ok hts (.inl rfl)).1
    · rw [h]; exact hdrop _ _ hP
  · intro st nm' hP
    rcases delAttr_cases (w := w) (c := c) st nm' with h | ⟨h, _⟩
    · rw [h]; exact hP
    · rw [h]; exact hdrop _ _ hP

/-- C21: exactly which assignments to a safe property succeed and what they store. -/
theorem C21_assign {nm : String} {p : PropDef V} (hf : c.find nm = some p)
    (hk : p.kind = .safe ∨ p.kind = .lazySafe) (n : Nat) (st : State V) (v : V) :
    (∀ u, Converts w p v u → exec w c (n + 1) st (.set nm v) = some (.ok w.none, st.put nm u)) ∧
    ((¬ ∃ u, Converts w p v u) → ∃ e, exec w c (n + 1) st (.set nm v) = some (.error e, st)) := by
  have hset : exec w c (n + 1) st (.set nm v) = some (safeSet w p st nm v) := by
    rcases hk with hk | hk <;> simp [exec, setAttr, hf, hk]
  rw [hset]
  constructor
  · intro u hu
    simp [safeSet, (typeSafe_iff (b := false)).2 (.inl hu)]
  · intro h
    unfold safeSet
    cases hts : typeSafe w p v false with
    | error e => exact ⟨e, rfl⟩
    | ok u =>
      rcases typeSafe_iff.1 hts with h1 | ⟨h1, _⟩
      · exact absurd ⟨u, h1⟩ h
      · simp at h1

/-! ## C22 -/

/-- The slot is set, and not to `None` if the property has no type. -/
def Filled (w : World V) (p : PropDef V) (nm : String) (st : State V) : Prop :=
  ∃ v, st.slots nm = some v ∧ (p.isa = none → v ≠ w.none)

theorem filled_put {p : PropDef V} {nm nm' : String} {st : State V} {u : V} (h : Filled w p nm st)
    (hu : nm' = nm → p.isa = none → u ≠ w.none) : Filled w p nm (st.put nm' u) := by
  obtain ⟨v, hv, hn⟩ := h
  by_cases e : nm = nm'
  · exact ⟨u, by simp [State.put, e], hu e.symm⟩
  · exact ⟨v, by simp [State.put, e, hv], hn⟩

theorem filled_init {p p' : PropDef V} {nm nm' : String} {st : State V} {v : V} (hf : c.find nm = some p)
    (hf' : c.find nm' = some p') (hreq : p.required = true)
    (h : Filled w p nm st) : Filled w p nm (initValue w p' nm' st v).2 := by
  rcases initValue_cases (w := w) p' nm' st v with e | ⟨u, e, hne, hts⟩
  · rw [e]; exact h
  · rw [e]
    apply filled_put h
    rintro rfl hisa
    rw [hf] at hf'; injection hf' with hf'; subst hf'
    exact (typeSafe_ok hts (.inr hne)).2 hreq hisa

theorem filled_exec {p : PropDef V} {nm : String} (hf : c.find nm = some p) (hreq : p.required = true)
    (hk : p.kind.isData = true) : ∀ n st o r st', Filled w p nm st →
      exec w c n st o = some (r, st') → Filled w p nm st' := by
  apply exec_invariant
  · intro st nm' h; exact h
  · intro st st' nm' p' v v' hf' _ _ _ h hts
    apply filled_put h
    rintro rfl hisa
    rw [hf] at hf'; injection hf' with hf'; subst hf'
    exact (typeSafe_ok hts (.inl rfl)).2 hreq hisa
  · intro st nm' v h
    rcases setAttr_cases (w := w) (c := c) st nm' v with e | ⟨u, e, hu⟩ | ⟨e, q, hq, hk', hr⟩
    · rw [e]; exact h
    · rw [e]
      apply filled_put h
      rintro rfl hisa
      obtain ⟨v0, hts⟩ := (hu p hf).2 hk
      exact (typeSafe_ok hts (.inl rfl)).2 hreq hisa
    · rw [e]
      have hne : nm ≠ nm' := by
        rintro rfl
        rw [hf] at hq; injection hq with hq; subst hq
        rw [hreq] at hr; simp at hr
      obtain ⟨v, hv, hn⟩ := h
      exact ⟨v, by simp [State.drop, hne, hv], hn⟩
  · intro st nm' h
    rcases delAttr_cases (w := w) (c := c) st nm' with e | ⟨e, _, _, hd⟩
    · rw [e]; exact h
    · rw [e]
      have hne : nm ≠ nm' := by
        rintro rfl
        have := (hd p hf).2 hk
        rw [hreq] at this; simp at this
      obtain ⟨v, hv, hn⟩ := h
      exact ⟨v, by simp [State.drop, hne, hv], hn⟩

theorem initProp_fills {ex : State V → Op V → Res V V} {p : PropDef V} {nm : String} {st st' : State V}
    {arg : Option V} (hreq : p.required = true) (hl : p.kind.isLazy = false)
    (h : initProp w ex p nm st arg = some (.ok (), st')) : Filled w p nm st' := by
  have key : ∀ st v, initValue w p nm st v = (.ok (), st') → Filled w p nm st' := by
    intro st v h
    rcases initValue_cases (w := w) p nm st v with e | ⟨u, e, hne, hts⟩
    · unfold initValue at h e
      dsimp only at h e
      split at h
      · simp at h
      · rename_i nv hnv
        rw [hnv] at e
        split at h
        · simp [hreq] at h
        · rename_i hne
          simp at h
          refine ⟨nv, by rw [← h]; simp [State.put], ?_⟩
          intro hisa
          split at hnv
          · injection hnv with hnv; exact absurd hnv.symm hne
          · exact (typeSafe_ok hnv (.inr hne)).2 hreq hisa
    · rw [h] at e
      simp only at e
      exact ⟨u, by rw [e]; simp [State.put], (typeSafe_ok hts (.inr hne)).2 hreq⟩
  unfold initProp at h
  split at h
  · simp only [Option.some.injEq] at h; exact key _ _ h
  · rw [hl] at h
    simp only [Bool.false_eq_true, if_false] at h
    split at h
    · simp at h
    · simp at h
    · simp only [Option.some.injEq] at h; exact key _ _ h

/-- C22: in every reachable state a required, type-checked, non-lazy property is set; and if it has no
declared type its value is not `None`. -/
theorem C22_required_stays_set {st : State V} (hr : Reach w c st) {nm : String} {p : PropDef V}
    (hf : c.find nm = some p) (hk : p.kind.isData = true) (hl : p.kind.isLazy = false)
    (hreq : p.required = true) :
    ∃ v, st.slots nm = some v ∧ (p.isa = none → v ≠ w.none) := by
  show Filled w p nm st
  induction hr with
  | step _ he ih => exact filled_exec hf hreq hk _ _ _ _ _ ih he
  | @init n ord d kw st ho hc =>
    obtain ⟨kw', _, h⟩ := construct_ok hc
    have hmem : nm ∈ (kw'.map (fun x => (x.1, some x.2)) ++
        (ord (c.eagerNames.filter (fun nm => !(kw'.map (·.1)).contains nm))).map
          (fun nm => (nm, (none : Option V)))).map (·.1) := by
      simp only [List.map_append, List.map_map, List.mem_append]
      by_cases hin : nm ∈ kw'.map (·.1)
      · left; simpa [Function.comp_def] using hin
      · right
        simp only [Function.comp_def, List.map_id']
        rw [ho]
        simp only [List.mem_filter, Bool.not_eq_true', List.contains_eq_mem, decide_eq_false_iff_not]
        refine ⟨?_, hin⟩
        unfold Cls.find at hf
        rw [Option.map_eq_some_iff] at hf
        obtain ⟨⟨nm', p'⟩, hfind, rfl⟩ := hf
        have h1 := List.mem_of_find?_eq_some hfind
        have h2 := List.find?_some hfind
        simp at h2
        subst h2
        unfold Cls.eagerNames
        rw [List.mem_map]
        refine ⟨_, List.mem_filter.2 ⟨h1, ?_⟩, rfl⟩
        simp only at hl hreq
        simp [PropDef.eager, hl, hreq]
    generalize (kw'.map (fun x => (x.1, some x.2)) ++
        (ord (c.eagerNames.filter (fun nm => !(kw'.map (·.1)).contains nm))).map
          (fun nm => (nm, (none : Option V)))) = l at h hmem
    have hex := filled_exec (w := w) hf hreq hk n
    clear hc
    generalize hst0 : (State.empty : State V) = st0 at h
    clear hst0
    induction l generalizing st0 with
    | nil => simp at hmem
    | cons x l ih =>
      obtain ⟨nm1, arg⟩ := x
      simp only [initAll] at h
      split at h
      · simp at h
      · rename_i p1 hf1
        split at h
        · simp at h
        · simp at h
        · rename_i st1 h1
          by_cases e : nm1 = nm
          · subst e
            rw [hf] at hf1; injection hf1 with hf1; subst hf1
            have hfill := initProp_fills hreq hl h1
            exact initAll_invariant (Filled w p nm1) hex (fun _ _ h => h)
              (fun st nm p v hq => filled_init hf hq hreq) _ _ _ _ hfill h
          · exact ih (by simpa [Ne.symm e] using hmem) st1 h

/-! ## C23 -/

/-- C23: assigning or deleting a read-only property raises `ReadOnlyAttributeError`, changing nothing. -/
theorem C23_readonly_raises {nm : String} {p : PropDef V} (hf : c.find nm = some p)
    (hk : p.kind.isRO = true) (n : Nat) (st : State V) (v : V) :
    exec w c (n + 1) st (.set nm v) = some (.error .readOnly, st) ∧
    exec w c (n + 1) st (.del nm) = some (.error .readOnly, st) := by
  have : p.kind = .ro ∨ p.kind = .roLazy := by
    cases h : p.kind <;> simp [h, Kind.isRO] at hk <;> simp
  rcases this with h | h <;> simp [exec, setAttr, delAttr, hf, h]

/-- C23: over any history (including other properties' defaults run by reads), the slot of a read-only
property, once set, keeps its value. -/
theorem C23_readonly_constant {nm : String} {p : PropDef V} (hf : c.find nm = some p)
    (hk : p.kind.isRO = true) {st st' : State V} {os : List (Op V)} (hh : Hist w c st os st') {v : V}
    (hv : st.slots nm = some v) : st'.slots nm = some v := by
  have step : ∀ n st o r st', st.slots nm = some v → exec w c n st o = some (r, st') →
      st'.slots nm = some v := by
    apply exec_invariant (P := fun st => st.slots nm = some v)
    · intro st nm' h; exact h
    · intro st st' nm' p' u u' hf' _ h hn h' _
      have hne : nm ≠ nm' := by rintro rfl; rw [h] at hn; simp at hn
      simp [State.put, hne, h']
    · intro st nm' u h
      rcases setAttr_cases (w := w) (c := c) st nm' u with e | ⟨u', e, hu⟩ | ⟨e, q, hq, hk', _⟩
      · rw [e]; exact h
      · have hne : nm ≠ nm' := by
          rintro rfl; have := (hu p hf).1; rw [hk] at this; simp at this
        rw [e]; simp [State.put, hne, h]
      · have hne : nm ≠ nm' := by
          rintro rfl; rw [hf] at hq; injection hq with hq; subst hq; simp [hk', Kind.isRO] at hk
        rw [e]; simp [State.drop, hne, h]
    · intro st nm' h
      rcases delAttr_cases (w := w) (c := c) st nm' with e | ⟨e, _, _, hd⟩
      · rw [e]; exact h
      · have hne : nm ≠ nm' := by
          rintro rfl; have := (hd p hf).1; rw [hk] at this; simp at this
        rw [e]; simp [State.drop, hne, h]
  induction hh with
  | nil => exact hv
  | cons he _ ih => exact ih (step _ _ _ _ _ hv he)

/-! ## C24 -/

/-- C24: reading a set slot returns it and changes nothing: no default is evaluated. -/
theorem C24_read_set (n : Nat) (st : State V) (nm : String) (v : V) (hv : st.slots nm = some v) :
    exec w c (n + 1) st (.get nm) = some (.ok v, st) := by
  simp [exec, getAttr, hv]

/-- C24: when reading an unset lazy property with a default succeeds, the default was evaluated, and the
slot now holds the value that was returned. -/
theorem C24_read_unset {nm : String} {p : PropDef V} (hf : c.find nm = some p)
    (hl : p.kind.isLazy = true) (hd : p.default ≠ none) {n : Nat} {st st' : State V} {v : V}
    (hs : st.slots nm = none) (h : exec w c n st (.get nm) = some (.ok v, st')) :
    st'.slots nm = some v ∧ (nm :: st.calls) <:+ st'.calls := by
  cases n with
  | zero => simp [exec] at h
  | succ n =>
    have grow : ∀ n st o r st', (nm :: st.calls) <:+ (nm :: st.calls) →
        ∀ base : List String, base <:+ st.calls → exec w c n st o = some (r, st') → base <:+ st'.calls := by
      intro n st o r st' _ base hb he
      refine exec_invariant (P := fun st => base <:+ st.calls) ?_ ?_ ?_ ?_ n st o r st' hb he
      · intro st nm' h; exact h.trans (List.suffix_cons _ _)
      · intro st st' nm' p' u u' _ _ _ _ h _; exact h
      · intro st nm' u h
        rcases setAttr_cases (w := w) (c := c) st nm' u with e | ⟨u', e, _⟩ | ⟨e, _⟩ <;> (rw [e]; exact h)
      · intro st nm' h
        rcases delAttr_cases (w := w) (c := c) st nm' with e | ⟨e, _⟩ <;> (rw [e]; exact h)
    simp only [exec, getAttr, hs, hf, hl, if_true, lazyGet] at h
    split at h
    · simp at h
    · simp at h
    · rename_i v1 st1 hg
      split at h
      · simp at h
      · rename_i v2 hts
        simp at h
        obtain ⟨rfl, rfl⟩ := h
        refine ⟨by simp [State.put], ?_⟩
        show (nm :: st.calls) <:+ st1.calls
        unfold getDefault at hg
        split at hg
        · exact absurd (by assumption) hd
        · exact runProg_invariant (fun s => (nm :: st.calls) <:+ s.calls)
            (fun s o r s' hP he => grow n s o r s' (List.suffix_refl _) _ hP he) _ _ _ _
            (List.suffix_refl _) hg

/-- C24: once the slot is set, no history that does not assign or delete the attribute (nor contains
defaults of other properties that do) evaluates its default again or changes its value. -/
theorem C24_evaluated_once {nm : String} {st st' : State V} {os : List (Op V)} (hh : Hist w c st os st')
    (hos : ∀ o ∈ os, ¬ Touches nm o)
    (hdef : ∀ x ∈ c.props, ∀ prog, x.2.default = some prog → NoTouch nm prog)
    {v : V} (hv : st.slots nm = some v) :
    st'.slots nm = some v ∧ st'.calls.count nm = st.calls.count nm := by
  let P : State V → State V → Prop := fun a b => b.slots nm = some v ∧ b.calls.count nm = a.calls.count nm
  have hprog : ∀ (ex : State V → Op V → Res V V) (s0 : State V),
      (∀ s o r s', ¬ Touches nm o → P s0 s → ex s o = some (r, s') → P s0 s') →
      ∀ prog, NoTouch nm prog → ∀ s r s', P s0 s → runProg ex prog s = some (r, s') → P s0 s' := by
    intro ex s0 hex prog hnt
    induction hnt with
    | ret => intro s r s' hP h; simp [runProg] at h; exact h.2 ▸ hP
    | raise => intro s r s' hP h; simp [runProg] at h; exact h.2 ▸ hP
    | op ho _ ih =>
      intro s r s' hP h
      simp only [runProg] at h
      split at h
      · simp at h
      · rename_i r1 s1 h1
        exact ih r1 s1 r s' (hex _ _ _ _ ho hP h1) h
  have step : ∀ n s0 s o r s', ¬ Touches nm o → P s0 s → exec w c n s o = some (r, s') → P s0 s' := by
    intro n
    induction n with
    | zero => intro s0 s o r s' _ _ h; simp [exec] at h
    | succ n ih =>
      intro s0 s o r s' ho hP h
      cases o with
      | set nm' u =>
        have hne : nm ≠ nm' := fun e => ho e.symm
        simp only [exec, Option.some.injEq] at h
        rcases setAttr_cases (w := w) (c := c) s nm' u with e | ⟨u', e, _⟩ | ⟨e, _⟩ <;>
        · rw [h] at e; simp only at e; rw [e]
          exact ⟨by simp [State.put, State.drop, hne, hP.1], hP.2⟩
      | del nm' =>
        have hne : nm ≠ nm' := fun e => ho e.symm
        simp only [exec, Option.some.injEq] at h
        rcases delAttr_cases (w := w) (c := c) s nm' with e | ⟨e, _⟩ <;>
        · rw [h] at e; simp only at e; rw [e]
          exact ⟨by simp [State.drop, hne, hP.1], hP.2⟩
      | get nm' =>
        simp only [exec, getAttr] at h
        split at h
        · simp at h; exact h.2 ▸ hP
        · rename_i hslot
          have hne : nm' ≠ nm := by rintro rfl; rw [hP.1] at hslot; simp at hslot
          split at h
          · simp at h; exact h.2 ▸ hP
          · rename_i p hfind
            split at h
            · unfold lazyGet at h
              have hgd : ∀ r1 s1, getDefault w (exec w c n) nm' p s = some (r1, s1) → P s0 s1 := by
                intro r1 s1 hd
                unfold getDefault at hd
                split at hd
                · simp at hd; exact hd.2 ▸ hP
                · rename_i prog hprog'
                  have hmem : ∃ x ∈ c.props, x.2 = p := by
                    unfold Cls.find at hfind
                    rw [Option.map_eq_some_iff] at hfind
                    obtain ⟨x, hx, rfl⟩ := hfind
                    exact ⟨x, List.mem_of_find?_eq_some hx, rfl⟩
                  obtain ⟨x, hx, rfl⟩ := hmem
                  exact hprog _ s0 (ih s0) prog (hdef x hx prog hprog') _ _ _
                    (show P s0 (s.log nm') from ⟨hP.1, by
                      show (nm' :: s.calls).count nm = _
                      rw [List.count_cons_of_ne hne]; exact hP.2⟩) hd
              split at h
              · simp at h
              · rename_i hd; simp at h; exact h.2 ▸ hgd _ _ hd
              · rename_i hd
                have h1 := hgd _ _ hd
                split at h
                · simp at h; exact h.2 ▸ h1
                · simp at h
                  rw [← h.2]
                  exact ⟨by simp [State.put, Ne.symm hne, h1.1], h1.2⟩
            · split at h <;> (simp at h; exact h.2 ▸ hP)
  have main : ∀ s0, P s0 st → P s0 st' := by
    intro s0 h0
    clear hv
    induction hh with
    | nil => exact h0
    | cons he _ ih =>
      exact ih (fun o ho => hos o (by simp [ho]))
        (step _ _ _ _ _ _ (hos _ (by simp)) h0 he)
  exact main st ⟨hv, rfl⟩

/-- C24: constructing a record whose eager defaults do not look at the record evaluates no lazy default. -/
theorem C24_not_at_construction (hsd : SimpleDefaults c) (hnd : (c.props.map (·.1)).Nodup)
    {n : Nat} {ord : List String → List String} (ho : AnyOrder ord) {d kw : List (String × V)}
    {r : Except Exc Unit} {st : State V} (h : construct w c n ord d kw = some (r, st))
    {nm : String} {p : PropDef V} (hf : c.find nm = some p) (hl : p.kind.isLazy = true) :
    nm ∉ st.calls := by
  have key : ∀ (l : List (String × Option V)) st r st', nm ∉ st.calls →
      initAll w c (exec w c n) l st = some (r, st') → nm ∉ st'.calls := by
    intro l
    induction l with
    | nil => intro st r st' hn h; simp [initAll] at h; exact h.2 ▸ hn
    | cons x l ih =>
      obtain ⟨nm1, arg⟩ := x
      intro st r st' hn h
      simp only [initAll] at h
      split at h
      · simp at h; exact h.2 ▸ hn
      · rename_i p1 hf1
        have hiv : ∀ s v, (initValue w p1 nm1 s v).2.calls = s.calls := by
          intro s v
          rcases initValue_cases (w := w) p1 nm1 s v with e | ⟨u, e, _⟩ <;> rw [e] <;> rfl
        have h1 : ∀ r1 st1, initProp w (exec w c n) p1 nm1 st arg = some (r1, st1) → nm ∉ st1.calls := by
          intro r1 st1 hi
          unfold initProp at hi
          split at hi
          · rename_i v
            simp only [Option.some.injEq] at hi
            have := hiv st v
            rw [hi] at this; simp only at this; rw [this]; exact hn
          · split at hi
            · simp at hi; exact hi.2 ▸ hn
            · rename_i hl1
              have hne : nm1 ≠ nm := by
                rintro rfl; rw [hf] at hf1; injection hf1 with hf1; subst hf1; exact hl1 hl
              have hgd : ∀ r2 st2, getDefault w (exec w c n) nm1 p1 st = some (r2, st2) → nm ∉ st2.calls := by
                intro r2 st2 hg
                unfold getDefault at hg
                split at hg
                · simp at hg; exact hg.2 ▸ hn
                · rename_i prog hd
                  have := hsd (nm1, p1) (mem_of_find hf1) (by simpa using hl1) prog hd
                  have hlog : nm ∉ (st.log nm1).calls := by
                    simp only [State.log, List.mem_cons, not_or]
                    exact ⟨Ne.symm hne, hn⟩
                  cases this <;> (simp only [runProg, Option.some.injEq, Prod.mk.injEq] at hg; exact hg.2 ▸ hlog)
              split at hi
              · simp at hi
              · rename_i hg; simp at hi; exact hi.2 ▸ hgd _ _ hg
              · rename_i v st2 hg
                simp only [Option.some.injEq] at hi
                have := hiv st2 v
                rw [hi] at this; simp only at this; rw [this]; exact hgd _ _ hg
        split at h
        · simp at h
        · rename_i hi; simp at h; exact h.2 ▸ h1 _ _ hi
        · rename_i st1 hi; exact ih _ _ _ (h1 _ _ hi) h
  unfold construct at h
  split at h
  · simp at h; rw [← h.2]; simp [State.empty]
  · exact key _ _ _ _ (by simp [State.empty]) h

/-! ## C25 -/

/-- C25: an assignment or deletion that raises leaves the record exactly as it was. -/
theorem C25_rejected_unchanged (n : Nat) (st st' : State V) (nm : String) (v : V) (e : Exc) :
    (exec w c n st (.set nm v) = some (.error e, st') → st' = st) ∧
    (exec w c n st (.del nm) = some (.error e, st') → st' = st) := by
  cases n with
  | zero => simp [exec]
  | succ n =>
    have hdelS : ∀ p, safeDelete w p st nm = (.error e, st') → st' = st := by
      intro p h
      unfold safeDelete at h
      split at h
      · simp at h; exact h.2.symm
      · split at h
        · simp at h; exact h.2.symm
        · simp at h
    have hplain : plainDelete w st nm = (.error e, st') → st' = st := by
      intro h
      unfold plainDelete at h
      split at h
      · simp at h; exact h.2.symm
      · simp at h
    have hsetS : ∀ p, safeSet w p st nm v = (.error e, st') → st' = st := by
      intro p h
      unfold safeSet at h
      split at h
      · simp at h; exact h.2.symm
      · simp at h
    constructor
    · intro h
      simp only [exec, Option.some.injEq] at h
      unfold setAttr at h
      split at h
      · simp at h
      · rename_i p hf
        split at h
        · simp at h
        · simp at h
        · simp at h; exact h.2.symm
        · simp at h; exact h.2.symm
        · exact hsetS p h
        · exact hsetS p h
        · split at h
          · simp at h
          · rename_i e1 st1 h1
            have hst : st1 = st := by
              unfold safeSet at h1
              split at h1
              · simp at h1; exact h1.2.symm
              · simp at h1
            subst hst
            split at h
            · split at h
              · exact hdelS p h
              · simp at h; exact h.2.symm
            · simp at h; exact h.2.symm
    · intro h
      simp only [exec, Option.some.injEq] at h
      unfold delAttr at h
      split at h
      · exact hplain h
      · rename_i p hf
        split at h
        · exact hplain h
        · exact hplain h
        · simp at h; exact h.2.symm
        · simp at h; exact h.2.symm
        · exact hdelS p h
        · exact hdelS p h
        · exact hdelS p h

/-! ## C26

For classes whose eager defaults do not look at the record (values and functions without `self`). -/

/-- C26: the constructor succeeds exactly when every keyword is declared and every property can be
initialised; it always returns or raises. -/
theorem C26_construct_iff {n : Nat} {ord : List String → List String} {kw : List (String × V)}
    (hnd : (c.props.map (·.1)).Nodup) (hkw : (kw.map (·.1)).Nodup) (ho : SetOrder ord)
    (hp : Private w c kw) (hsd : SimpleDefaults c) :
    (∃ r st, construct w c n ord [] kw = some (r, st)) ∧
    ((∃ st, construct w c n ord [] kw = some (.ok (), st)) ↔
      (∀ x ∈ kw, ∃ p, c.find x.1 = some p) ∧
      ∀ nm p, c.find nm = some p → ∃ s, Ctor w p (lookupKw kw nm) s) := by
  rcases construct_spec (n := n) hnd hkw ho hp hsd with ⟨st, h1, h2, h3, _⟩ | ⟨e, st, h1, h2⟩
  · exact ⟨⟨_, _, h1⟩, fun _ => ⟨h2, fun nm p hf => ⟨_, h3 nm p hf⟩⟩, fun _ => ⟨st, h1⟩⟩
  · refine ⟨⟨_, _, h1⟩, ?_, ?_⟩
    · rintro ⟨st', h'⟩; rw [h1] at h'; simp at h'
    · rintro ⟨g1, g2⟩
      rcases h2 with ⟨x, hx, hf, _⟩ | ⟨nm, p, hf, hn, _⟩
      · obtain ⟨p, hp⟩ := g1 x hx; rw [hf] at hp; simp at hp
      · exact absurd (g2 nm p hf) hn

/-- C26: the resulting slots, property by property; nothing else is set. -/
theorem C26_slots {n : Nat} {ord : List String → List String} {kw : List (String × V)} {st : State V}
    (hnd : (c.props.map (·.1)).Nodup) (hkw : (kw.map (·.1)).Nodup) (ho : SetOrder ord)
    (hp : Private w c kw) (hsd : SimpleDefaults c)
    (h : construct w c n ord [] kw = some (.ok (), st)) :
    (∀ nm p, c.find nm = some p → Ctor w p (lookupKw kw nm) (st.slots nm)) ∧
    (∀ nm, c.find nm = none → st.slots nm = none) := by
  rcases construct_spec (n := n) hnd hkw ho hp hsd with ⟨st', h1, _, h3, h4⟩ | ⟨e, st', h1, _⟩
  · rw [h] at h1; simp at h1; subst h1; exact ⟨h3, h4⟩
  · rw [h] at h1; simp at h1

/-- C26: neither the order of the keywords nor the iteration order of the set of missing properties
changes the resulting slots, nor whether construction succeeds. -/
theorem C26_order_irrelevant {n m : Nat} {ord ord' : List String → List String}
    {kw kw' : List (String × V)} {st : State V}
    (hnd : (c.props.map (·.1)).Nodup) (hkw : (kw.map (·.1)).Nodup) (ho : SetOrder ord)
    (ho' : SetOrder ord') (hp : Private w c kw) (hsd : SimpleDefaults c) (hperm : kw.Perm kw')
    (h : construct w c n ord [] kw = some (.ok (), st)) :
    ∃ st', construct w c m ord' [] kw' = some (.ok (), st') ∧ st'.slots = st.slots := by
  have hkw' : (kw'.map (·.1)).Nodup := (hperm.map _).nodup_iff.1 hkw
  have hp' : Private w c kw' := ⟨fun x hx => hp.passed x (hperm.mem_iff.2 hx), hp.defaults, hp.coerced⟩
  have hlk : ∀ nm, lookupKw kw' nm = lookupKw kw nm := by
    intro nm
    by_cases hin : nm ∈ kw.map (·.1)
    · obtain ⟨x, hx, rfl⟩ := List.mem_map.1 hin
      rw [lookup_of_mem hkw hx, lookup_of_mem hkw' (hperm.mem_iff.1 hx)]
    · rw [lookup_none hin, lookup_none (by rwa [← (hperm.map _).mem_iff])]
  have g := (C26_construct_iff (n := n) hnd hkw ho hp hsd).2.1 ⟨st, h⟩
  obtain ⟨st', h'⟩ := (C26_construct_iff (n := m) hnd hkw' ho' hp' hsd).2.2
    ⟨fun x hx => g.1 x (hperm.mem_iff.2 hx), fun nm p hf => by rw [hlk]; exact g.2 nm p hf⟩
  refine ⟨st', h', ?_⟩
  have a := C26_slots hnd hkw ho hp hsd h
  have b := C26_slots hnd hkw' ho' hp' hsd h'
  funext nm
  cases hf : c.find nm with
  | none => rw [a.2 nm hf, b.2 nm hf]
  | some p => have b1 := b.1 nm p hf; rw [hlk] at b1; exact ctor_unique b1 (a.1 nm p hf)

/-- C26: if the only obstacle is a missing required property without default, `PropertyRequired` is
raised. -/
theorem C26_missing_required {n : Nat} {ord : List String → List String} {kw : List (String × V)}
    (hnd : (c.props.map (·.1)).Nodup) (hkw : (kw.map (·.1)).Nodup) (ho : SetOrder ord)
    (hp : Private w c kw) (hsd : SimpleDefaults c)
    (hdecl : ∀ x ∈ kw, ∃ p, c.find x.1 = some p)
    (hothers : ∀ nm p, c.find nm = some p →
      (∃ s, Ctor w p (lookupKw kw nm) s) ∨ (p.default = none ∧ nm ∉ kw.map (·.1)))
    {nm : String} {p : PropDef V} (hf : c.find nm = some p) (hreq : p.required = true)
    (hl : p.kind.isLazy = false) (hd : p.default = none) (hmiss : nm ∉ kw.map (·.1)) :
    ∃ st, construct w c n ord [] kw = some (.error .propertyRequired, st) := by
  rcases construct_spec (n := n) hnd hkw ho hp hsd with ⟨st, _, _, h3, _⟩ | ⟨e, st, h1, h2⟩
  · exfalso
    have := h3 nm p hf
    rw [lookup_none hmiss] at this
    generalize st.slots nm = s at this
    cases this with
    | default _ h _ => rw [hd] at h; simp at h
    | defaultDropped _ h _ => rw [hd] at h; simp at h
    | absent h => simp [hl, hreq] at h
  · rcases h2 with ⟨x, hx, hf', _⟩ | ⟨nm', p', hf', hn, he⟩
    · obtain ⟨q, hq⟩ := hdecl x hx; rw [hf'] at hq; simp at hq
    · rcases hothers nm' p' hf' with h | ⟨h, h'⟩
      · exact absurd h hn
      · rw [he h (lookup_none h')] at h1; exact ⟨st, h1⟩

/-- C26: passing both a dict and keywords is refused; a dict alone means the same as keywords. -/
theorem C26_init_dict {n : Nat} {ord : List String → List String} (d kw : List (String × V)) :
    (d ≠ [] → kw ≠ [] → construct w c n ord d kw = some (.error .ambiguousConstruction, .empty)) ∧
    construct w c n ord d [] = construct w c n ord [] d := by
  constructor
  · intro h1 h2
    cases d with
    | nil => exact absurd rfl h1
    | cons _ _ =>
      cases kw with
      | nil => exact absurd rfl h2
      | cons _ _ => simp [construct]
  · cases d <;> simp [construct]

/-! ## C30 -/

/-- C30: reading an unset v1 property gives its `v1_none` value (`None` if not given). -/
theorem C30_read_unset {nm : String} {p : PropDef V} (hf : c.find nm = some p) (hk : p.kind = .v1)
    (n : Nat) (st : State V) (hs : st.slots nm = none) :
    exec w c (n + 1) st (.get nm) = some (.ok (p.v1none.getD w.none), st) := by
  cases hv : p.v1none <;> simp [exec, getAttr, hs, hf, hk, Kind.isLazy, hv]

/-- The whole property: assigning `None` (or `v1_none`) to an optional typed v1 property that cannot convert it
unsets the property, whatever the state. -/
def C30_statement : Prop :=
  ∀ (V : Type) (_ : DecidableEq V) (w : World V) (c : Cls V) (nm : String) (p : PropDef V) (v : V)
    (n : Nat) (st : State V), c.find nm = some p → p.kind = .v1 → p.required = false → p.isa.isSome = true →
    (∀ nv, (p.coerce v = .ok nv ∨ p.coerce v = .subtype nv) → (p.isa.getD fun _ => true) nv = false) →
    (p.isa.getD fun _ => true) v = false →
    (v = w.none ∨ w.eq v (p.v1none.getD w.none) = true) →
    exec w c (n + 1) st (.set nm v) = some (.ok w.none, st.drop nm)

/-- C30 for a property that is set: it is unset. -/
theorem C30_assign_none_partial {nm : String} {p : PropDef V} {v v0 : V} {n : Nat} {st : State V}
    (hf : c.find nm = some p) (hk : p.kind = .v1) (hreq : p.required = false) {isa : V → Bool}
    (hisa : p.isa = some isa) (hv : isa v = false)
    (hco : ∀ nv, (p.coerce v = .ok nv ∨ p.coerce v = .subtype nv) → isa nv = false)
    (hnone : v = w.none ∨ w.eq v (p.v1none.getD w.none) = true) (hset : st.slots nm = some v0) :
    exec w c (n + 1) st (.set nm v) = some (.ok w.none, st.drop nm) := by
  have hts : ∃ e, typeSafe w p v false = .error e ∧ e.isCoercion = true := by
    unfold typeSafe
    simp only [hreq, hisa, Bool.false_eq_true, false_and, and_false, if_false, hv]
    cases hc : p.coerce v with
    | raise e => exact ⟨_, rfl, rfl⟩
    | ok nv => exact ⟨.valueCoercion, by simp [afterCoerce, hco nv (.inl hc)], rfl⟩
    | subtype nv => exact ⟨.valueCoercion, by simp [afterCoerce, hco nv (.inr hc)], rfl⟩
  obtain ⟨e, hts, he⟩ := hts
  simp only [exec, setAttr, hf, hk, safeSet, hts, he, if_true, hnone]
  simp [safeDelete, hreq, hset]

/-- C30 for a required property: the deletion is refused, nothing changes. -/
theorem C30_assign_none_required {nm : String} {p : PropDef V} {v : V} {n : Nat} {st : State V}
    (hf : c.find nm = some p) (hk : p.kind = .v1) (hreq : p.required = true) {isa : V → Bool}
    (hisa : p.isa = some isa) (hv : isa v = false)
    (hco : ∀ nv, (p.coerce v = .ok nv ∨ p.coerce v = .subtype nv) → isa nv = false)
    (hnone : v = w.none ∨ w.eq v (p.v1none.getD w.none) = true) :
    exec w c (n + 1) st (.set nm v) = some (.error .propertyRequired, st) := by
  have hts : ∃ e, typeSafe w p v false = .error e ∧ e.isCoercion = true := by
    unfold typeSafe
    simp only [hisa, Option.isNone_some, Bool.false_eq_true, and_false, if_false, hv]
    cases hc : p.coerce v with
    | raise e => exact ⟨_, rfl, rfl⟩
    | ok nv => exact ⟨.valueCoercion, by simp [afterCoerce, hco nv (.inl hc)], rfl⟩
    | subtype nv => exact ⟨.valueCoercion, by simp [afterCoerce, hco nv (.inr hc)], rfl⟩
  obtain ⟨e, hts, he⟩ := hts
  simp only [exec, setAttr, hf, hk, safeSet, hts, he, if_true, hnone]
  simp [safeDelete, hreq]

/-- C30: any other value that cannot be stored raises, and nothing changes; one that can is stored. -/
theorem C30_assign_other {nm : String} {p : PropDef V} {v : V} {n : Nat} {st : State V}
    (hf : c.find nm = some p) (hk : p.kind = .v1) :
    (∀ u, Converts w p v u → exec w c (n + 1) st (.set nm v) = some (.ok w.none, st.put nm u)) ∧
    (v ≠ w.none → w.eq v (p.v1none.getD w.none) = false → (¬ ∃ u, Converts w p v u) →
      ∃ e, exec w c (n + 1) st (.set nm v) = some (.error e, st)) := by
  constructor
  · intro u hu
    simp only [exec, setAttr, hf, hk, safeSet, (typeSafe_iff (b := false)).2 (.inl hu)]
  · intro h1 h2 h3
    cases hts : typeSafe w p v false with
    | ok u =>
      rcases typeSafe_iff.1 hts with h | ⟨h, _⟩
      · exact absurd ⟨u, h⟩ h3
      · simp at h
    | error e =>
      refine ⟨e, ?_⟩
      simp only [exec, setAttr, hf, hk, safeSet, hts, h1, h2]
      simp

/-- C30: only a failed conversion unsets. A value refused by the check function raises, `None` included. -/
theorem C30_check_failure {nm : String} {p : PropDef V} {v : V} {n : Nat} {st : State V}
    {f : V → Except Exc Bool}
    (hf : c.find nm = some p) (hk : p.kind = .v1) {isa : V → Bool} (hisa : p.isa = some isa)
    (hv : isa v = true) (hch : p.check = some f) (hrej : f v = .ok false) :
    exec w c (n + 1) st (.set nm v) = some (.error .valueCheck, st) := by
  simp only [exec, setAttr, hf, hk, safeSet, typeSafe, hisa, Option.isNone_some, Bool.false_eq_true,
    and_false, if_false, hv, if_true, runCheck, hch, hrej]
  simp [Exc.isCoercion]

/-! ## C31 -/

/-- C31: unpickling gives every slot the pickled value, sets no other slot, and evaluates no default.
(Nothing is coerced or checked either: the result is the same for every class.) -/
theorem C31_pickle (copy : V → V) (st : State V) :
    (∀ nm v, st.slots nm = some v → (repickle copy st).slots nm = some (copy v)) ∧
    (∀ nm, st.slots nm = none → (repickle copy st).slots nm = none) ∧
    (repickle copy st).calls = [] := by
  refine ⟨?_, ?_, rfl⟩
  · intro nm v h; simp [repickle, h]
  · intro nm h; simp [repickle, h, State.empty]

/-- C31: with a faithful pickling of values, every read of a set attribute gives the same answer as
before. -/
theorem C31_reads (copy : V → V) (hcopy : ∀ v, copy v = v) (st : State V) (nm : String) (v : V) (n : Nat)
    (h : st.slots nm = some v) :
    exec w c (n + 1) (repickle copy st) (.get nm) = some (.ok v, repickle copy st) := by
  have := (C31_pickle copy st).1 nm v h
  rw [hcopy] at this
  exact C24_read_set n _ nm v this

/-! ## A concrete class meeting the hypotheses

`class T(Record): x = Property(isa=int, coerce=abs-ish, check=lambda v: v < 100, required=True);
y = LazyProperty(default=lambda self: self.x); z = SafeProperty(isa=int, default=5);
v = V1Property(isa=..., v1_none=...)` over a world where objects are integers, `0` is `None` and `-1` the
sentinel. -/

namespace Demo

/-- objects are integers -/
def world : World Int := ⟨0, -1, fun a b => a == b⟩

/-- a positive-int type that coerces by negation -/
def posInt (v : Int) : Bool := decide (0 < v)

/-- its coerce function: `None` cannot be coerced -/
def neg (v : Int) : CoerceRes Int := if v = 0 then .raise .typeError else .ok (-v)

/-- the class -/
def cls : Cls Int where
  props := [
    ("x", { kind := .safe, isa := some posInt, coerce := neg, check := some (fun v => .ok (decide (v < 100))),
            required := true }),
    ("y", { kind := .roLazy, isa := some posInt, coerce := neg,
            default := some (.op (.get "x") fun r => match r with
              | .ok v => .ret v
              | .error e => .raise e) }),
    ("z", { kind := .safe, isa := some posInt, coerce := neg, default := some (.ret 5) }),
    ("v", { kind := .v1, isa := some posInt, coerce := neg, v1none := some (-7) })]

/-- the state after `T(x=-3)` -/
def st0 : State Int := ((State.empty.put "x" 3).log "z").put "z" 5

/-- the constructor succeeds: x is coerced, z gets its default, y and v stay unset -/
example : construct world cls 5 id [] [("x", -3)] = some (.ok (), st0) := rfl

example : Reach world cls st0 := .init (n := 5) (ord := id) (d := []) (kw := [("x", -3)]) (fun _ _ => Iff.rfl) rfl

example : SimpleDefaults cls := by
  intro x hx hl prog hp
  simp only [cls, List.mem_cons, List.not_mem_nil, or_false] at hx
  rcases hx with rfl | rfl | rfl | rfl
  · simp at hp
  · simp [Kind.isLazy] at hl
  · injection hp with hp; subst hp; exact .ret
  · simp at hp

example : (cls.props.map (·.1)).Nodup := by decide

/-- only `1` is made into the sentinel by `neg`, so calls that avoid it are fine: here a class whose coerce
function always raises -/
example : Private world ⟨[("x", { required := true, default := some (.ret 5) })]⟩ [("x", 3)] := by
  refine ⟨by decide, ?_, ?_⟩
  · intro x hx d hd
    simp only [List.mem_cons, List.not_mem_nil, or_false] at hx
    subst hx; simp at hd; subst hd; decide
  · intro x hx v u hu
    simp only [List.mem_cons, List.not_mem_nil, or_false] at hx
    subst hx; simp at hu

/-- missing required property -/
example : construct world cls 5 id [] [("z", 4)] = some (.error .propertyRequired, .put .empty "z" 4) := rfl

/-- undeclared keyword -/
example : construct world cls 5 id [] [("q", 4)] = some (.error .propertyNotKnown, .empty) := rfl

/-- the lazy read evaluates its default once, and stores it -/
example : exec world cls 5 st0 (.get "y") = some (.ok 3, (st0.log "y").put "y" 3) := rfl

/-- the read-only lazy property cannot be assigned -/
example : exec world cls 5 st0 (.set "y" 4) = some (.error .readOnly, st0) := rfl

/-- a rejected assignment -/
example : exec world cls 5 st0 (.set "x" 200) = some (.error .valueCheck, st0) := rfl

/-- v1 reads its none-value, and assigning `None` to the set property unsets it -/
example : exec world cls 5 st0 (.get "v") = some (.ok (-7), st0) := rfl

example : exec world cls 5 (st0.put "v" 3) (.set "v" 0) = some (.ok 0, (st0.put "v" 3).drop "v") := rfl

/-- a check that refuses a value of the right type, even the none-value: nothing is unset -/
example : exec world ⟨[("v", { kind := .v1, isa := some (fun _ => true), check := some (fun _ => .ok false) })]⟩ 1
    (State.empty.put "v" 3) (.set "v" 0) = some (.error .valueCheck, State.empty.put "v" 3) := rfl

/-- defaults other than `y`'s do not touch `x` -/
example : ∀ x ∈ cls.props, ∀ prog, x.2.default = some prog → NoTouch "x" prog := by
  intro x hx prog hp
  simp only [cls, List.mem_cons, List.not_mem_nil, or_false] at hx
  rcases hx with rfl | rfl | rfl | rfl
  · simp at hp
  · injection hp with hp; subst hp
    refine .op (by simp [Touches]) ?_
    rintro (e | v)
    · exact .raise
    · exact .ret
  · injection hp with hp; subst hp; exact .ret
  · simp at hp

end Demo

/-- C30 is false of the code: on an unset property the implicit deletion raises `KeyError`. -/
theorem C30_violated : ¬ C30_statement := by
  intro h
  have := h Int inferInstance Demo.world Demo.cls "v" _ 0 0 .empty rfl rfl rfl rfl
    (by intro nv hnv; rcases hnv with hnv | hnv <;> simp [Demo.neg] at hnv) rfl (.inl rfl)
  have h2 : exec Demo.world Demo.cls 1 .empty (.set "v" 0) = some (.error .keyError, .empty) := rfl
  rw [h2] at this
  simp at this

end Normalize.Slots
