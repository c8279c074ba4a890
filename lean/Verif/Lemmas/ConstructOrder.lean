import Verif.Props.Property
import Verif.Spec.ConstructOrder

/-! # Construction with defaults that read only what is fixed before -/

namespace Normalize.Slots

open Spec

variable {V : Type} [DecidableEq V] {w : World V} {c : Cls V} {kw : List (String × V)}

/-! ## The recursion limit -/

theorem runProg_mono {ex ex' : State V → Op V → Res V V} (h : ∀ st o x, ex st o = some x → ex' st o = some x) :
    ∀ (prog : Prog V) (st : State V) (x : Except Exc V × State V), runProg ex prog st = some x →
      runProg ex' prog st = some x := by
  intro prog
  induction prog with
  | ret v => intro st x hx; exact hx
  | raise e => intro st x hx; exact hx
  | op o k ih =>
    intro st x hx
    simp only [runProg] at hx ⊢
    cases he : ex st o with
    | none => simp [he] at hx
    | some y =>
      obtain ⟨r, st'⟩ := y
      rw [he] at hx
      rw [h _ _ _ he]
      exact ih r st' x hx

theorem getDefault_mono {ex ex' : State V → Op V → Res V V} (h : ∀ st o x, ex st o = some x → ex' st o = some x)
    {nm : String} {p : PropDef V} {st : State V} {x : Except Exc V × State V} (hx : getDefault w ex nm p st = some x) :
    getDefault w ex' nm p st = some x := by
  simp only [getDefault] at hx ⊢
  cases hd : p.default with
  | none => rw [hd] at hx; exact hx
  | some prog => rw [hd] at hx; exact runProg_mono h _ _ _ hx

theorem exec_succ : ∀ (n : Nat) (st : State V) (o : Op V) (x : Except Exc V × State V),
    exec w c n st o = some x → exec w c (n + 1) st o = some x := by
  intro n
  induction n with
  | zero => intro st o x h; simp [exec] at h
  | succ n ih =>
    intro st o x h
    cases o with
    | set nm v => exact h
    | del nm => exact h
    | get nm =>
      simp only [exec, getAttr] at h ⊢
      cases hs : st.slots nm with
      | some v => rw [hs] at h; exact h
      | none =>
        rw [hs] at h
        simp only at h ⊢
        cases hf : c.find nm with
        | none => rw [hf] at h; exact h
        | some p =>
          rw [hf] at h
          simp only at h ⊢
          by_cases hl : p.kind.isLazy = true
          · simp only [hl, if_true, lazyGet] at h ⊢
            cases hg : getDefault w (exec w c n) nm p st with
            | none => simp [hg] at h
            | some y =>
              rw [hg] at h
              rw [getDefault_mono ih hg]
              exact h
          · simp only [hl, Bool.false_eq_true, if_false] at h ⊢
            exact h

theorem exec_mono {n m : Nat} (hnm : n ≤ m) {st : State V} {o : Op V} {x : Except Exc V × State V}
    (h : exec w c n st o = some x) : exec w c m st o = some x := by
  induction hnm with
  | refl => exact h
  | step _ ih => exact exec_succ _ _ _ _ ih

theorem exec_unique {n m : Nat} {st : State V} {o : Op V} {x y : Except Exc V × State V}
    (h : exec w c n st o = some x) (h' : exec w c m st o = some y) : x = y := by
  have h1 := exec_mono (Nat.le_max_left n m) h
  have h2 := exec_mono (Nat.le_max_right n m) h'
  rw [h1] at h2
  injection h2

/-! ## States that differ from a base in computed lazy values only, as far as such programs can see -/

/-- all slots of the first are in the second -/
def Le (s t : State V) : Prop := ∀ nm v, s.slots nm = some v → t.slots nm = some v

def LazyName (c : Cls V) (nm : String) : Prop := ∃ p, c.find nm = some p ∧ p.kind.isLazy = true

/-- `s` is `b` with some lazy attributes filled in -/
structure Ext (c : Cls V) (b s : State V) : Prop where
  le : Le b s
  same : ∀ nm, ¬ LazyName c nm → s.slots nm = b.slots nm

/-- the state agrees with `b` where it matters -/
structure Near (w : World V) (c : Cls V) (kw : List (String × V)) (b st : State V) : Prop where
  le : Le b st
  same : ∀ nm, Settled c kw nm → st.slots nm = b.slots nm
  lazy : ∀ nm v, LazyName c nm → b.slots nm = none → st.slots nm = some v →
    ∃ n s, exec w c n b (.get nm) = some (.ok v, s) ∧ Ext c b s ∧ Le s st

/-- `st'` is `st` with the slots of `b'` filled in -/
structure Fills (st b' st' : State V) : Prop where
  merge : ∀ nm, st'.slots nm = (st.slots nm).or (b'.slots nm)
  le : Le b' st'

theorem Le.refl (s : State V) : Le s s := fun _ _ h => h

theorem Le.trans {s t u : State V} (h : Le s t) (h' : Le t u) : Le s u := fun nm v hv => h' nm v (h nm v hv)

theorem Ext.refl (b : State V) : Ext c b b := ⟨Le.refl b, fun _ _ => rfl⟩

theorem Near.refl (b : State V) : Near w c kw b b :=
  ⟨Le.refl b, fun _ _ => rfl, fun nm v _ h h' => by rw [h] at h'; cases h'⟩

theorem Fills.le_left {st b' st' : State V} (h : Fills st b' st') : Le st st' := by
  intro nm v hv
  rw [h.merge, hv]; rfl

theorem fills_of_le {st b' : State V} (h : Le b' st) : Fills st b' st := by
  refine ⟨fun nm => ?_, h⟩
  cases hs : st.slots nm with
  | some v => rfl
  | none =>
    cases hb : b'.slots nm with
    | none => rfl
    | some v => rw [h nm v hb] at hs; cases hs

/-- the union of two extensions -/
def both (s t : State V) : State V := ⟨fun nm => (s.slots nm).or (t.slots nm), []⟩

theorem Fills.both {st s t st1 st2 : State V} (h : Fills st s st1) (h' : Fills st1 t st2) :
    Fills st (both s t) st2 := by
  constructor
  · intro nm
    rw [h'.merge, h.merge]
    simp only [Slots.both, Option.or_assoc]
  · intro nm v hv
    simp only [Slots.both] at hv
    cases hs : s.slots nm with
    | some u =>
      rw [hs] at hv
      simp only [Option.some_or, Option.some.injEq] at hv
      subst hv
      exact h'.le_left nm u (h.le nm u hs)
    | none =>
      rw [hs] at hv
      exact h'.le nm v (by simpa using hv)

theorem Ext.both {b s t : State V} (h : Ext c b s) (h' : Ext c b t) : Ext c b (both s t) := by
  constructor
  · intro nm v hv
    simp [Slots.both, h.le nm v hv]
  · intro nm hn
    simp only [Slots.both, h.same nm hn, h'.same nm hn]
    cases b.slots nm <;> rfl

theorem Near.congr {b st st' : State V} (h : Near w c kw b st) (hs : st'.slots = st.slots) : Near w c kw b st' := by
  obtain ⟨h1, h2, h3⟩ := h
  refine ⟨fun nm v hv => by rw [hs]; exact h1 nm v hv, fun nm hq => by rw [hs]; exact h2 nm hq, ?_⟩
  intro nm v hl hb hv
  rw [hs] at hv
  obtain ⟨n, s, e, x, l⟩ := h3 nm v hl hb hv
  exact ⟨n, s, e, x, fun a u hu => by rw [hs]; exact l a u hu⟩

theorem Fills.congr {st st0 b' b0 st' st1 : State V} (h : Fills st b' st') (hs : st0.slots = st.slots)
    (hb : b0.slots = b'.slots) (hs' : st1.slots = st'.slots) : Fills st0 b0 st1 :=
  ⟨fun nm => by rw [hs', hs, hb]; exact h.merge nm, fun nm v hv => by rw [hb] at hv; rw [hs']; exact h.le nm v hv⟩

/-! ## Such programs do the same on all of these states -/

/-- evaluating the default -/
def DefOk (w : World V) (c : Cls V) (kw : List (String × V)) (b : State V) (nm : String) (p : PropDef V)
    (n : Nat) (r : Except Exc V) (b' : State V) : Prop :=
  Ext c b b' ∧ ∀ st, Near w c kw b st →
    ∃ st', getDefault w (exec w c n) nm p st = some (r, st') ∧ Near w c kw b st' ∧ Fills st b' st'

def ProgOk (w : World V) (c : Cls V) (kw : List (String × V)) (b : State V) (prog : Prog V) : Prop :=
  ∃ n r b', Ext c b b' ∧ ∀ st, Near w c kw b st →
    ∃ st', runProg (exec w c n) prog st = some (r, st') ∧ Near w c kw b st' ∧ Fills st b' st'

def GetOk (w : World V) (c : Cls V) (kw : List (String × V)) (b : State V) (nm : String) : Prop :=
  ∃ n r b', Ext c b b' ∧ ∀ st, Near w c kw b st →
    ∃ st', exec w c n st (.get nm) = some (r, st') ∧ Near w c kw b st' ∧ Fills st b' st'

theorem getOk_settled {b : State V} {nm : String} (hq : Settled c kw nm) : GetOk w c kw b nm := by
  have : ∃ r, ∀ st, st.slots nm = b.slots nm → exec w c 1 st (.get nm) = some (r, st) := by
    cases hb : b.slots nm with
    | some v => exact ⟨.ok v, fun st hs => by simp only [exec, getAttr, hs]⟩
    | none =>
      cases hf : c.find nm with
      | none => exact ⟨.error .attributeError, fun st hs => by simp only [exec, getAttr, hs, hf]⟩
      | some p =>
        have hl := (hq p hf).1
        have : ∀ st : State V, st.slots nm = none → exec w c 1 st (.get nm) =
            match p.kind, p.v1none with
            | .v1, some v => some (.ok v, st)
            | .v1, none => some (.ok w.none, st)
            | _, _ => some (.error .attributeError, st) := by
          intro st hs
          simp only [exec, getAttr, hs, hf, hl, Bool.false_eq_true, if_false]
          cases p.kind <;> cases p.v1none <;> rfl
        cases hk : p.kind <;> cases hv : p.v1none <;> simp only [hk, hv] at this <;> exact ⟨_, this⟩
  obtain ⟨r, hr⟩ := this
  exact ⟨1, r, b, Ext.refl b, fun st hst => ⟨st, hr st (hst.same nm hq), hst, fills_of_le hst.le⟩⟩

theorem lazy_not_settled {nm : String} (hl : LazyName c nm) : ¬ Settled c kw nm := by
  obtain ⟨p, hf, hl⟩ := hl
  intro h
  rw [(h p hf).1] at hl
  cases hl

theorem getOk_lazy {b : State V} {nm : String} {p : PropDef V} (hf : c.find nm = some p) (hl : p.kind.isLazy = true)
    (h : ∃ n r b', DefOk w c kw b nm p n r b') : GetOk w c kw b nm := by
  obtain ⟨n1, r0, b1, hx1, h1⟩ := h
  have hln : LazyName c nm := ⟨p, hf, hl⟩
  cases hb : b.slots nm with
  | some v =>
    refine ⟨1, .ok v, b, Ext.refl b, fun st hst => ⟨st, ?_, hst, fills_of_le hst.le⟩⟩
    simp only [exec, getAttr, hst.le nm v hb]
  | none =>
    have hrun : ∀ st, st.slots nm = none →
        exec w c (n1 + 1) st (.get nm) = lazyGet w (exec w c n1) nm p st := by
      intro st hs
      simp only [exec, getAttr, hs, hf, hl, if_true]
    -- when the slot is not filled with anything
    have herr : ∀ e, (∀ st st', getDefault w (exec w c n1) nm p st = some (r0, st') →
        lazyGet w (exec w c n1) nm p st = some (.error e, st')) → GetOk w c kw b nm := by
      intro e he
      refine ⟨n1 + 1, .error e, b1, hx1, fun st hst => ?_⟩
      obtain ⟨sb, hgb, -, -⟩ := h1 b (Near.refl b)
      cases hs : st.slots nm with
      | some v =>
        obtain ⟨n, s, hn, -, -⟩ := hst.lazy nm v hln hb hs
        have := exec_unique hn ((hrun b hb).trans (he _ _ hgb))
        simp at this
      | none =>
        obtain ⟨s1, hg, hn, hfill⟩ := h1 st hst
        exact ⟨s1, (hrun st hs).trans (he _ _ hg), hn, hfill⟩
    cases r0 with
    | error e => exact herr e (fun st st' hg => by simp only [lazyGet, hg])
    | ok v =>
      cases ht : typeSafe w p v false with
      | error e => exact herr e (fun st st' hg => by simp only [lazyGet, hg, ht])
      | ok v' =>
        have hok : ∀ st st', getDefault w (exec w c n1) nm p st = some (.ok v, st') →
            lazyGet w (exec w c n1) nm p st = some (.ok v', st'.put nm v') :=
          fun st st' hg => by simp only [lazyGet, hg, ht]
        obtain ⟨sb, hgb, hnb, hfb⟩ := h1 b (Near.refl b)
        have hbrun : exec w c (n1 + 1) b (.get nm) = some (.ok v', sb.put nm v') := (hrun b hb).trans (hok _ _ hgb)
        have hsb : sb.slots = b1.slots := by
          funext x
          rw [hfb.merge]
          cases hbx : b.slots x with
          | none => rfl
          | some u => rw [hx1.le x u hbx]; rfl
        have hxb : Ext c b (sb.put nm v') := by
          constructor
          · intro x u hu
            have hxn : x ≠ nm := by rintro rfl; rw [hb] at hu; cases hu
            simp only [State.put, if_neg hxn]
            exact hnb.le x u hu
          · intro x hx
            have hxn : x ≠ nm := by rintro rfl; exact hx hln
            simp only [State.put, if_neg hxn, hsb]
            exact hx1.same x hx
        refine ⟨n1 + 1, .ok v', sb.put nm v', hxb, fun st hst => ?_⟩
        cases hs : st.slots nm with
        | some u =>
          obtain ⟨n, s, hn, -, hle⟩ := hst.lazy nm u hln hb hs
          have := exec_unique hn hbrun
          simp only [Prod.mk.injEq, Except.ok.injEq] at this
          obtain ⟨rfl, rfl⟩ := this
          refine ⟨st, ?_, hst, fills_of_le hle⟩
          simp only [exec, getAttr, hs]
        | none =>
          obtain ⟨s1, hg, hn, hfill⟩ := h1 st hst
          have hput : Le s1 (s1.put nm v') := by
            intro x u hu
            by_cases hxn : x = nm
            · subst hxn
              obtain ⟨n, s, hn', -, -⟩ := hn.lazy x u hln hb hu
              have := exec_unique hn' hbrun
              simp only [Prod.mk.injEq, Except.ok.injEq] at this
              simp [State.put, this.1]
            · simp only [State.put, if_neg hxn]; exact hu
          have hle : Le (sb.put nm v') (s1.put nm v') := by
            intro x u hu
            by_cases hxn : x = nm
            · subst hxn; simpa [State.put] using hu
            · simp only [State.put, if_neg hxn] at hu ⊢
              rw [hsb] at hu
              exact hfill.le x u hu
          refine ⟨s1.put nm v', (hrun st hs).trans (hok _ _ hg), ⟨?_, ?_, ?_⟩, ?_, hle⟩
          · exact hn.le.trans hput
          · intro x hx
            have hxn : x ≠ nm := by rintro rfl; exact lazy_not_settled hln hx
            simp only [State.put, if_neg hxn]
            exact hn.same x hx
          · intro x u hlx hbx hu
            by_cases hxn : x = nm
            · subst hxn
              have : v' = u := by simpa [State.put] using hu
              subst this
              exact ⟨n1 + 1, _, hbrun, hxb, hle⟩
            · simp only [State.put, if_neg hxn] at hu
              obtain ⟨n, s, hn', hx', hl'⟩ := hn.lazy x u hlx hbx hu
              exact ⟨n, s, hn', hx', hl'.trans hput⟩
          · intro x
            by_cases hxn : x = nm
            · subst hxn; simp [State.put, hs]
            · simp only [State.put, if_neg hxn, hsb]
              exact hfill.merge x

theorem defOk_none {b : State V} {nm : String} {p : PropDef V} (hd : p.default = none) :
    DefOk w c kw b nm p 0 (.ok w.unset) b :=
  ⟨Ext.refl b, fun st hst => ⟨st, by simp only [getDefault, hd], hst, fills_of_le hst.le⟩⟩

theorem defOk_some {b : State V} {nm : String} {p : PropDef V} {prog : Prog V} (hd : p.default = some prog)
    (h : ProgOk w c kw b prog) : ∃ n r b', DefOk w c kw b nm p n r b' := by
  obtain ⟨n, r, b', hx, h⟩ := h
  refine ⟨n, r, b', hx, fun st hst => ?_⟩
  obtain ⟨st', h1, h2, h3⟩ := h (st.log nm) (hst.congr rfl)
  exact ⟨st', by simp only [getDefault, hd]; exact h1, h2, h3.congr rfl rfl rfl⟩

theorem progOk_get {b : State V} {nm : String} {k : Except Exc V → Prog V} (h : GetOk w c kw b nm)
    (hk : ∀ r, ProgOk w c kw b (k r)) : ProgOk w c kw b (.op (.get nm) k) := by
  obtain ⟨n1, r1, b1, hx1, h1⟩ := h
  obtain ⟨n2, r2, b2, hx2, h2⟩ := hk r1
  refine ⟨max n1 n2, r2, both b1 b2, hx1.both hx2, fun st hst => ?_⟩
  obtain ⟨s1, e1, a1, f1⟩ := h1 st hst
  obtain ⟨s2, e2, a2, f2⟩ := h2 s1 a1
  refine ⟨s2, ?_, a2, f1.both f2⟩
  simp only [runProg, exec_mono (Nat.le_max_left n1 n2) e1]
  exact runProg_mono (fun _ _ _ h => exec_mono (Nat.le_max_right n1 n2) h) _ _ _ e2

theorem readsReady_ok {prog : Prog V} (h : ReadsReady c kw prog) (b : State V) : ProgOk w c kw b prog := by
  refine ReadsReady.rec (motive_1 := fun nm _ => GetOk w c kw b nm) (motive_2 := fun prog _ => ProgOk w c kw b prog)
    ?_ ?_ ?_ ?_ ?_ ?_ h
  · intro nm hq; exact getOk_settled hq
  · intro nm p hf hl hd; exact getOk_lazy hf hl ⟨_, _, _, defOk_none hd⟩
  · intro nm p prog hf hl hd _ ih; exact getOk_lazy hf hl (defOk_some hd ih)
  · intro v; exact ⟨0, .ok v, b, Ext.refl b, fun st hst => ⟨st, rfl, hst, fills_of_le hst.le⟩⟩
  · intro e; exact ⟨0, .error e, b, Ext.refl b, fun st hst => ⟨st, rfl, hst, fills_of_le hst.le⟩⟩
  · intro nm k _ _ ih1 ih2; exact progOk_get ih1 ih2

/-! ## The constructor -/

/-- what `init_prop` does with a value: an exception, nothing, or storing it -/
def outcome (w : World V) (p : PropDef V) (v : V) : Except Exc (Option V) :=
  match (if v = w.unset then Except.ok w.unset else typeSafe w p v true) with
  | .error e => .error e
  | .ok nv => if nv = w.unset then (if p.required then .error .propertyRequired else .ok none) else .ok (some nv)

/-- store it, if there is anything -/
def store (st : State V) (nm : String) : Option V → State V
  | none => st
  | some v => st.put nm v

theorem initValue_outcome (p : PropDef V) (nm : String) (st : State V) (v : V) :
    initValue w p nm st v = match outcome w p v with
      | .error e => (.error e, st)
      | .ok o => (.ok (), store st nm o) := by
  unfold initValue outcome
  simp only
  generalize (if v = w.unset then Except.ok w.unset else typeSafe w p v true) = nv
  cases nv with
  | error e => rfl
  | ok nv =>
    simp only
    split
    · split <;> rfl
    · rfl

/-- what initialising a missing attribute does -/
structure StepOk (w : World V) (c : Cls V) (kw : List (String × V)) (b : State V) (nm : String) (n0 : Nat)
    (out : Except Exc (Option V)) (b' : State V) : Prop where
  ext : Ext c b b'
  error : ∀ e, out = .error e → ∀ n st, n0 ≤ n → Near w c kw b st → ∀ rest,
    ∃ st', initAll w c (exec w c n) ((nm, none) :: rest) st = some (.error e, st')
  ok : ∀ o, out = .ok o → ∀ n st, n0 ≤ n → Near w c kw b st → ∃ s1, Near w c kw b s1 ∧ Fills st b' s1 ∧
    ∀ rest, initAll w c (exec w c n) ((nm, none) :: rest) st = initAll w c (exec w c n) rest (store s1 nm o)

theorem stepOk {b : State V} {nm : String} {p : PropDef V} (hf : c.find nm = some p) (hl : p.kind.isLazy = false)
    {n0 : Nat} {r : Except Exc V} {b' : State V} (h : DefOk w c kw b nm p n0 r b') :
    StepOk w c kw b nm n0 (r.bind (outcome w p)) b' := by
  obtain ⟨hx, h⟩ := h
  have hinit : ∀ n st, n0 ≤ n → Near w c kw b st → ∃ s1, Near w c kw b s1 ∧ Fills st b' s1 ∧
      initProp w (exec w c n) p nm st none = match r with
        | .error e => some (.error e, s1)
        | .ok v => some (initValue w p nm s1 v) := by
    intro n st hn hst
    obtain ⟨s1, hg, hn1, hf1⟩ := h st hst
    refine ⟨s1, hn1, hf1, ?_⟩
    simp only [initProp, hl, Bool.false_eq_true, if_false,
      getDefault_mono (fun _ _ _ h => exec_mono hn h) hg]
    cases r <;> rfl
  refine ⟨hx, ?_, ?_⟩
  · intro e he n st hn hst rest
    obtain ⟨s1, -, -, hi⟩ := hinit n st hn hst
    refine ⟨s1, ?_⟩
    simp only [initAll, hf, hi]
    cases r with
    | error e' =>
      simp only [Except.bind] at he
      cases he; rfl
    | ok v =>
      simp only [Except.bind] at he
      simp only [initValue_outcome, he]
  · intro o ho n st hn hst
    obtain ⟨s1, hn1, hf1, hi⟩ := hinit n st hn hst
    refine ⟨s1, hn1, hf1, fun rest => ?_⟩
    simp only [initAll, hf, hi]
    cases r with
    | error e' => simp [Except.bind] at ho
    | ok v =>
      simp only [Except.bind] at ho
      simp only [initValue_outcome, ho]

theorem near_store {b st : State V} {nm : String} {o : Option V} (h : Near w c kw b st) (hl : ¬ LazyName c nm)
    (hq : ¬ Settled c kw nm) (hb : b.slots nm = none) : Near w c kw b (store st nm o) := by
  cases o with
  | none => exact h
  | some v =>
    refine ⟨?_, ?_, ?_⟩
    · intro x u hu
      have : x ≠ nm := by rintro rfl; rw [hb] at hu; cases hu
      simp only [store, State.put, if_neg this]; exact h.le x u hu
    · intro x hx
      have : x ≠ nm := by rintro rfl; exact hq hx
      simp only [store, State.put, if_neg this]; exact h.same x hx
    · intro x u hlx hbx hu
      have : x ≠ nm := by rintro rfl; exact hl hlx
      simp only [store, State.put, if_neg this] at hu
      obtain ⟨n, s, e, hx, hle⟩ := h.lazy x u hlx hbx hu
      refine ⟨n, s, e, hx, fun y t ht => ?_⟩
      have : y ≠ nm := by
        rintro rfl
        rw [hx.same y hl, hb] at ht; cases ht
      simp only [store, State.put, if_neg this]; exact hle y t ht

/-- how the slots come about that a list of missing attributes leaves -/
structure Left (c : Cls V) (out : String → Except Exc (Option V)) (bs : String → State V) (l : List String)
    (st st' : State V) : Prop where
  other : ∀ nm, nm ∉ l → ¬ LazyName c nm → st'.slots nm = st.slots nm
  eager : ∀ nm o, nm ∈ l → out nm = .ok o → st'.slots nm = o.or (st.slots nm)
  lazy : ∀ nm v, LazyName c nm → (st'.slots nm = some v ↔ st.slots nm = some v ∨ ∃ x ∈ l, (bs x).slots nm = some v)

theorem initAll_left {b : State V} {n0 : String → Nat} {out : String → Except Exc (Option V)} {bs : String → State V}
    {n : Nat} : ∀ (l : List String),
    (∀ x ∈ l, StepOk w c kw b x (n0 x) (out x) (bs x) ∧ n0 x ≤ n ∧ ¬ LazyName c x ∧ ¬ Settled c kw x ∧
      b.slots x = none) → ∀ st, Near w c kw b st →
    (∃ x ∈ l, ∃ e, out x = .error e) ∧
      (∃ e st', initAll w c (exec w c n) (l.map (fun nm => (nm, none))) st = some (.error e, st')) ∨
    (∀ x ∈ l, ∃ o, out x = .ok o) ∧
      ∃ st', initAll w c (exec w c n) (l.map (fun nm => (nm, none))) st = some (.ok (), st') ∧
        Left c out bs l st st' := by
  intro l
  induction l with
  | nil =>
    intro _ st _
    exact .inr ⟨fun x hx => by simp at hx, st, rfl, fun _ _ _ => rfl, fun _ _ hx => by simp at hx, fun _ _ _ => by simp⟩
  | cons x l ih =>
    intro hl st hst
    obtain ⟨hx, hn, hlz, hq, hb⟩ := hl x (by simp)
    have hl' := fun y (hy : y ∈ l) => hl y (by simp [hy])
    cases ho : out x with
    | error e =>
      obtain ⟨st', h⟩ := hx.error e ho n st hn hst (l.map (fun nm => (nm, none)))
      exact .inl ⟨⟨x, by simp, e, ho⟩, e, st', h⟩
    | ok o =>
      obtain ⟨s1, hn1, hf1, h1⟩ := hx.ok o ho n st hn hst
      have hn2 : Near w c kw b (store s1 x o) := near_store hn1 hlz hq hb
      have hnl : ∀ nm, ¬ LazyName c nm → s1.slots nm = st.slots nm := by
        intro nm hnm
        rw [hf1.merge, hx.ext.same nm hnm]
        cases hbn : b.slots nm with
        | none => cases st.slots nm <;> rfl
        | some u => rw [hst.le nm u hbn]; rfl
      rcases ih hl' (store s1 x o) hn2 with ⟨⟨y, hy, e, he⟩, e', st', h⟩ | ⟨hall, st', h, hleft⟩
      · exact .inl ⟨⟨y, by simp [hy], e, he⟩, e', st', by simp only [List.map_cons, h1]; exact h⟩
      · refine .inr ⟨fun y hy => ?_, st', by simp only [List.map_cons, h1]; exact h, ?_, ?_, ?_⟩
        · rcases List.mem_cons.1 hy with rfl | hy
          · exact ⟨o, ho⟩
          · exact hall y hy
        · intro nm hnm hnl'
          have hne : nm ≠ x := fun h => hnm (by simp [h])
          rw [hleft.other nm (fun h => hnm (by simp [h])) hnl', ← hnl nm hnl']
          cases o with
          | none => rfl
          | some v => simp only [store, State.put, if_neg hne]
        · intro nm o' hnm ho'
          by_cases hne : nm = x
          · subst hne
            rw [ho] at ho'
            cases ho'
            by_cases hm : nm ∈ l
            · rw [hleft.eager nm o hm ho]
              cases o with
              | none => simp only [store, Option.none_or]; exact hnl nm hlz
              | some v => rfl
            · rw [hleft.other nm hm hlz]
              cases o with
              | none => simp only [store, Option.none_or]; exact hnl nm hlz
              | some v => simp [store, State.put]
          · have hm : nm ∈ l := (List.mem_cons.1 hnm).resolve_left hne
            rw [hleft.eager nm o' hm ho']
            have hnl' := (hl' nm hm).2.2.1
            rw [← hnl nm hnl']
            cases o with
            | none => rfl
            | some v => simp only [store, State.put, if_neg hne]
        · intro nm v hnm
          rw [hleft.lazy nm v hnm]
          have hne : nm ≠ x := by rintro rfl; exact hlz hnm
          have hs : (store s1 x o).slots nm = s1.slots nm := by
            cases o with
            | none => rfl
            | some v => simp only [store, State.put, if_neg hne]
          rw [hs]
          have h2 : s1.slots nm = some v ↔ st.slots nm = some v ∨ (bs x).slots nm = some v := by
            constructor
            · intro h
              rw [hf1.merge] at h
              cases hs' : st.slots nm with
              | some u => rw [hs'] at h; exact .inl h
              | none => rw [hs'] at h; exact .inr (by simpa using h)
            · rintro (h | h)
              · exact hf1.le_left nm v h
              · exact hf1.le nm v h
          rw [h2]
          simp only [List.mem_cons, exists_eq_or_imp, or_assoc]

theorem left_perm {out : String → Except Exc (Option V)} {bs : String → State V} {l l' : List String} {b st st' : State V}
    (hp : l'.Perm l) (hok : ∀ x ∈ l, ∃ o, out x = .ok o) (hlz : ∀ x ∈ l, ¬ LazyName c x) (h : Left c out bs l b st)
    (h' : Left c out bs l' b st') : st'.slots = st.slots := by
  funext nm
  by_cases hl : LazyName c nm
  · have : ∀ v, st'.slots nm = some v ↔ st.slots nm = some v := by
      intro v
      rw [h.lazy nm v hl, h'.lazy nm v hl]
      simp only [hp.mem_iff]
    cases hs : st.slots nm with
    | some v => exact (this v).2 hs
    | none =>
      cases hs' : st'.slots nm with
      | none => rfl
      | some v => rw [(this v).1 hs'] at hs; cases hs
  · by_cases hm : nm ∈ l
    · obtain ⟨o, ho⟩ := hok nm hm
      rw [h.eager nm o hm ho, h'.eager nm o (hp.mem_iff.2 hm) ho]
    · rw [h.other nm hm hl, h'.other nm (fun h => hm (hp.mem_iff.1 h)) hl]

theorem initAll_append {ex : State V → Op V → Res V V} (l l' : List (String × Option V)) (st : State V) :
    initAll w c ex (l ++ l') st =
      match initAll w c ex l st with
      | some (.ok (), st') => initAll w c ex l' st'
      | r => r := by
  induction l generalizing st with
  | nil => rfl
  | cons x l ih =>
    obtain ⟨nm, arg⟩ := x
    simp only [List.cons_append, initAll]
    cases hf : c.find nm with
    | none => rfl
    | some p =>
      simp only
      cases hi : initProp w ex p nm st arg with
      | none => rfl
      | some r =>
        obtain ⟨r, s⟩ := r
        cases r with
        | error e => rfl
        | ok u => exact ih s

/-- Storing the arguments does not depend on the recursion limit, and fills slots of passed names only. -/
theorem initAll_passed (kw : List (String × V)) : ∀ st : State V, ∃ r st',
    (∀ ex : State V → Op V → Res V V, initAll w c ex (kw.map (fun x => (x.1, some x.2))) st = some (r, st')) ∧
    ∀ nm, nm ∉ kw.map (·.1) → st'.slots nm = st.slots nm := by
  induction kw with
  | nil => intro st; exact ⟨.ok (), st, fun _ => rfl, fun _ _ => rfl⟩
  | cons x kw ih =>
    intro st
    cases hf : c.find x.1 with
    | none =>
      refine ⟨.error .propertyNotKnown, st, fun ex => ?_, fun _ _ => rfl⟩
      simp only [List.map_cons, initAll, hf]
    | some p =>
      cases ho : outcome w p x.2 with
      | error e =>
        refine ⟨.error e, st, fun ex => ?_, fun _ _ => rfl⟩
        simp only [List.map_cons, initAll, hf, initProp, initValue_outcome, ho]
      | ok o =>
        obtain ⟨r, st', h1, h2⟩ := ih (store st x.1 o)
        refine ⟨r, st', fun ex => ?_, fun nm hnm => ?_⟩
        · simp only [List.map_cons, initAll, hf, initProp, initValue_outcome, ho]
          exact h1 ex
        · simp only [List.map_cons, List.mem_cons, not_or] at hnm
          rw [h2 nm hnm.2]
          cases o with
          | none => rfl
          | some v => simp only [store, State.put, if_neg hnm.1]

end Normalize.Slots
