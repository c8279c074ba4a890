import Verif.Spec.Property

/-! Lemmas about property slots. -/

namespace Normalize.Slots

open Spec

variable {V : Type} [DecidableEq V] {w : World V} {c : Cls V}

theorem runCheck_ok {p : PropDef V} {u v' : V} (h : runCheck p u = .ok v') :
    u = v' ∧ (∀ f, p.check = some f → f v' = .ok true) := by
  unfold runCheck at h
  split at h
  · rename_i hc
    injection h with h
    exact ⟨h, by simp [hc]⟩
  · rename_i f hc
    split at h
    · simp at h
    · rename_i hf
      injection h with h
      subst h
      exact ⟨rfl, by intro g hg; rw [hc] at hg; injection hg with hg; subst hg; exact hf⟩
    · simp at h

theorem typeSafe_ok {p : PropDef V} {v v' : V} {b : Bool} (h : typeSafe w p v b = .ok v')
    (hb : b = false ∨ v' ≠ w.unset) :
    Acceptable p v' ∧ (p.required = true → p.isa = none → v' ≠ w.none) := by
  unfold typeSafe at h
  split at h
  · simp at h
  · rename_i hreq
    split at h
    · rename_i hisa
      obtain ⟨rfl, h2⟩ := runCheck_ok h
      refine ⟨⟨by simp [hisa], h2⟩, ?_⟩
      intro hr _ hn
      exact hreq ⟨hn, hr, by simp [hisa]⟩
    · rename_i isa hisa
      have good : ∀ u, isa u = true → u = v' →
          (∀ f, p.check = some f → f v' = .ok true) →
          Acceptable p v' ∧ (p.required = true → p.isa = none → v' ≠ w.none) := by
        rintro u hu rfl h2
        refine ⟨⟨?_, h2⟩, by simp [hisa]⟩
        intro i hi; rw [hisa] at hi; injection hi with hi; subst hi; exact hu
      have done : ∀ nv, afterCoerce w p isa nv b = Except.ok v' →
          Acceptable p v' ∧ (p.required = true → p.isa = none → v' ≠ w.none) := by
        intro nv hnv
        unfold afterCoerce at hnv
        split at hnv
        · rename_i h1
          obtain ⟨h3, h2⟩ := runCheck_ok hnv
          exact good nv h1 h3 h2
        · split at hnv
          · rename_i h3
            injection hnv with hnv
            rcases hb with hb | hb
            · rw [hb] at h3; simp at h3
            · exact absurd hnv.symm hb
          · simp at hnv
      split at h
      · rename_i h1
        obtain ⟨h3, h2⟩ := runCheck_ok h
        exact good v h1 h3 h2
      · split at h
        · exact done _ h
        · exact done _ h
        · simp at h

theorem runProg_invariant (P : State V → Prop) {ex : State V → Op V → Res V V}
    (hex : ∀ st o r st', P st → ex st o = some (r, st') → P st') :
    ∀ (prog : Prog V) (st : State V) r st', P st → runProg ex prog st = some (r, st') → P st' := by
  intro prog
  induction prog with
  | ret v => intro st r st' hP h; simp [runProg] at h; exact h.2 ▸ hP
  | raise e => intro st r st' hP h; simp [runProg] at h; exact h.2 ▸ hP
  | op o k ih =>
    intro st r st' hP h
    simp only [runProg] at h
    split at h
    · simp at h
    · rename_i r1 st1 h1
      exact ih r1 st1 r st' (hex st o r1 st1 hP h1) h

theorem getDefault_invariant (P : State V → Prop) {ex : State V → Op V → Res V V}
    (hex : ∀ st o r st', P st → ex st o = some (r, st') → P st')
    (hlog : ∀ st nm, P st → P (st.log nm)) {nm : String} {p : PropDef V} {st : State V}
    {r st'} (hP : P st) (h : getDefault w ex nm p st = some (r, st')) : P st' := by
  unfold getDefault at h
  split at h
  · simp at h; exact h.2 ▸ hP
  · exact runProg_invariant P hex _ _ _ _ (hlog _ _ hP) h

/-- Induction principle: what every attribute operation preserves. -/
theorem exec_invariant (P : State V → Prop)
    (hlog : ∀ st nm, P st → P (st.log nm))
    (hlazy : ∀ st st' nm p v v', c.find nm = some p → p.kind.isLazy = true → P st → st.slots nm = none →
      P st' → typeSafe w p v false = .ok v' → P (st'.put nm v'))
    (hset : ∀ st nm v, P st → P (setAttr w c st nm v).2)
    (hdel : ∀ st nm, P st → P (delAttr w c st nm).2) :
    ∀ n st o r st', P st → exec w c n st o = some (r, st') → P st' := by
  intro n
  induction n with
  | zero => intro st o r st' _ h; simp [exec] at h
  | succ n ih =>
    intro st o r st' hP h
    cases o with
    | set nm v => simp only [exec, Option.some.injEq] at h; have := hset st nm v hP; rw [h] at this; exact this
    | del nm => simp only [exec, Option.some.injEq] at h; have := hdel st nm hP; rw [h] at this; exact this
    | get nm =>
      simp only [exec, getAttr] at h
      split at h
      · simp at h; exact h.2 ▸ hP
      · rename_i hslot
        split at h
        · simp at h; exact h.2 ▸ hP
        · rename_i p hfind
          split at h
          · rename_i hl
            unfold lazyGet at h
            split at h
            · simp at h
            · rename_i e st1 hd
              have := getDefault_invariant P ih hlog hP hd
              simp at h; exact h.2 ▸ this
            · rename_i v st1 hd
              have h1 := getDefault_invariant P ih hlog hP hd
              split at h
              · simp at h; exact h.2 ▸ h1
              · rename_i v' hts
                simp at h
                exact h.2 ▸ hlazy st st1 nm p v v' hfind hl hP hslot h1 hts
          · split at h <;> (simp at h; exact h.2 ▸ hP)

theorem initProp_invariant (P : State V → Prop) {ex : State V → Op V → Res V V}
    (hex : ∀ st o r st', P st → ex st o = some (r, st') → P st')
    (hlog : ∀ st nm, P st → P (st.log nm))
    {p : PropDef V} {nm : String}
    (hinit : ∀ st v, P st → P (initValue w p nm st v).2)
    {st : State V} {arg r st'} (hP : P st) (h : initProp w ex p nm st arg = some (r, st')) : P st' := by
  unfold initProp at h
  split at h
  · rename_i v
    simp only [Option.some.injEq] at h
    have := hinit st v hP; rw [h] at this; exact this
  · split at h
    · simp at h; exact h.2 ▸ hP
    · split at h
      · simp at h
      · rename_i e st1 hd
        have := getDefault_invariant P hex hlog hP hd
        simp at h; exact h.2 ▸ this
      · rename_i v st1 hd
        have h1 := getDefault_invariant P hex hlog hP hd
        simp only [Option.some.injEq] at h
        have := hinit st1 v h1; rw [h] at this; exact this

theorem initAll_invariant (P : State V → Prop) {ex : State V → Op V → Res V V}
    (hex : ∀ st o r st', P st → ex st o = some (r, st') → P st')
    (hlog : ∀ st nm, P st → P (st.log nm))
    (hinit : ∀ st nm p v, c.find nm = some p → P st → P (initValue w p nm st v).2) :
    ∀ (l : List (String × Option V)) (st : State V) r st', P st →
      initAll w c ex l st = some (r, st') → P st' := by
  intro l
  induction l with
  | nil => intro st r st' hP h; simp [initAll] at h; exact h.2 ▸ hP
  | cons x l ih =>
    obtain ⟨nm, arg⟩ := x
    intro st r st' hP h
    simp only [initAll] at h
    split at h
    · simp at h; exact h.2 ▸ hP
    · rename_i p hfind
      split at h
      · simp at h
      · rename_i e st1 hd
        have := initProp_invariant P hex hlog (fun st v => hinit st nm p v hfind) hP hd
        simp at h; exact h.2 ▸ this
      · rename_i st1 hd
        have := initProp_invariant P hex hlog (fun st v => hinit st nm p v hfind) hP hd
        exact ih _ _ _ this h

/-- What `construct` amounts to when it succeeds. -/
theorem construct_ok {n : Nat} {ord : List String → List String} {d kw : List (String × V)} {st : State V}
    (h : construct w c n ord d kw = some (.ok (), st)) :
    ∃ kw', (d = [] ∧ kw' = kw ∨ kw = [] ∧ kw' = d) ∧
      initAll w c (exec w c n) (kw'.map (fun x => (x.1, some x.2)) ++
        (ord (c.eagerNames.filter (fun nm => !(kw'.map (·.1)).contains nm))).map (fun nm => (nm, none)))
        .empty = some (.ok (), st) := by
  unfold construct at h
  split at h
  · simp at h
  · rename_i hne
    cases d with
    | nil => exact ⟨kw, .inl ⟨rfl, rfl⟩, by simpa using h⟩
    | cons x d =>
      cases kw with
      | nil => exact ⟨x :: d, .inr ⟨rfl, rfl⟩, by simpa using h⟩
      | cons y kw => simp at hne

theorem Reach.invariant (P : State V → Prop)
    (hempty : P .empty)
    (hlog : ∀ st nm, P st → P (st.log nm))
    (hinit : ∀ st nm p v, c.find nm = some p → P st → P (initValue w p nm st v).2)
    (hlazy : ∀ st st' nm p v v', c.find nm = some p → p.kind.isLazy = true → P st → st.slots nm = none →
      P st' → typeSafe w p v false = .ok v' → P (st'.put nm v'))
    (hset : ∀ st nm v, P st → P (setAttr w c st nm v).2)
    (hdel : ∀ st nm, P st → P (delAttr w c st nm).2)
    {st : State V} (hr : Reach w c st) : P st := by
  have hex := exec_invariant (w := w) (c := c) P hlog hlazy hset hdel
  induction hr with
  | init _ hc =>
    obtain ⟨kw', _, h⟩ := construct_ok hc
    exact initAll_invariant P (hex _) hlog hinit _ _ _ _ hempty h
  | step _ he ih => exact hex _ _ _ _ _ ih he

/-- All states an assignment can lead to. -/
theorem setAttr_cases (st : State V) (nm : String) (v : V) :
    (setAttr w c st nm v).2 = st ∨
    (∃ u, (setAttr w c st nm v).2 = st.put nm u ∧
      ∀ p, c.find nm = some p → p.kind.isRO = false ∧
        (p.kind.isData = true → ∃ v0, typeSafe w p v0 false = .ok u)) ∨
    ((setAttr w c st nm v).2 = st.drop nm ∧
      ∃ p, c.find nm = some p ∧ p.kind = .v1 ∧ p.required = false) := by
  unfold setAttr
  split
  · rename_i hf; right; left; exact ⟨v, rfl, by simp [hf]⟩
  · rename_i p hf
    split
    · rename_i hk; right; left
      exact ⟨v, rfl, by intro q hq; rw [hf] at hq; injection hq with hq; subst hq; simp [hk, Kind.isRO, Kind.isData]⟩
    · rename_i hk; right; left
      exact ⟨v, rfl, by intro q hq; rw [hf] at hq; injection hq with hq; subst hq; simp [hk, Kind.isRO, Kind.isData]⟩
    · left; rfl
    · left; rfl
    · rename_i hk
      unfold safeSet
      split
      · left; rfl
      · rename_i v' hts; right; left
        refine ⟨v', rfl, ?_⟩
        intro q hq; rw [hf] at hq; injection hq with hq; subst hq
        exact ⟨by simp [hk, Kind.isRO], fun _ => ⟨v, hts⟩⟩
    · rename_i hk
      unfold safeSet
      split
      · left; rfl
      · rename_i v' hts; right; left
        refine ⟨v', rfl, ?_⟩
        intro q hq; rw [hf] at hq; injection hq with hq; subst hq
        exact ⟨by simp [hk, Kind.isRO], fun _ => ⟨v, hts⟩⟩
    · rename_i hk
      unfold safeSet
      cases hts : typeSafe w p v false with
      | ok v' =>
        right; left
        refine ⟨v', rfl, ?_⟩
        intro q hq; rw [hf] at hq; injection hq with hq; subst hq
        exact ⟨by simp [hk, Kind.isRO], fun _ => ⟨v, hts⟩⟩
      | error e =>
        dsimp only
        split
        · split
          · unfold safeDelete
            split
            · left; rfl
            · rename_i hreq
              split
              · left; rfl
              · right; right
                exact ⟨rfl, p, hf, hk, by simpa using hreq⟩
          · left; rfl
        · left; rfl

/-- All states a deletion can lead to. -/
theorem delAttr_cases (st : State V) (nm : String) :
    (delAttr w c st nm).2 = st ∨
    ((delAttr w c st nm).2 = st.drop nm ∧ (delAttr w c st nm).1 = .ok w.none ∧ st.slots nm ≠ none ∧
      ∀ p, c.find nm = some p → p.kind.isRO = false ∧ (p.kind.isData = true → p.required = false)) := by
  unfold delAttr
  split
  · rename_i hf
    unfold plainDelete
    cases hs : st.slots nm with
    | none => left; rfl
    | some v => right; exact ⟨rfl, rfl, by simp, by simp [hf]⟩
  · rename_i p hf
    have plainC : p.kind = .plain ∨ p.kind = .lazy → 
        ∀ q, c.find nm = some q → q.kind.isRO = false ∧ (q.kind.isData = true → q.required = false) := by
      intro hk q hq; rw [hf] at hq; injection hq with hq; subst hq
      rcases hk with hk | hk <;> simp [hk, Kind.isRO, Kind.isData]
    have safeC : p.kind.isRO = false → ((safeDelete w p st nm).2 = st ∨
        ((safeDelete w p st nm).2 = st.drop nm ∧ (safeDelete w p st nm).1 = .ok w.none ∧
          st.slots nm ≠ none ∧
          ∀ q, c.find nm = some q → q.kind.isRO = false ∧ (q.kind.isData = true → q.required = false))) := by
      intro hk
      unfold safeDelete
      split
      · left; rfl
      · rename_i hreq
        cases hs : st.slots nm with
        | none => left; rfl
        | some v =>
          right
          refine ⟨rfl, rfl, by simp, ?_⟩
          intro q hq; rw [hf] at hq; injection hq with hq; subst hq
          exact ⟨hk, fun _ => by simpa using hreq⟩
    split
    · rename_i hk
      unfold plainDelete
      cases hs : st.slots nm with
      | none => left; rfl
      | some v => right; exact ⟨rfl, rfl, by simp, plainC (.inl hk)⟩
    · rename_i hk
      unfold plainDelete
      cases hs : st.slots nm with
      | none => left; rfl
      | some v => right; exact ⟨rfl, rfl, by simp, plainC (.inr hk)⟩
    · left; rfl
    · left; rfl
    · rename_i hk; exact safeC (by simp [hk, Kind.isRO])
    · rename_i hk; exact safeC (by simp [hk, Kind.isRO])
    · rename_i hk; exact safeC (by simp [hk, Kind.isRO])

theorem initValue_cases (p : PropDef V) (nm : String) (st : State V) (v : V) :
    (initValue w p nm st v).2 = st ∨
    ∃ u, (initValue w p nm st v).2 = st.put nm u ∧ u ≠ w.unset ∧ typeSafe w p v true = .ok u := by
  unfold initValue
  dsimp only
  split
  · left; rfl
  · rename_i nv hnv
    split
    · split <;> (left; rfl)
    · rename_i hne
      right
      split at hnv
      · injection hnv with hnv; exact absurd hnv.symm hne
      · exact ⟨nv, rfl, hne, hnv⟩

end Normalize.Slots
