import Verif.Spec.SoftGet

/-!
# C143: when `foo0` is a placeholder
-/

namespace Normalize.SoftGet
open Normalize.Slots
open Spec (NoValue NoAttributeError Quiet C143_statement)

variable {V : Type} [DecidableEq V] {w : World V} {c : Cls V} {n : Nat} {vt : Option Empty.Entry} {h h' : Empty.Heap}
  {st st' : State V} {nm : String} {p : PropDef V}

/-- If `foo` gives a value, `foo0` gives the same, with the same effects; and only then does it give a value. -/
theorem C143_value_partial {v : V} : zeroGet w c n vt h st nm = some (.ok (.value v, h'), st') ↔
    h' = h ∧ exec w c n st (.get nm) = some (.ok v, st') := by
  unfold zeroGet
  cases hx : exec w c n st (.get nm) with
  | none => simp
  | some q =>
    obtain ⟨r, s⟩ := q
    cases r with
    | ok a =>
      simp only [Empty.auxGet]
      constructor
      · intro hh; cases hh; exact ⟨rfl, rfl⟩
      · rintro ⟨rfl, hh⟩; cases hh; rfl
    | error e =>
      simp only [Empty.auxGet]
      split
      · constructor
        · intro hh; cases hh
        · rintro ⟨_, hh⟩; cases hh
      · constructor
        · intro hh; cases hh
        · rintro ⟨_, hh⟩; cases hh

/-- `foo0` is a placeholder, for the type of the property, exactly if reading `foo` raises an `AttributeError`; all other
exceptions are those of `foo`. -/
theorem C143_empty_partial {i : Nat} : zeroGet w c n vt h st nm = some (.ok (.empty i, h'), st') ↔
    (i, h') = Empty.placeholder h (Empty.auxTypes vt) ∧
      ∃ e, e.isAttribute = true ∧ exec w c n st (.get nm) = some (.error e, st') := by
  unfold zeroGet
  cases hx : exec w c n st (.get nm) with
  | none => simp
  | some q =>
    obtain ⟨r, s⟩ := q
    cases r with
    | ok a =>
      simp only [Empty.auxGet]
      constructor
      · intro hh; cases hh
      · rintro ⟨_, e, _, hh⟩; cases hh
    | error e =>
      simp only [Empty.auxGet]
      split
      · next he =>
        constructor
        · intro hh; cases hh; exact ⟨rfl, e, he, rfl⟩
        · rintro ⟨h1, e', _, hh⟩
          cases hh
          rw [← h1]
      · next he =>
        constructor
        · intro hh; cases hh
        · rintro ⟨_, e', he', hh⟩
          cases hh
          exact absurd he' he

theorem C143_error_partial {e : Exc} : zeroGet w c n vt h st nm = some (.error e, st') ↔
    e.isAttribute = false ∧ exec w c n st (.get nm) = some (.error e, st') := by
  unfold zeroGet
  cases hx : exec w c n st (.get nm) with
  | none => simp
  | some q =>
    obtain ⟨r, s⟩ := q
    cases r with
    | ok a =>
      simp only [Empty.auxGet]
      constructor
      · intro hh; cases hh
      · rintro ⟨_, hh⟩; cases hh
    | error e' =>
      simp only [Empty.auxGet]
      split
      · next he =>
        constructor
        · intro hh; cases hh
        · rintro ⟨h1, hh⟩
          cases hh
          rw [h1] at he; cases he
      · next he =>
        constructor
        · intro hh; cases hh; exact ⟨by simpa using he, rfl⟩
        · rintro ⟨_, hh⟩; cases hh; rfl

/-- C143 for the properties that are not lazy: `foo0` is a placeholder exactly if the slot is empty, unless it is a
`V1Property`; nothing is changed, and no exception is raised. -/
theorem C143_partial (hf : c.find nm = some p) (hl : p.kind.isLazy = false) :
    (∀ v, st.slots nm = some v → zeroGet w c (n + 1) vt h st nm = some (.ok (.value v, h), st)) ∧
    (st.slots nm = none → p.kind ≠ .v1 → zeroGet w c (n + 1) vt h st nm =
      some (.ok (.empty (Empty.placeholder h (Empty.auxTypes vt)).1, (Empty.placeholder h (Empty.auxTypes vt)).2), st)) ∧
    (st.slots nm = none → p.kind = .v1 → zeroGet w c (n + 1) vt h st nm =
      some (.ok (.value (p.v1none.getD w.none), h), st)) := by
  refine ⟨fun v hv => ?_, fun hn hk => ?_, fun hn hk => ?_⟩
  · simp [zeroGet, exec, getAttr, hv, Empty.auxGet]
  · have : exec w c (n + 1) st (.get nm) = some (.error .attributeError, st) := by
      simp only [exec, getAttr, hn, hf, hl, Bool.false_eq_true, if_false]
      split
      · next h1 _ => exact absurd h1 hk
      · next h1 _ => exact absurd h1 hk
      · rfl
    simp only [zeroGet, this, Empty.auxGet]
    rfl
  · cases hv : p.v1none <;> simp [zeroGet, exec, getAttr, hn, hf, hk, Kind.isLazy, hv, Empty.auxGet]

theorem runProg_quiet {ex : State V → Op V → Res V V} {f : Prog V} (hq : NoAttributeError f) :
    ∀ {s s' : State V} {e : Exc}, runProg ex f s = some (.error e, s') → e.isAttribute = false := by
  induction hq with
  | ret v => intro s s' e hh; simp [runProg] at hh
  | raise e0 h0 =>
    intro s s' e hh
    simp only [runProg, Option.some.injEq, Prod.mk.injEq, Except.error.injEq] at hh
    rw [← hh.1]; exact h0
  | op o k _ ih =>
    intro s s' e hh
    simp only [runProg] at hh
    split at hh
    · cases hh
    · exact ih _ hh

theorem runCheck_quiet (hq : Quiet p) {v : V} {e : Exc} (hh : runCheck p v = .error e) : e.isAttribute = false := by
  unfold runCheck at hh
  split at hh
  · cases hh
  · next f hf =>
    split at hh
    · next e' he => cases hh; exact hq.check f hf v _ he
    · cases hh
    · cases hh; rfl

theorem typeSafe_quiet (hq : Quiet p) {v : V} {b : Bool} {e : Exc} (hh : typeSafe w p v b = .error e) :
    e.isAttribute = false := by
  have hac : ∀ (isa : V → Bool) (nv : V), afterCoerce w p isa nv b = .error e → e.isAttribute = false := by
    intro isa nv hx
    unfold afterCoerce at hx
    split at hx
    · exact runCheck_quiet hq hx
    · split at hx
      · cases hx
      · cases hx; rfl
  unfold typeSafe at hh
  split at hh
  · cases hh; rfl
  · split at hh
    · exact runCheck_quiet hq hh
    · split at hh
      · exact runCheck_quiet hq hh
      · split at hh
        · exact hac _ _ hh
        · exact hac _ _ hh
        · cases hh; rfl

/-- C143 for lazy properties whose own functions raise no `AttributeError` and let none through: `foo0` is never a
placeholder. -/
theorem C143_lazy_partial (hf : c.find nm = some p) (hl : p.kind.isLazy = true) (hq : Quiet p) (i : Nat) :
    zeroGet w c n vt h st nm ≠ some (.ok (.empty i, h'), st') := by
  intro hz
  obtain ⟨_, e, he, hx⟩ := C143_empty_partial.1 hz
  cases n with
  | zero => cases hx
  | succ n =>
    simp only [exec, getAttr, hf, hl, if_true] at hx
    split at hx
    · cases hx
    · unfold lazyGet at hx
      split at hx
      · cases hx
      · next e' s hd =>
        cases hx
        unfold getDefault at hd
        split at hd
        · cases hd
        · next f hdf =>
          rw [runProg_quiet (hq.default f hdf) hd] at he; cases he
      · split at hx
        · next e' ht =>
          cases hx
          rw [typeSafe_quiet hq ht] at he; cases he
        · cases hx

/-- Once `foo0` has given a value it gives the same again, at once and without calling any function, and so does `foo`:
for all kinds of properties. -/
theorem C143_again_partial {v : V} (hz : zeroGet w c n vt h st nm = some (.ok (.value v, h'), st')) (m : Nat) :
    zeroGet w c (m + 1) vt h st' nm = some (.ok (.value v, h), st') ∧ exec w c (m + 1) st' (.get nm) = some (.ok v, st') := by
  obtain ⟨rfl, hx⟩ := C143_value_partial.1 hz
  have key : exec w c (m + 1) st' (.get nm) = some (.ok v, st') := by
    cases n with
    | zero => cases hx
    | succ n =>
      simp only [exec] at hx ⊢
      unfold getAttr at hx
      split at hx
      · next hs => cases hx; simp only [getAttr, hs]
      · next hs =>
        split at hx
        · cases hx
        · next q hq =>
          split at hx
          · unfold lazyGet at hx
            split at hx
            · cases hx
            · cases hx
            · split at hx
              · cases hx
              · cases hx; simp [getAttr, State.put]
          · next hl =>
            split at hx
            · next h1 h2 => cases hx; simp [getAttr, hs, hq, h1, h2, Kind.isLazy]
            · next h1 h2 => cases hx; simp [getAttr, hs, hq, h1, h2, Kind.isLazy]
            · cases hx
  exact ⟨C143_value_partial.2 ⟨rfl, key⟩, key⟩

/-- A record with a property and a lazy one that is computed from it. -/
def exCls : Cls Int where
  props := [("x", { kind := .safe }),
    ("y", { kind := .lazy, default := some (.op (.get "x") fun r => match r with
      | .ok v => .ret (v + 1)
      | .error e => .raise e) })]

def exWorld : World Int := ⟨0, -1, fun a b => a == b⟩

/-- C143 is violated: the function that computes `y` reads `x`, which is not set; the `AttributeError` about `x` makes
`y0` a placeholder. -/
theorem C143_violated : ¬ C143_statement := by
  intro hs
  have := hs exWorld exCls 3 none {} .empty "y" (exCls.props[1].2) 0 (Empty.placeholder {} [.any]).2 (State.empty.log "y") rfl
    (by with_unfolding_all rfl)
  exact this.2.1 rfl

/-- With `x`, there is a value. -/
example : ∃ st', zeroGet exWorld exCls 3 none {} (State.empty.put "x" 4) "y" = some (.ok (.value 5, {}), st') :=
  ⟨_, by with_unfolding_all rfl⟩

/-- A lazy property that reads `x` too, and is 0 if that fails. -/
def calm : PropDef Int where
  kind := .lazySafe
  default := some (.op (.get "x") fun r => .ret (r.toOption.getD 0))

example : Quiet calm :=
  ⟨fun f hf => by cases hf; exact .op _ _ fun _ => .ret _, fun f hf => by cases hf⟩

example : ∃ st', zeroGet exWorld ⟨[("y", calm)]⟩ 3 none {} .empty "y" = some (.ok (.value 0, {}), st') :=
  ⟨_, by with_unfolding_all rfl⟩

/-- `C143_partial` applies to `x`. -/
example : exCls.find "x" = some { kind := .safe } ∧ ({ kind := .safe } : PropDef Int).kind.isLazy = false :=
  ⟨rfl, rfl⟩

end Normalize.SoftGet
