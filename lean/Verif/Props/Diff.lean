import Verif.Lemmas.DiffPoints
import Verif.Lemmas.DiffDefault
import Verif.Spec.Access
import Verif.Props.DiffEx

/-!
# C38: an object does not differ from itself; C43: the selectors of a diff lead somewhere
-/

namespace Normalize.Diff
open Ident (IProp Schema AtomLaws unsetOf)
open Spec (Closed Real Follow DictsOK PlainSlots Differ)

variable {E F : Type} [DecidableEq E] [DecidableEq F] {H : Hooks E F} {o : Opts}

/-! ## C38 -/

/-- C38: comparing an object with itself yields `NO_CHANGE` entries only, whatever the options, the schema and
the sub-classed methods of DiffOptions: it is enough that `items_equal(x, x)` is not false for the values met. -/
theorem C38_self (T : Val → Prop) (hT : Closed H T) (ho : OrdOK H)
    (he : ∀ x, T x → H.itemsEqual x x ≠ .ok false) (n : Nat) (x : Val) (hx : T x) :
    ∀ d ∈ (diff H o n x x).out, d.kind = .noChange :=
  quiet_diffIter hT ho he n x [] [] hx

theorem yields_noChange {a b : Option Val} {fa fb : FS} {d : DInfo} (h : Yields H o a b fa fb d) :
    d.kind = .noChange → o.unchanged = true := by
  induction h with
  | netL hs hk hy ih => exact ih
  | netR hs hk hy ih => exact ih
  | sub _ _ _ ih => exact ih
  | item _ _ _ _ _ _ ih => exact ih
  | itemR _ _ _ _ ih => exact ih
  | itemL _ _ _ _ ih => exact ih
  | same _ _ h => intro _; exact h
  | netSame _ h => intro _; exact h
  | sSame _ _ h => intro _; exact h
  | rSame _ _ _ h => intro _; exact h
  | _ => intro h; simp at h

/-- C38: `NO_CHANGE` entries are only yielded with `unchanged=True`, for any two objects. -/
theorem C38_unchanged_only (ho : OrdOK H) (hu : o.unchanged = false) (n : Nat) (a b : Val) :
    ∀ d ∈ (diff H o n a b).out, d.kind ≠ .noChange := by
  intro d hd hk
  have := yields_noChange (yields_diffIter ho n _ _ _ _ d hd) hk
  rw [hu] at this
  simp at this

/-- C38: without `unchanged=True` the diff of an object with itself is empty. -/
theorem C38_nothing (T : Val → Prop) (hT : Closed H T) (ho : OrdOK H)
    (he : ∀ x, T x → H.itemsEqual x x ≠ .ok false) (hu : o.unchanged = false) (n : Nat) (x : Val) (hx : T x) :
    (diff H o n x x).out = [] := by
  rw [List.eq_nil_iff_forall_not_mem]
  intro d hd
  exact C38_unchanged_only ho hu n x x d hd (C38_self T hT ho he n x hx d hd)

/-- C38 for the default methods of DiffOptions: every real object, every option set, every text
normalisation. -/
theorem C38_default (D : Setup) (hc : Spec.CompareFlat D) (L : AtomLaws D.S) (ho : OrdOK D.hooks)
    (n : Nat) (x : Val) (hx : Real D.S x) :
    (∀ d ∈ (diff D.hooks o n x x).out, d.kind = .noChange) ∧
      (o.unchanged = false → (diff D.hooks o n x x).out = []) := by
  have he : ∀ x, Real D.S x → D.hooks.itemsEqual x x ≠ .ok false := by
    intro x hx h
    have h1 : Ident.veq D.S x x = .ok false := h
    rw [Ident.veq_refl L x hx.1] at h1
    simp at h1
  exact ⟨C38_self _ (closed_default D hc) ho he n x hx,
    fun hu => C38_nothing _ (closed_default D hc) ho he hu n x hx⟩

/-! ## C43 -/

/-- C43: every entry of a diff points at real places.  The base selector of a `REMOVED`, `MODIFIED` or `MOVED`
entry can be followed in `base`, the other selector of an `ADDED`, `MODIFIED` or `MOVED` entry in `other`, and
the values a `MODIFIED` entry points at have different normal forms. -/
theorem C43_points (ho : OrdOK H) (hp : PlainSlots H) (hduck : o.duckType = false) (n : Nat) (a b : Val)
    (ha : DictsOK H.S a) (hb : DictsOK H.S b) (d : DInfo) (hd : d ∈ (diff H o n a b).out) :
    (d.kind = .removed ∨ d.kind = .modified ∨ d.kind = .moved → ∃ w, Follow H.S a d.base w) ∧
    (d.kind = .added ∨ d.kind = .modified ∨ d.kind = .moved → ∃ w, Follow H.S b d.other w) ∧
    (d.kind = .modified → ∃ x y, Follow H.S a d.base x ∧ Follow H.S b d.other y ∧ Differ H x y) := by
  have hy := yields_diffIter ho n _ _ _ _ d hd
  obtain ⟨pa, pb, h1, h2, hP⟩ := points_of_yields hp hduck hy
    (by intro x hx; simp at hx; exact hx ▸ ha) (by intro x hx; simp at hx; exact hx ▸ hb)
  simp only [List.nil_append] at h1 h2
  rw [h1, h2]
  refine ⟨fun hk => ?_, fun hk => ?_, fun hk => ?_⟩
  · obtain ⟨w, x, hx, hw⟩ := hP.base hk
    simp at hx
    exact ⟨w, hx ▸ hw⟩
  · obtain ⟨w, x, hx, hw⟩ := hP.other hk
    simp at hx
    exact ⟨w, hx ▸ hw⟩
  · obtain ⟨x, y, ⟨x', hx', hx⟩, ⟨y', hy', hy⟩, hdf⟩ := hP.leaf hk
    simp at hx' hy'
    exact ⟨x, y, hx' ▸ hx, hy' ▸ hy, hdf⟩

/-- Following a selector without wildcards is what `FieldSelector.get` does. -/
theorem get_of_follow {S : Schema} {A : Env} (hE : ∀ c nm, (A.attr c nm).bind (·.unset) = unsetOf S c nm)
    {v w : Val} {p : FS} (h : Follow S v p w) : Spec.Plain p → get A p v = .ok w := by
  induction h with
  | here => intro _; rfl
  | @attr v nm w p u h1 _ ih =>
    intro hp
    have ih := ih (fun c hc => hp c (by simp [hc]))
    cases v with
    | rcd c s =>
      have hg : getAttr A (.rcd c s) (.str nm) = .ok w := by
        simp only [Ident.readAttr] at h1
        unfold getAttr
        simp only
        split at h1
        · rename_i w' hw'
          simp at h1
          simp [hw', h1]
        · rename_i hn
          cases hu : unsetOf S c nm with
          | none => simp [hu] at h1
          | some q =>
            simp [hu] at h1
            simp [hn, hE, hu, h1]
      simp [get, step, tryIndex, hg, ih]
    | _ => simp [Ident.readAttr] at h1
  | @item v k w p u h1 _ ih =>
    intro hp
    have ih := ih (fun c hc => hp c (by simp [hc]))
    have hk : k ≠ .none := hp k (by simp)
    have ht : tryIndex v k = true := by
      cases v <;> cases k <;> simp [getItem] at h1 <;> simp [tryIndex] at hk ⊢
    cases k with
    | none => exact absurd rfl hk
    | _ => simp [get, step, ht, h1, ih]

/-- C43 with `FieldSelector.get`: where a selector of the entry has no `None` in it (which happens only below a
dict with the key `None`), `get` returns what is at the place. -/
theorem C43_get (ho : OrdOK H) (hp : PlainSlots H) (hduck : o.duckType = false) (A : Env)
    (hE : ∀ c nm, (A.attr c nm).bind (·.unset) = unsetOf H.S c nm) (n : Nat) (a b : Val)
    (ha : DictsOK H.S a) (hb : DictsOK H.S b) (d : DInfo) (hd : d ∈ (diff H o n a b).out)
    (pa : Spec.Plain d.base) (pb : Spec.Plain d.other) :
    (d.kind = .removed → ∃ w, get A d.base a = .ok w) ∧ (d.kind = .added → ∃ w, get A d.other b = .ok w) ∧
    (d.kind = .modified → ∃ x y, get A d.base a = .ok x ∧ get A d.other b = .ok y ∧ Differ H x y) := by
  obtain ⟨h1, h2, h3⟩ := C43_points ho hp hduck n a b ha hb d hd
  refine ⟨fun hk => ?_, fun hk => ?_, fun hk => ?_⟩
  · obtain ⟨w, hw⟩ := h1 (.inl hk)
    exact ⟨w, get_of_follow hE hw pa⟩
  · obtain ⟨w, hw⟩ := h2 (.inl hk)
    exact ⟨w, get_of_follow hE hw pb⟩
  · obtain ⟨x, y, hx, hy, hdf⟩ := h3 hk
    exact ⟨x, y, get_of_follow hE hx pa, get_of_follow hE hy pb, hdf⟩

/-- C43 for the default methods of DiffOptions. -/
theorem C43_default (D : Setup) (hc : Spec.CompareFlat D) (ho : OrdOK D.hooks) (hduck : o.duckType = false)
    (n : Nat) (a b : Val) (ha : Real D.S a) (hb : Real D.S b) (d : DInfo) (hd : d ∈ (diff D.hooks o n a b).out) :
    (d.kind = .removed ∨ d.kind = .modified ∨ d.kind = .moved → ∃ w, Follow D.S a d.base w) ∧
    (d.kind = .added ∨ d.kind = .modified ∨ d.kind = .moved → ∃ w, Follow D.S b d.other w) ∧
    (d.kind = .modified → ∃ x y, Follow D.S a d.base x ∧ Follow D.S b d.other y ∧ Differ D.hooks x y) :=
  C43_points ho (plain_default D hc) hduck n a b (dictsOK_real ha) (dictsOK_real hb) d hd

/-! ## Examples -/

namespace Ex

/-- The hypotheses of `C38_default` and `C43_default` hold of `docA` and `docB`, whatever the text options. -/
example (t : TextOpts) : (∀ p, (setup t).compareAs p = none) ∧ AtomLaws (setup t).S ∧ OrdOK (hooks t) ∧
    Real (setup t).S docA ∧ Real (setup t).S docB ∧ PlainSlots (hooks t) ∧ Closed (hooks t) (Real schema) ∧
    DictsOK schema docA ∧ DictsOK schema docB :=
  ⟨fun _ => rfl, laws, ordOK t, real_docA, real_docB, plain t, closed_default _ (.none fun _ => rfl),
    dictsOK_real real_docA, dictsOK_real real_docB⟩

/-- The diff of `docA` and `docA` completes, with and without `unchanged`. -/
example : diff (hooks {}) {} 9 docA docA = { out := [] } ∧
    (diff (hooks {}) { unchanged := true } 9 docA docA).exc = none ∧
    ⟨.noChange, [.str "title"], [.str "title"]⟩ ∈ (diff (hooks {}) { unchanged := true } 9 docA docA).out := by
  decide +kernel

/-- The diff of `docA` and `docB` completes and has entries of each kind. -/
example : (diff (hooks { ignoreWs := true }) { moved := true } 9 docA docB).exc = none ∧
    ⟨.modified, [.str "people", .int 2, .str "name"], [.str "people", .int 1, .str "name"]⟩ ∈
      (diff (hooks { ignoreWs := true }) { moved := true } 9 docA docB).out ∧
    ⟨.removed, [.str "people", .int 0], [.str "people"]⟩ ∈
      (diff (hooks { ignoreWs := true }) { moved := true } 9 docA docB).out ∧
    ⟨.added, [.str "people"], [.str "people", .int 2]⟩ ∈
      (diff (hooks { ignoreWs := true }) { moved := true } 9 docA docB).out ∧
    ⟨.moved, [.str "people", .int 1], [.str "people", .int 0]⟩ ∈
      (diff (hooks { ignoreWs := true }) { moved := true } 9 docA docB).out := by
  decide +kernel

/-- `items_equal` that is not reflexive (NaN) breaks C38, so that hypothesis is needed. -/
example : (diff { hooks with itemsEqual := fun _ _ => .ok false } {} 9 (person 1 "x") (person 1 "x")).out ≠ [] := by
  decide +kernel

end Ex

end Normalize.Diff
