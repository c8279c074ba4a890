import Verif.Lemmas.ConstructOrder

/-!
# C110: the same arguments make the same record

`Record.__init__` evaluates the defaults of the attributes that were not passed in the iteration order of a
set of strings, which python changes from one process to the next.
-/

namespace Normalize.Slots

open Spec

/-- The whole property: whatever the iteration order of sets, the same arguments are accepted or refused, and
the same attributes hold the same values afterwards. -/
def C110_statement : Prop :=
  ∀ (V : Type) (_ : DecidableEq V) (w : World V) (c : Cls V) (n : Nat) (ord ord' : List String → List String)
    (kw : List (String × V)) (r r' : Except Exc Unit) (st st' : State V),
    (c.props.map (·.1)).Nodup → (kw.map (·.1)).Nodup → SetOrder ord → SetOrder ord' →
    construct w c n ord [] kw = some (r, st) → construct w c n ord' [] kw = some (r', st') →
    (r = .ok () ↔ r' = .ok ()) ∧ (r = .ok () → r' = .ok () → st'.slots = st.slots)

/-- whether the arguments are accepted -/
def C110_accepted_statement : Prop :=
  ∀ (V : Type) (_ : DecidableEq V) (w : World V) (c : Cls V) (n : Nat) (ord ord' : List String → List String)
    (kw : List (String × V)) (st : State V),
    (c.props.map (·.1)).Nodup → (kw.map (·.1)).Nodup → SetOrder ord → SetOrder ord' →
    construct w c n ord [] kw = some (.ok (), st) → ∃ st', construct w c n ord' [] kw = some (.ok (), st')

section Examples

private def exW : World (Option Nat) := ⟨some 0, none, fun a b => a == b⟩

/-- `price = IntProperty(default=9)`; `total = IntProperty(default=lambda self: self.price + 1)`; -/
private def exTotal : Prog (Option Nat) :=
  .op (.get "price") fun r => match r with
    | .ok v => .ret (some (v.getD 0 + 1))
    | .error e => .raise e

private def exOrder (k : Kind) : Cls (Option Nat) :=
  ⟨[("price", { kind := k, default := some (.ret (some 9)) }), ("total", { kind := .safe, default := some exTotal })]⟩

/-- C110 is violated silently: with a v1 property `price`, the default of `total` sees 9 in one order and
`None` (here 0) in the other, and two records made from the same arguments differ. -/
theorem C110_violated : ¬ C110_statement := by
  intro h
  obtain ⟨st, h1⟩ : ∃ st, construct exW (exOrder .v1) 2 id [] [] = some (.ok (), st) ∧ st.slots "total" = some (some 10) :=
    ⟨_, rfl, by decide +kernel⟩
  obtain ⟨st', h2⟩ : ∃ st, construct exW (exOrder .v1) 2 List.reverse [] [] = some (.ok (), st) ∧
      st.slots "total" = some (some 1) := ⟨_, rfl, by decide +kernel⟩
  have := (h (Option Nat) inferInstance exW (exOrder .v1) 2 id List.reverse [] _ _ st st' (by decide) (by decide)
    (fun l => List.Perm.refl _) (fun l => List.reverse_perm l) h1.1 h2.1).2 rfl rfl
  have := congrFun this "total"
  rw [h1.2, h2.2] at this
  simp at this

/-- C110 is violated: with an ordinary property the constructor raises `AttributeError` in one order and
succeeds in the other. -/
theorem C110_accepted_violated : ¬ C110_accepted_statement := by
  intro h
  obtain ⟨st, h1⟩ : ∃ st, construct exW (exOrder .safe) 2 id [] [] = some (.ok (), st) := ⟨_, rfl⟩
  obtain ⟨st', h2⟩ := h (Option Nat) inferInstance exW (exOrder .safe) 2 id List.reverse [] st (by decide) (by decide)
    (fun l => List.Perm.refl _) (fun l => List.reverse_perm l) h1
  have h3 : ∃ st, construct exW (exOrder .safe) 2 List.reverse [] [] = some (.error .attributeError, st) := ⟨_, rfl⟩
  obtain ⟨st3, h3⟩ := h3
  rw [h3] at h2
  simp at h2

end Examples

variable {V : Type} [DecidableEq V] {w : World V} {c : Cls V}

/-- C110, part: if the defaults that the constructor evaluates only read attributes that are passed or have no
default, and lazy attributes that in turn depend on nothing else, then, unless the recursion limit is too low, either
every iteration order of sets refuses the arguments, or every one accepts them and stores the same values, lazy
attributes included. -/
theorem C110_partial {kw : List (String × V)} (hnd : (c.props.map (·.1)).Nodup) (hd : ReadyDefaults c kw) :
    ∃ n0, (∀ n, n0 ≤ n → AlwaysRaises w c kw n) ∨ ∃ slots, ∀ n, n0 ≤ n → AlwaysStores w c kw n slots := by
  obtain ⟨r, b, hb, hbs⟩ := initAll_passed (w := w) (c := c) kw .empty
  have hcon : ∀ n ord, construct w c n ord [] kw = match r with
      | .ok () => initAll w c (exec w c n) ((ord (c.eagerNames.filter
          (fun nm => !(kw.map (·.1)).contains nm))).map (fun nm => (nm, none))) b
      | .error e => some (.error e, b) := by
    intro n ord
    unfold construct
    simp only [List.isEmpty_nil, Bool.not_true, Bool.false_and, Bool.false_eq_true, if_false, if_true]
    rw [initAll_append, hb]
    cases r <;> rfl
  cases r with
  | error e => exact ⟨0, .inl fun n _ ord _ => ⟨e, b, hcon n ord⟩⟩
  | ok u =>
    simp only at hcon
    generalize hl : c.eagerNames.filter (fun nm => !(kw.map (·.1)).contains nm) = l at hcon
    have hprops : ∀ nm ∈ l, ∃ n0 out b', StepOk w c kw b nm n0 out b' ∧ ¬ LazyName c nm ∧ ¬ Settled c kw nm ∧
        b.slots nm = none := by
      intro nm hnm
      rw [← hl] at hnm
      simp only [List.mem_filter, Bool.not_eq_true', List.contains_eq_mem, decide_eq_false_iff_not] at hnm
      obtain ⟨x, hx, rfl⟩ := List.mem_map.1 hnm.1
      obtain ⟨hx, he⟩ := List.mem_filter.1 hx
      have hf := find_of_mem hnd hx
      have hlz : x.2.kind.isLazy = false := by
        cases h : x.2.kind.isLazy with
        | false => rfl
        | true => simp [PropDef.eager, h] at he
      have hdef : ∃ n r b', DefOk w c kw b x.1 x.2 n r b' := by
        cases hdf : x.2.default with
        | none => exact ⟨_, _, _, defOk_none hdf⟩
        | some prog => exact defOk_some hdf (readsReady_ok (hd x hx hlz hnm.2 prog hdf) b)
      obtain ⟨n, r, b', h⟩ := hdef
      refine ⟨n, _, b', stepOk hf hlz h, ?_, ?_, ?_⟩
      · rintro ⟨p, hp, hp'⟩
        rw [hf] at hp; cases hp
        rw [hlz] at hp'; cases hp'
      · intro h
        rcases (h _ hf).2 with h | ⟨h, h'⟩
        · exact hnm.2 h
        · simp [PropDef.eager, hlz, h, h'] at he
      · rw [hbs _ hnm.2]; rfl
    have hprops' : ∀ nm, ∃ n0 out b', nm ∈ l → StepOk w c kw b nm n0 out b' ∧ ¬ LazyName c nm ∧
        ¬ Settled c kw nm ∧ b.slots nm = none := by
      intro nm
      by_cases h : nm ∈ l
      · obtain ⟨n0, out, b', h⟩ := hprops nm h
        exact ⟨n0, out, b', fun _ => h⟩
      · exact ⟨0, .ok none, b, fun h' => absurd h' h⟩
    obtain ⟨n0, h1⟩ := Classical.axiomOfChoice hprops'
    obtain ⟨out, h2⟩ := Classical.axiomOfChoice h1
    obtain ⟨bs, hstep⟩ := Classical.axiomOfChoice h2
    obtain ⟨N, hN⟩ : ∃ N, ∀ x ∈ l, n0 x ≤ N := by
      clear hl hcon hprops hstep hprops' h1 h2
      induction l with
      | nil => exact ⟨0, fun x hx => by simp at hx⟩
      | cons y l ih =>
        obtain ⟨N, h⟩ := ih
        refine ⟨max (n0 y) N, fun x hx => ?_⟩
        rcases List.mem_cons.1 hx with rfl | hx
        · exact Nat.le_max_left _ _
        · exact Nat.le_trans (h x hx) (Nat.le_max_right _ _)
    have hrun : ∀ n, N ≤ n → ∀ l' : List String, l'.Perm l → _ := fun n hn l' hp =>
      initAll_left (w := w) (n := n) (n0 := n0) (out := out) (bs := bs) l' (fun x hx =>
        have hm := hp.mem_iff.1 hx
        have h := hstep x hm
        ⟨h.1, Nat.le_trans (hN x hm) hn, h.2⟩) b (Near.refl b)
    refine ⟨N, ?_⟩
    rcases hrun N (Nat.le_refl N) l (List.Perm.refl l) with ⟨⟨x, hx, e, he⟩, -⟩ | ⟨hall, st, hst, hleft⟩
    · refine .inl fun n hn ord ho => ?_
      rcases hrun n hn (ord l) (ho l) with ⟨-, e', st', h⟩ | ⟨hall, -⟩
      · exact ⟨e', st', (hcon n ord).trans h⟩
      · obtain ⟨o, h⟩ := hall x ((ho l).mem_iff.2 hx)
        rw [he] at h; cases h
    · refine .inr ⟨st.slots, fun n hn ord ho => ?_⟩
      rcases hrun n hn (ord l) (ho l) with ⟨⟨x, hx, e, he⟩, -⟩ | ⟨-, st', hst', hleft'⟩
      · obtain ⟨o, h⟩ := hall x ((ho l).mem_iff.1 hx)
        rw [he] at h; cases h
      · exact ⟨st', (hcon n ord).trans hst', left_perm (ho l) hall (fun x hx => (hstep x hx).2.1) hleft hleft'⟩

/-- A class with defaults that read a passed attribute, and a lazy one that reads another lazy one. -/
private def exBox : Cls (Option Nat) :=
  ⟨[("price", { kind := .safe, required := true }),
    ("tax", { kind := .lazy, default := some exTotal }),
    ("due", { kind := .roLazy, default := some (.op (.get "tax") fun r => match r with
      | .ok (some n) => .ret (some (n + 100))
      | .ok none => .ret (some 0)
      | .error e => .raise e) }),
    ("total", { kind := .safe, default := some (.op (.get "due") fun r => match r with
      | .ok v => .ret v
      | .error e => .raise e) }),
    ("again", { kind := .v1, default := some exTotal })]⟩

private theorem exBox_ready : ReadyDefaults exBox [("price", some 9)] := by
  have hq : Settled exBox [("price", some 9)] "price" := by
    intro p hf
    have : p = { kind := .safe, required := true } := by
      have h : exBox.find "price" = some { kind := .safe, required := true } := rfl
      rw [h] at hf; injection hf with hf; exact hf.symm
    subst this
    exact ⟨rfl, .inl (by simp)⟩
  have ht : ReadsReady exBox [("price", some 9)] exTotal :=
    .get (.settled hq) (fun r => by cases r with
      | ok v => exact .ret
      | error e => exact .raise)
  have htax : Ready exBox [("price", some 9)] "tax" := .lazy (prog := exTotal) rfl rfl rfl ht
  have hdue : Ready exBox [("price", some 9)] "due" := by
    refine .lazy rfl rfl rfl (.get htax fun r => ?_)
    rcases r with e | (_ | v)
    · exact .raise
    · exact .ret
    · exact .ret
  intro x hx _ _ prog hdf
  simp only [exBox, List.mem_cons, List.not_mem_nil, or_false] at hx
  rcases hx with rfl | rfl | rfl | rfl | rfl <;> simp at hdf <;> subst hdf
  · exact ht
  · refine .get htax fun r => ?_
    rcases r with e | (_ | v)
    · exact .raise
    · exact .ret
    · exact .ret
  · refine .get hdue fun r => ?_
    cases r with
    | ok v => exact .ret
    | error e => exact .raise
  · exact ht

/-- Every order makes the same record, in which the lazy attributes that were needed are computed. -/
example : ∃ n0, ∀ n, n0 ≤ n → ∀ ord, SetOrder ord →
    ∃ st, construct exW exBox n ord [] [("price", some 9)] = some (.ok (), st) ∧
      st.slots "total" = some (some 110) ∧ st.slots "again" = some (some 10) ∧ st.slots "tax" = some (some 10) := by
  obtain ⟨n0, h⟩ := C110_partial (w := exW) (c := exBox) (kw := [("price", some 9)]) (by decide) exBox_ready
  have h0 : ∃ st, construct exW exBox (n0 + 4) id [] [("price", some 9)] = some (.ok (), st) ∧
      st.slots "total" = some (some 110) ∧ st.slots "again" = some (some 10) ∧ st.slots "tax" = some (some 10) :=
    ⟨_, rfl, by decide +kernel, by decide +kernel, by decide +kernel⟩
  obtain ⟨st0, h0, ht⟩ := h0
  rcases h with h | ⟨slots, h⟩
  · obtain ⟨e, st, h⟩ := h (n0 + 4) (by omega) id (fun l => List.Perm.refl l)
    rw [h0] at h; cases h
  · obtain ⟨st1, h1, rfl⟩ := h (n0 + 4) (by omega) id (fun l => List.Perm.refl l)
    rw [h0] at h1
    cases h1
    refine ⟨n0, fun n hn ord ho => ?_⟩
    obtain ⟨st, h2, h3⟩ := h n hn ord ho
    exact ⟨st, h2, by rw [h3]; exact ht⟩

end Normalize.Slots
