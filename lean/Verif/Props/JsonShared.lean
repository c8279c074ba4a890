import Verif.Spec.JsonShared
import Verif.Props.JsonError
import Verif.Lemmas.AutoJson

/-!
# C138: properties that share a JSON name
-/

namespace Normalize.Json
open Ident (IProp)
open Spec (OwnKeys Named C138_statement)

variable {J : Setup} {mk : Mk} {c : String} {js : List (Comp × Val)}

theorem boxing_boxed {k : Comp} {r : Except JErr Val} {e : JErr} (h : boxing k r = .error e) :
    ∃ fs x, e = .boxed (k :: fs) x := by
  cases r with
  | ok v => cases h
  | error e' =>
    cases h
    cases e' with
    | raw x => exact ⟨[], x, rfl⟩
    | boxed fs x => exact ⟨fs, x, rfl⟩

theorem convertIn_boxed {p : IProp} {k : String} {j : Val} {e : JErr} (h : convertIn J mk c p k j = .error e) :
    ∃ fs x, e = .boxed (.str k :: fs) x := boxing_boxed h

theorem takeArg_boxed {p : IProp} {k : String} {j : Val} {args : List (String × Val)} {e : JErr}
    (h : takeArg J mk c p k j args = .error e) : convertIn J mk c p k j = .error e ∧ ∃ fs x, e = .boxed (.str k :: fs) x := by
  unfold takeArg at h
  split at h
  · cases h
  · split at h
    · next he => cases h; exact ⟨he, convertIn_boxed he⟩
    · cases h

/-- Why one round of the loop raises. -/
theorem kwProp_error {p : IProp} {w : Kw} {e : JErr} (h : kwProp J mk c js p w = .error e) :
    ∃ k j, jsonName J c p = some k ∧ alookup js (.str k) = some j ∧
      ((e = .raw .keyError ∧ Comp.str k ∉ w.unknown) ∨
        (convertIn J mk c p k j = .error e ∧ ∃ fs x, e = .boxed (.str k :: fs) x)) := by
  have hrem : ∀ {k : String}, removeKey w.unknown (.str k) = .error e → e = .raw .keyError ∧ Comp.str k ∉ w.unknown := by
    intro k h
    unfold removeKey at h
    split at h
    · cases h
    · next hk => cases h; exact ⟨rfl, hk⟩
  unfold kwProp at h
  split at h
  · cases h
  · next k hk =>
    split at h
    · cases h
    · next j hj =>
      refine ⟨k, j, hk, hj, ?_⟩
      split at h
      · split at h
        · next he => cases h; exact .inr (takeArg_boxed he)
        · split at h
          · next he => cases h; exact .inl (hrem he)
          · cases h
      · split at h
        · next he => cases h; exact .inl (hrem he)
        · split at h
          · next he => cases h; exact .inr (takeArg_boxed he)
          · cases h

/-- The key a property claims of the document. -/
def claims (J : Setup) (c : String) (js : List (Comp × Val)) (p : IProp) (k : String) : Prop :=
  jsonName J c p = some k ∧ Comp.str k ∈ js.map (·.1)

theorem kwProp_claims {p : IProp} {w w' : Kw} (hn : w.unknown.Nodup) (h : kwProp J mk c js p w = .ok w') :
    w'.unknown.Nodup ∧ (∀ k, claims J c js p k → Comp.str k ∈ w.unknown) ∧
      ∀ x, x ∈ w'.unknown ↔ x ∈ w.unknown ∧ ∀ k, claims J c js p k → x ≠ .str k := by
  rcases kwProp_ok h with ⟨rfl, h0⟩ | ⟨k0, j, h1, h2, ht, hr⟩
  · have hno : ∀ k, ¬ claims J c js p k := by
      intro k hk
      exact alookup_none_iff.mp (h0 k hk.1) hk.2
    exact ⟨hn, fun k hk => (hno k hk).elim, fun x => ⟨fun hx => ⟨hx, fun k hk => (hno k hk).elim⟩, fun hx => hx.1⟩⟩
  · have hr' := removeKey_ok hr hn
    have hm : Comp.str k0 ∈ w.unknown := by
      unfold removeKey at hr
      split at hr
      · assumption
      · cases hr
    have hc : claims J c js p k0 := ⟨h1, alookup_isSome_iff.mp (by rw [h2]; rfl)⟩
    have hu : ∀ k, claims J c js p k → k = k0 := fun k hk => by
      have := hk.1.symm.trans h1; exact Option.some.inj this
    refine ⟨hr'.1, fun k hk => hu k hk ▸ hm, fun x => ?_⟩
    rw [hr'.2]
    constructor
    · rintro ⟨h3, h4⟩; exact ⟨h3, fun k hk => hu k hk ▸ h4⟩
    · rintro ⟨h3, h4⟩; exact ⟨h3, h4 k0 hc⟩

/-- No two of the properties claim the same key. -/
def Apart (J : Setup) (c : String) (js : List (Comp × Val)) (ps : List IProp) : Prop :=
  ps.Pairwise (fun p q => ∀ k, claims J c js p k → ¬ claims J c js q k)

theorem kwProps_apart : ∀ (ps : List IProp) (w w' : Kw), w.unknown.Nodup → kwProps J mk c js ps w = .ok w' →
    Apart J c js ps ∧ ∀ p ∈ ps, ∀ k, claims J c js p k → Comp.str k ∈ w.unknown := by
  intro ps
  induction ps with
  | nil => intro w w' _ _; exact ⟨List.Pairwise.nil, fun p hp => by cases hp⟩
  | cons p ps ih =>
    intro w w' hn h
    rw [kwProps] at h
    split at h
    · cases h
    · next w1 hw1 =>
      obtain ⟨hn1, hc1, hx1⟩ := kwProp_claims hn hw1
      obtain ⟨ha, hm⟩ := ih w1 w' hn1 h
      refine ⟨List.Pairwise.cons (fun q hq k hk hk' => ?_) ha, ?_⟩
      · exact ((hx1 _).mp (hm q hq k hk')).2 k hk rfl
      · intro q hq k hk
        rcases List.mem_cons.mp hq with rfl | hq
        · exact hc1 k hk
        · exact ((hx1 _).mp (hm q hq k hk)).1

theorem kwProps_error : ∀ (ps : List IProp) (w : Kw) (e : JErr), w.unknown.Nodup → kwProps J mk c js ps w = .error e →
    (e = .raw .keyError ∧ ¬ (Apart J c js ps ∧ ∀ p ∈ ps, ∀ k, claims J c js p k → Comp.str k ∈ w.unknown)) ∨
    ∃ p ∈ ps, ∃ k j fs x, jsonName J c p = some k ∧ alookup js (.str k) = some j ∧
      convertIn J mk c p k j = .error e ∧ e = .boxed (.str k :: fs) x := by
  intro ps
  induction ps with
  | nil => intro w e _ h; cases h
  | cons p ps ih =>
    intro w e hn h
    rw [kwProps] at h
    split at h
    · next he =>
      cases h
      obtain ⟨k, j, hk, hj, ⟨rfl, hu⟩ | ⟨hc, fs, x, rfl⟩⟩ := kwProp_error he
      · refine .inl ⟨rfl, fun hh => hu (hh.2 p List.mem_cons_self k ⟨hk, ?_⟩)⟩
        exact alookup_isSome_iff.mp (by rw [hj]; rfl)
      · exact .inr ⟨p, List.mem_cons_self, k, j, fs, x, hk, hj, hc, rfl⟩
    · next w1 hw1 =>
      obtain ⟨hn1, hc1, hx1⟩ := kwProp_claims hn hw1
      rcases ih w1 e hn1 h with ⟨rfl, hh⟩ | ⟨q, hq, k, j, fs, x, h1⟩
      · refine .inl ⟨rfl, fun hh' => hh ⟨(List.pairwise_cons.mp hh'.1).2, fun q hq k hk => ?_⟩⟩
        refine (hx1 _).mpr ⟨hh'.2 q (List.mem_cons_of_mem _ hq) k hk, fun k' hk' he => ?_⟩
        cases he
        exact (List.pairwise_cons.mp hh'.1).1 q hq k hk' hk
      · exact .inr ⟨q, List.mem_cons_of_mem _ hq, k, j, fs, x, h1⟩

theorem ownKeys_iff : OwnKeys J c js ↔ Apart J c js (J.S.cls c).props := by
  unfold OwnKeys Apart claims
  have : ∀ p q : IProp, (∀ nm, Named J c p (some nm) → Named J c q (some nm) → ∀ j, (Comp.str nm, j) ∉ js) ↔
      ∀ k, jsonName J c p = some k ∧ Comp.str k ∈ js.map (·.1) → ¬ (jsonName J c q = some k ∧ Comp.str k ∈ js.map (·.1)) := by
    intro p q
    constructor
    · rintro h k ⟨h1, h2⟩ ⟨h3, _⟩
      obtain ⟨⟨_, j⟩, hj, rfl⟩ := List.mem_map.mp h2
      exact h k (named_iff.mpr h1) (named_iff.mpr h3) j hj
    · intro h nm h1 h2 j hj
      have hm : Comp.str nm ∈ js.map (·.1) := List.mem_map.mpr ⟨_, hj, rfl⟩
      exact h nm ⟨named_iff.mp h1, hm⟩ ⟨named_iff.mp h2, hm⟩
  simp only [this]

theorem mem_names {p : IProp} {k : String} (h : claims J c js p k) : Comp.str k ∈ js.map (·.1) := h.2

/-! ## C138 -/

/-- C138, where no key of the document is the name of two properties: the arguments are made, or a
`JsonConversionError` is raised, for the value of a property under its key. -/
theorem C138_partial {kw : List (String × Val)} {e : JErr} (hn : (js.map (·.1)).Nodup) (ho : OwnKeys J c js)
    (h : initKwargs J mk c (.dict js) kw = .error e) :
    ∃ p ∈ (J.S.cls c).props, ∃ (nm : String) (j : Val) (fs : FS) (x : Exc), Named J c p (some nm) ∧ (.str nm, j) ∈ js ∧
      e = .boxed (.str nm :: fs) x := by
  simp only [initKwargs, structOf] at h
  split at h
  · next e' he =>
    cases h
    rcases kwProps_error _ _ _ hn he with ⟨_, hh⟩ | ⟨p, hp, k, j, fs, x, h1, h2, _, h4⟩
    · exact (hh ⟨ownKeys_iff.mp ho, fun p _ k hk => mem_names hk⟩).elim
    · exact ⟨p, hp, k, j, fs, x, named_iff.mpr h1, AutoJson.alookup_mem h2, h4⟩
  · cases h

/-- If a key of the document is the name of two properties, an exception is raised, whatever the values are and
whatever else was passed. -/
theorem C138_refused {kw : List (String × Val)} (hn : (js.map (·.1)).Nodup) (ho : ¬ OwnKeys J c js) :
    ∃ e, initKwargs J mk c (.dict js) kw = .error e := by
  cases h : initKwargs J mk c (.dict js) kw with
  | error e => exact ⟨e, rfl⟩
  | ok r =>
    simp only [initKwargs, structOf] at h
    split at h
    · cases h
    · next w hw => exact (ho (ownKeys_iff.mpr (kwProps_apart _ _ _ hn hw).1)).elim

/-- The only exception that does not say where is a `KeyError`, and it means that a key is the name of two properties. -/
theorem C138_key_error {kw : List (String × Val)} {x : Exc} (hn : (js.map (·.1)).Nodup)
    (h : initKwargs J mk c (.dict js) kw = .error (.raw x)) : x = .keyError ∧ ¬ OwnKeys J c js := by
  refine ⟨?_, fun ho => ?_⟩
  · simp only [initKwargs, structOf] at h
    split at h
    · next e' he =>
      cases h
      rcases kwProps_error _ _ _ hn he with ⟨h1, _⟩ | ⟨p, hp, k, j, fs, x, _, _, _, h4⟩
      · cases h1; rfl
      · cases h4
    · cases h
  · obtain ⟨p, hp, nm, j, fs, x', _, _, h3⟩ := C138_partial hn ho h
    cases h3

/-! ## Output -/

theorem writeProps_append {e : Bool} {s : List (String × Out)} : ∀ (ps qs : List IProp) (rv : List (Comp × Val)),
    writeProps J e c s (ps ++ qs) rv = match writeProps J e c s ps rv with
      | .error x => .error x
      | .ok rv' => writeProps J e c s qs rv' := by
  intro ps
  induction ps with
  | nil => intro qs rv; rfl
  | cons p ps ih =>
    intro qs rv
    simp only [List.cons_append, writeProps]
    cases writeProp J e c s rv p with
    | error x => rfl
    | ok rv' => exact ih qs rv'

theorem writeProps_other {e : Bool} {s : List (String × Out)} {nm : String} : ∀ (ps : List IProp) (rv rv' : List (Comp × Val)),
    (∀ p ∈ ps, jsonName J c p ≠ some nm) → writeProps J e c s ps rv = .ok rv' →
    alookup rv' (.str nm) = alookup rv (.str nm) := by
  intro ps
  induction ps with
  | nil => intro rv rv' _ h; cases h; rfl
  | cons p ps ih =>
    intro rv rv' hn h
    simp only [writeProps] at h
    split at h
    · cases h
    · next rv1 h1 =>
      rw [ih rv1 rv' (fun q hq => hn q (List.mem_cons_of_mem _ hq)) h]
      have hp := hn p List.mem_cons_self
      unfold writeProp at h1
      split at h1
      · cases h1; rfl
      · split at h1
        · cases h1
        · split at h1
          · cases h1; rfl
          · next k hk =>
            have hne : Comp.str k ≠ .str nm := fun he => hp (by cases he; exact hk)
            unfold writeKey at h1
            repeat' split at h1
            all_goals cases h1
            all_goals first | rfl | (rw [Normalize.alookup_aset, if_neg hne])

/-- Objects of such a class are written all the same: under a name there is the value of the last property with that
name, and nothing of what the others hold. -/
theorem C138_written {e : Bool} {s : List (String × Val)} {l r : List IProp} {q : IProp} {nm : String} {j : Val}
    {d : List (Comp × Val)} (hp : (J.S.cls c).props = l ++ q :: r) (hq : Named J c q (some nm))
    (hr : ∀ p ∈ r, ¬ Named J c p (some nm)) (he : e = true ∨ q.extraneous = false)
    (hc : Spec.Converts J e c s q (.ok j)) (h : toJson J e (.rcd c s) = .ok (.dict d)) : alookup d (.str nm) = some j := by
  have h' : recordOut J e c (outs J e s) = .ok d := by
    simp only [toJson] at h
    cases hro : recordOut J e c (outs J e s) with
    | error x => rw [hro] at h; cases h
    | ok d' => rw [hro] at h; cases h; rfl
  unfold recordOut at h'
  rw [hp, writeProps_append] at h'
  split at h'
  · cases h'
  · next rv h1 =>
    simp only [writeProps] at h'
    split at h'
    · cases h'
    · next rv1 h2 =>
      rw [writeProps_other r rv1 d (fun p hpr he => hr p hpr (named_iff.mpr he)) h']
      obtain ⟨h3, h4⟩ := converts_iff hc
      have hsel : (!e && q.extraneous) = false := by rcases he with rfl | he <;> simp [*]
      simp only [writeProp, hsel, Bool.false_eq_true, if_false, h3, named_iff.mp hq, h4, writeKey] at h2
      cases h2
      rw [Normalize.alookup_aset, if_pos rfl]

/-! ## Two properties named `x` -/

def sharedCls : String → Ident.ICls
  | "Point" => { props := [⟨"a", false, [], none⟩, ⟨"b", false, [], none⟩] }
  | _ => {}

def sharedInfo : String → String → JInfo
  | "Point", _ => { json := some { jsonName := some (some "x") } }
  | _, _ => {}

def sharedJ : Setup :=
  { S := exSchema sharedCls, info := sharedInfo, isJson := fun _ => false, isa := fun _ _ => true
    make := fun _ _ => .error .typeError, loads := fun _ => .error .valueCheck }

/-- C138 is violated: `from_json(Point, {"x": 1})` raises `KeyError`. -/
theorem C138_violated : ¬ C138_statement := by
  intro h
  exact h sharedJ (make sharedJ 1) "Point" [(.str "x", .int 1)] [] .keyError (by decide +kernel) (by with_unfolding_all rfl)

example : fromJson sharedJ 5 "Point" (.dict [(.str "x", .int 1)]) = .error (.raw .keyError) := by with_unfolding_all rfl

/-- Without the key, nothing is wrong … -/
example : OwnKeys sharedJ "Point" [(.str "y", .int 1)] := by
  rw [ownKeys_iff]
  refine List.Pairwise.cons (fun q _ k hk _ => ?_) (List.Pairwise.cons (fun q hq => by cases hq) .nil)
  obtain ⟨h1, h2⟩ := hk
  have : k = "x" := (Option.some.inj h1).symm
  subst this
  revert h2; decide +kernel

/-- … and such an object is written with one value only. -/
example : toJson sharedJ false (.rcd "Point" [("a", .int 1), ("b", .int 2)]) = .ok (.dict [(.str "x", .int 2)]) := by
  with_unfolding_all rfl

/-- `C138_written` applies. -/
example {d : List (Comp × Val)} (h : toJson sharedJ false (.rcd "Point" [("a", .int 1), ("b", .int 2)]) = .ok (.dict d)) :
    alookup d (.str "x") = some (.int 2) :=
  C138_written (l := [⟨"a", false, [], none⟩]) (q := ⟨"b", false, [], none⟩) (r := []) rfl
    (.explicit (o := { jsonName := some (some "x") }) rfl rfl) (fun p hp => by cases hp) (.inr rfl)
    (.auto (o := { jsonName := some (some "x") }) (v := .int 2) rfl rfl rfl) h

end Normalize.Json
