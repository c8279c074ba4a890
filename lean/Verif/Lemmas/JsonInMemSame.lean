import Verif.Lemmas.JsonInMemTree

/-! JSON input does the same on objects in memory as on trees, function by function. -/

namespace Normalize.JsonInMem

open Normalize.Mem Normalize.Spec
open Ident (IProp Ty ItemTy CollKind)
open Json (JErr)

theorem same_grown {ε α β : Type} {R : Mem → α → β → Prop} {m m1 : Mem} {a : Except ε α} {q : Except Exc (Mem × β)}
    (hg : Grown m m1) (h : SameIn R m1 a q) : SameIn R m a q := by
  cases a with
  | error e => exact h
  | ok x =>
    obtain ⟨m', b, h1, h2, h3⟩ := h
    exact ⟨m', b, h1, grown_trans hg h2, h3⟩

theorem same_ok {ε α β : Type} {R : Mem → α → β → Prop} {m : Mem} {a : α} {b : β} (h : R m a b) :
    SameIn (ε := ε) R m (.ok a) (.ok (m, b)) := ⟨m, b, rfl, grown_refl m, h⟩

theorem same_err {ε α β : Type} {R : Mem → α → β → Prop} {m : Mem} (e : ε) (e' : Exc) :
    SameIn R m (.error e : Except ε α) (.error e' : Except Exc (Mem × β)) := ⟨e', rfl⟩

theorem same_step {ε ε' α β γ δ : Type} {R : Mem → α → β → Prop} {R' : Mem → γ → δ → Prop} {m : Mem}
    {a : Except ε α} {q : Except Exc (Mem × β)} {A : Except ε' γ} {Q : Except Exc (Mem × δ)} (h : SameIn R m a q)
    (he : ∀ e e', a = .error e → q = .error e' → SameIn R' m A Q)
    (ho : ∀ m' x y, a = .ok x → q = .ok (m', y) → Grown m m' → R m' x y → SameIn R' m' A Q) : SameIn R' m A Q := by
  cases a with
  | error e =>
    obtain ⟨e', rfl⟩ := h
    exact he e e' rfl rfl
  | ok x =>
    obtain ⟨m', y, rfl, hg, hr⟩ := h
    exact same_grown hg (ho m' x y rfl rfl hg hr)

/-- Both raise an exception and we are done, or both go on. -/
macro "both" h:term "with" m:ident x:ident y:ident hg:ident hr:ident : tactic =>
  `(tactic| (refine same_step $h (fun e e' h1 h2 => by rw [h1, h2]; exact same_err _ _) (fun $m $x $y h1 h2 $hg $hr => ?_)
             rw [h1, h2]))

theorem same_lift {α β : Type} {R : Mem → α → β → Prop} {m : Mem} {a : Except Exc α} {q : Except Exc (Mem × β)}
    (h : SameIn R m a q) : SameIn R m (Json.lift a) q := by
  cases a <;> exact h

theorem same_boxing {α β : Type} {R : Mem → α → β → Prop} {m : Mem} {k : Comp} {a : Except JErr α}
    {q : Except Exc (Mem × β)} (h : SameIn R m a q) : SameIn R m (Json.boxing k a) q := by
  cases a <;> exact h

theorem same_made {m : Mem} {t : Val} {o : Obj} (h : Looks (alloc m o).1 t (alloc m o).2) :
    SameIn (ε := JErr) Looks m (.ok t) (made m o) := ⟨_, _, rfl, grown_alloc m o, h⟩

/-- Functions on trees and on objects that do the same, in states after `m0`. -/
def Sim (m0 : Mem) (f : Val → Except JErr Val) (g : Fn) : Prop :=
  ∀ m t r, Grown m0 m → Looks m t r → SameIn Looks m (f t) (g m r)

def SimMk (m0 : Mem) (mk : Json.Mk) (mk' : Mk) : Prop := ∀ c, Sim m0 (mk c) (mk' c)

variable {W : World} {m0 : Mem} {mk : Json.Mk} {mk' : Mk}

theorem sameFn_cases {f : Option (Val → Except Exc Val)} {g : Option Fn} (h : SameFn f g) :
    (f = none ∧ g = none) ∨ ∃ f' g', f = some f' ∧ g = some g' ∧ Sim m0 (fun t => Json.lift (f' t)) g' := by
  cases f with
  | none =>
    cases g with
    | none => exact Or.inl ⟨rfl, rfl⟩
    | some g => exact h.elim
  | some f =>
    cases g with
    | none => exact h.elim
    | some g => exact Or.inr ⟨f, g, rfl, rfl, fun m t r _ hl => same_lift (h m t r hl)⟩

theorem instOf_same (hW : FollowsIn W m0) {m : Mem} {t : Val} {r : Ref} (h : Looks m t r) (ty : Ty) :
    instOf W m r ty = Json.instOf W.J ty t := by
  cases ty with
  | other n => exact hW.isa n m t r h
  | cls c =>
    have hd := looks_deref h
    have hc : clsOf (deref m r) = Json.clsOf t := by
      cases t <;> simp only [DLooks] at hd
      case atom a => rw [hd]; rfl
      all_goals
        obtain ⟨rs, hd, _⟩ := hd
        rw [hd]; rfl
    simp only [instOf, Json.instOf, hc]
    rfl

theorem anyInst_same (hW : FollowsIn W m0) {m : Mem} {t : Val} {r : Ref} (h : Looks m t r) (tys : List Ty) :
    tys.any (instOf W m r) = tys.any (fun ty => Json.instOf W.J ty t) := by
  have : instOf W m r = fun ty => Json.instOf W.J ty t := funext (fun ty => instOf_same hW h ty)
  rw [this]

theorem callTy_same (hW : FollowsIn W m0) (hmk : SimMk m0 mk mk') (ty : Ty) :
    Sim m0 (Json.callTy W.J mk ty) (callTy W mk' ty) := by
  cases ty with
  | cls c => exact hmk c
  | other n => exact fun m t r _ h => same_lift (hW.make n m t r h)

theorem coerceVal_same (hW : FollowsIn W m0) (hmk : SimMk m0 mk mk') (c : String) (p : IProp) :
    Sim m0 (Json.coerceVal W.J mk (W.J.info c p.name) p.types) (coerceVal W mk' c p) := by
  intro m t r hG h
  unfold Json.coerceVal coerceVal
  rcases sameFn_cases (m0 := m0) (hW.coerce c p.name) with ⟨h1, h2⟩ | ⟨f, g, h1, h2, h3⟩
  · rw [h1, h2]
    cases p.types with
    | nil => exact same_err _ _
    | cons ty tys =>
      cases tys with
      | nil => exact callTy_same hW hmk ty m t r hG h
      | cons _ _ => exact same_err _ _
  · rw [h1, h2]
    exact h3 m t r hG h

theorem runCheck_same (hW : FollowsIn W m0) (c : String) (p : IProp) {m : Mem} {t : Val} {r : Ref}
    (h : Looks m t r) : SameIn LooksO m (Json.runCheck (W.J.info c p.name) t) (runCheck W c p m r) := by
  have h1 := hW.check c p.name
  unfold Json.runCheck runCheck
  cases ha : (W.J.info c p.name).check with
  | none =>
    cases hb : W.check c p.name with
    | none => exact same_ok h
    | some g => rw [ha, hb] at h1; exact h1.elim
  | some f =>
    cases hb : W.check c p.name with
    | none => rw [ha, hb] at h1; exact h1.elim
    | some g =>
      rw [ha, hb] at h1
      simp only
      rw [h1 m t r h]
      cases f t with
      | error e => exact same_err _ _
      | ok b =>
        cases b with
        | false => exact same_err _ _
        | true => exact same_ok h

theorem typeSafe_same (hW : FollowsIn W m0) (hmk : SimMk m0 mk mk') (c : String) (p : IProp) {m : Mem} {t : Val}
    {r : Ref} (hG : Grown m0 m) (h : Looks m t r) :
    SameIn LooksO m (Json.typeSafe W.J mk (W.J.info c p.name) p.types t) (typeSafe W mk' c p m r) := by
  unfold Json.typeSafe typeSafe
  have hn : (r = .atom .none ∧ (W.J.info c p.name).required = true ∧ p.types = []) ↔
      (t = .none ∧ (W.J.info c p.name).required = true ∧ p.types = []) := and_congr_left' (looks_atom_iff h .none)
  by_cases h1 : t = .none ∧ (W.J.info c p.name).required = true ∧ p.types = []
  · rw [if_pos h1, if_pos (hn.mpr h1)]
    exact same_err _ _
  · rw [if_neg h1, if_neg (fun h => h1 (hn.mp h)), anyInst_same hW h]
    split
    · have h2 := coerceVal_same hW hmk c p m t r hG h
      revert h2
      generalize Json.coerceVal W.J mk (W.J.info c p.name) p.types t = a
      generalize coerceVal W mk' c p m r = q
      intro h2
      cases a with
      | error e =>
        obtain ⟨e', rfl⟩ := h2
        exact same_err _ _
      | ok w =>
        obtain ⟨m', x, rfl, hg, hl⟩ := h2
        refine same_grown hg ?_
        simp only
        rw [anyInst_same hW hl]
        split
        · exact runCheck_same hW c p hl
        · have hn : (x = .atom .none ∧ (W.J.info c p.name).required = false) ↔
              (w = .none ∧ (W.J.info c p.name).required = false) := and_congr_left' (looks_atom_iff hl .none)
          by_cases h3 : w = .none ∧ (W.J.info c p.name).required = false
          · rw [if_pos h3, if_pos (hn.mpr h3)]
            exact same_ok trivial
          · rw [if_neg h3, if_neg (fun h => h3 (hn.mp h))]
            exact same_err _ _
    · exact runCheck_same hW c p h

theorem initProp_same (hW : FollowsIn W m0) (hmk : SimMk m0 mk mk') (c : String) (p : IProp) {m : Mem} {t : Val}
    {r : Ref} {st : List (String × Val)} {s : List (String × Ref)} (hG : Grown m0 m) (h : Looks m t r)
    (hs : Ents m st s) : SameIn Ents m (Json.initProp W.J mk c p t st) (initProp W mk' c p m r s) := by
  unfold Json.initProp initProp
  have h2 := typeSafe_same hW hmk c p hG h
  revert h2
  generalize Json.typeSafe W.J mk (W.J.info c p.name) p.types t = a
  generalize typeSafe W mk' c p m r = q
  intro h2
  cases a with
  | error e =>
    obtain ⟨e', rfl⟩ := h2
    exact same_err _ _
  | ok w =>
    obtain ⟨m', x, rfl, hg, hl⟩ := h2
    refine same_grown hg ?_
    have hs := ents_grown hg hs
    cases w with
    | none =>
      cases x with
      | some x => exact hl.elim
      | none =>
        simp only
        split
        · exact same_err _ _
        · exact same_ok hs
    | some w =>
      cases x with
      | none => exact hl.elim
      | some x => exact same_ok (ents_aset hs hl)

theorem initArgs_same (hW : FollowsIn W m0) (hmk : SimMk m0 mk mk') (c : String) (kt : List (String × Val)) :
    ∀ (m : Mem) (kw : List (String × Ref)) (st : List (String × Val)) (s : List (String × Ref)), Grown m0 m →
    Ents m kt kw → Ents m st s → SameIn Ents m (Json.initArgs W.J mk c kt st) (initArgs W mk' c kw m s) := by
  induction kt with
  | nil =>
    intro m kw st s _ h hs
    cases h
    exact same_ok hs
  | cons e kt ih =>
    obtain ⟨k, t⟩ := e
    intro m kw st s hG h hs
    cases h with
    | @cons _ b _ bs h1 h2 =>
      obtain ⟨k', r⟩ := b
      obtain ⟨hk, hl⟩ := h1
      simp only at hk
      subst hk
      simp only [Json.initArgs, initArgs]
      cases Json.findProp W.J c k with
      | none => exact same_err _ _
      | some p =>
        simp only
        both (initProp_same hW hmk c p hG hl hs) with m' x y hg hr
        exact ih m' bs x y (grown_trans hG hg) (ents_grown hg h2) hr

theorem initDefault_same (hW : FollowsIn W m0) (hmk : SimMk m0 mk mk') (c : String) (p : IProp) {m : Mem}
    {st : List (String × Val)} {s : List (String × Ref)} (hG : Grown m0 m) (hs : Ents m st s) :
    SameIn Ents m (Json.initDefault W.J mk c p st) (initDefault W mk' c p m s) := by
  have h1 := hW.default c p.name
  unfold Json.initDefault initDefault
  cases ha : (W.J.info c p.name).default with
  | none =>
    cases hb : W.default c p.name with
    | none =>
      simp only
      split
      · exact same_err _ _
      · exact same_ok hs
    | some g => rw [ha, hb] at h1; exact h1.elim
  | some v =>
    cases hb : W.default c p.name with
    | none => rw [ha, hb] at h1; exact h1.elim
    | some g =>
      rw [ha, hb] at h1
      obtain ⟨m', r, h2, hg, hl⟩ := h1 m hG
      simp only [h2]
      exact same_grown hg (initProp_same hW hmk c p (grown_trans hG hg) hl (ents_grown hg hs))

theorem initMissing_same (hW : FollowsIn W m0) (hmk : SimMk m0 mk mk') (c : String) (ps : List IProp) :
    ∀ (m : Mem) (st : List (String × Val)) (s : List (String × Ref)), Grown m0 m → Ents m st s →
    SameIn Ents m (Json.initMissing W.J mk c ps st) (initMissing W mk' c ps m s) := by
  induction ps with
  | nil => exact fun m st s _ hs => same_ok hs
  | cons p ps ih =>
    intro m st s hG hs
    simp only [Json.initMissing, initMissing]
    both (initDefault_same hW hmk c p hG hs) with m' x y hg hr
    exact ih m' x y (grown_trans hG hg) hr

theorem eager_same (hW : FollowsIn W m0) (c : String) (p : IProp) : eager W c p = Json.eager W.J c p := by
  have h1 := hW.default c p.name
  have h2 : (W.default c p.name).isSome = (W.J.info c p.name).default.isSome := by
    cases ha : (W.J.info c p.name).default <;> cases hb : W.default c p.name <;> rw [ha, hb] at h1 <;>
      first | rfl | exact h1.elim
  unfold eager Json.eager
  rw [h2]

theorem initRecord_same (hW : FollowsIn W m0) (hmk : SimMk m0 mk mk') (c : String) {m : Mem}
    {kt : List (String × Val)} {kw : List (String × Ref)} (hG : Grown m0 m) (h : Ents m kt kw) :
    SameIn Looks m (Json.initRecord W.J mk c kt) (initRecord W mk' c m kw) := by
  have hps : (W.J.S.cls c).props.filter (fun p => eager W c p && (alookup kw p.name).isNone) =
      (W.J.S.cls c).props.filter (fun p => Json.eager W.J c p && (alookup kt p.name).isNone) := by
    congr 1
    funext p
    have h1 := ents_isSome p.name h
    have h2 : (alookup kw p.name).isNone = (alookup kt p.name).isNone := by
      rw [← Option.not_isSome, ← Option.not_isSome, h1]
    rw [eager_same hW, h2]
  unfold Json.initRecord initRecord
  rw [hps]
  both (initArgs_same hW hmk c kt m kw [] [] hG h .nil) with m1 x y hg hr
  simp only
  both (initMissing_same hW hmk c
    ((W.J.S.cls c).props.filter (fun p => Json.eager W.J c p && (alookup kt p.name).isNone)) m1 x y
    (grown_trans hG hg) hr) with m2 x2 y2 hg2 hr2
  exact same_made (looks_rcd c hr2)

theorem valueInit_same (hW : FollowsIn W m0) (hmk : SimMk m0 mk mk') (types : List Ty) :
    Sim m0 (Json.valueInit W.J mk types) (valueInit W mk' types) := by
  intro m t r hG h
  cases types with
  | nil => exact same_ok h
  | cons ty tys =>
    cases tys with
    | cons _ _ => cases ty <;> exact same_ok h
    | nil =>
      cases ty with
      | cls d =>
        simp only [Json.valueInit, valueInit]
        split
        · exact hmk d m t r hG h
        · exact same_ok h
      | other n =>
        simp only [Json.valueInit, valueInit]
        rcases sameFn_cases (m0 := m0) (hW.typeFromJson n) with ⟨h1, h2⟩ | ⟨f, g, h1, h2, h3⟩
        · rw [h1, h2]; exact same_ok h
        · rw [h1, h2]; exact h3 m t r hG h

theorem propIn_same (hW : FollowsIn W m0) (c : String) (p : IProp) :
    Sim m0 (Json.propIn (W.J.info c p.name)) (propIn W c p) := by
  intro m t r hG h
  unfold Json.propIn propIn
  rcases sameFn_cases (m0 := m0) (hW.jin c p.name) with ⟨h1, h2⟩ | ⟨f, g, h1, h2, h3⟩
  · rw [h1, h2]; exact same_ok h
  · rw [h1, h2]; exact h3 m t r hG h

theorem convertIn_same (hW : FollowsIn W m0) (hmk : SimMk m0 mk mk') (c k : String) (p : IProp) :
    Sim m0 (Json.convertIn W.J mk c p k) (convertIn W mk' c p) := by
  intro m t r hG h
  unfold Json.convertIn convertIn
  refine same_boxing ?_
  both (propIn_same hW c p m t r hG h) with m' x y hg hr
  exact valueInit_same hW hmk p.types m' x y (grown_trans hG hg) hr

theorem takeArg_same (hW : FollowsIn W m0) (hmk : SimMk m0 mk mk') (c k : String) (p : IProp) {m : Mem} {t : Val}
    {r : Ref} {at' : List (String × Val)} {ar : List (String × Ref)} (hG : Grown m0 m) (h : Looks m t r)
    (ha : Ents m at' ar) : SameIn Ents m (Json.takeArg W.J mk c p k t at') (takeArg W mk' c p m r ar) := by
  unfold Json.takeArg takeArg
  rw [ents_isSome p.name ha]
  split
  · exact same_ok ha
  · both (convertIn_same hW hmk c k p m t r hG h) with m' x y hg hr
    exact same_ok (ents_append (ents_grown hg ha) (.cons ⟨rfl, hr⟩ .nil))

/-- The keyword arguments look alike, and the same keys are unknown. -/
def KwLooks (m : Mem) (a : Json.Kw) (b : Kw) : Prop := Ents m a.args b.args ∧ a.unknown = b.unknown

theorem kwProp_same (hW : FollowsIn W m0) (hmk : SimMk m0 mk mk') (c : String) {js : List (Comp × Val)}
    {rs : List (Comp × Ref)} (p : IProp) {m : Mem} {a : Json.Kw} {b : Kw} (hG : Grown m0 m) (hj : Ents m js rs)
    (h : KwLooks m a b) : SameIn KwLooks m (Json.kwProp W.J mk c js p a) (kwProp W mk' c rs p m b) := by
  obtain ⟨a, ua⟩ := a
  obtain ⟨b, ub⟩ := b
  obtain ⟨h1, h2⟩ := h
  simp only at h1 h2
  subst h2
  unfold Json.kwProp kwProp
  cases Json.jsonName W.J c p with
  | none => exact same_ok ⟨h1, rfl⟩
  | some k =>
    have h3 := ents_lookup (.str k) hj
    simp only
    revert h3
    generalize alookup js (.str k) = x
    generalize alookup rs (.str k) = y
    intro h3
    cases x with
    | none =>
      cases y with
      | none => exact same_ok ⟨h1, rfl⟩
      | some y => exact h3.elim
    | some x =>
      cases y with
      | none => exact h3.elim
      | some y =>
        simp only
        have h4 := takeArg_same hW hmk c k p hG h3 h1
        revert h4
        generalize Json.takeArg W.J mk c p k x a = u
        generalize takeArg W mk' c p m y b = v
        intro h4
        unfold Json.removeKey
        cases u with
        | error e =>
          obtain ⟨e', rfl⟩ := h4
          split
          · exact same_err _ _
          · split <;> exact same_err _ _
        | ok u =>
          obtain ⟨m', v, rfl, hg, hr⟩ := h4
          simp only
          by_cases hu : Comp.str k ∈ ua
          · simp only [if_pos hu]
            split <;> exact same_grown hg (same_ok ⟨hr, rfl⟩)
          · simp only [if_neg hu]
            split <;> exact same_err _ _

theorem kwProps_same (hW : FollowsIn W m0) (hmk : SimMk m0 mk mk') (c : String) {js : List (Comp × Val)}
    {rs : List (Comp × Ref)} (ps : List IProp) : ∀ (m : Mem) (a : Json.Kw) (b : Kw), Grown m0 m → Ents m js rs →
    KwLooks m a b → SameIn KwLooks m (Json.kwProps W.J mk c js ps a) (kwProps W mk' c rs ps m b) := by
  induction ps with
  | nil => exact fun m a b _ _ h => same_ok h
  | cons p ps ih =>
    intro m a b hG hj h
    simp only [Json.kwProps, kwProps]
    both (kwProp_same hW hmk c p hG hj h) with m' x y hg hr
    exact ih m' x y (grown_trans hG hg) (ents_grown hg hj) hr

theorem withUnknown_same {js : List (Comp × Val)} {rs : List (Comp × Ref)} {m : Mem} {a : Json.Kw} {b : Kw}
    (hj : Ents m js rs) (h : KwLooks m a b) :
    SameIn (ε := JErr) Ents m (.ok (Json.withUnknown js a)) (.ok (withUnknown rs m b)) := by
  obtain ⟨a, ua⟩ := a
  obtain ⟨b, ub⟩ := b
  obtain ⟨h1, h2⟩ := h
  simp only at h1 h2
  subst h2
  unfold Json.withUnknown withUnknown
  simp only
  split
  · exact same_ok h1
  · have h3 := copyAll_same (ents_filter (fun k => decide (k ∈ ua)) hj)
    have hg := grown_trans h3.1 (grown_alloc (copyAll (unclaimed rs ⟨b, ua⟩) m).1
      (.dict (copyAll (unclaimed rs ⟨b, ua⟩) m).2))
    exact ⟨_, _, rfl, hg, ents_aset (ents_grown hg h1) (looks_dict h3.2)⟩

theorem initKwargs_same (hW : FollowsIn W m0) (hmk : SimMk m0 mk mk') (c : String) {m : Mem} {t : Val} {r : Ref}
    (hG : Grown m0 m) (h : Looks m t r) :
    SameIn Ents m (Json.initKwargs W.J mk c t []) (initKwargs W mk' c m r) := by
  have hd := looks_deref h
  have hs : (∃ e e', Json.structOf t = .error e ∧ structOf (deref m r) = .error e') ∨
      ∃ js rs, Json.structOf t = .ok js ∧ structOf (deref m r) = .ok rs ∧ Ents m js rs := by
    cases t with
    | atom a =>
      have hd : deref m r = .atom a := hd
      rw [hd]
      cases a with
      | none => exact Or.inr ⟨[], [], rfl, rfl, .nil⟩
      | _ => exact Or.inl ⟨_, _, rfl, rfl⟩
    | dict ts =>
      obtain ⟨rs, hd, he⟩ := hd
      rw [hd]
      exact Or.inr ⟨ts, rs, rfl, rfl, he⟩
    | list ts => obtain ⟨rs, hd, he⟩ := hd; rw [hd]; exact Or.inl ⟨_, _, rfl, rfl⟩
    | lcoll _ ts => obtain ⟨rs, hd, he⟩ := hd; rw [hd]; exact Or.inl ⟨_, _, rfl, rfl⟩
    | dcoll _ ts => obtain ⟨rs, hd, he⟩ := hd; rw [hd]; exact Or.inl ⟨_, _, rfl, rfl⟩
    | rcd _ ts => obtain ⟨rs, hd, he⟩ := hd; rw [hd]; exact Or.inl ⟨_, _, rfl, rfl⟩
  unfold Json.initKwargs initKwargs
  rcases hs with ⟨e, e', h1, h2⟩ | ⟨js, rs, h1, h2, hj⟩
  · rw [h1, h2]; exact same_err _ _
  · rw [h1, h2]
    simp only
    have h3 := kwProps_same hW hmk c (W.J.S.cls c).props m ⟨[], js.map (·.1)⟩ ⟨[], rs.map (·.1)⟩ hG hj
      ⟨.nil, (ents_keys hj).symm⟩
    revert h3
    generalize Json.kwProps W.J mk c js (W.J.S.cls c).props ⟨[], js.map (·.1)⟩ = u
    generalize kwProps W mk' c rs (W.J.S.cls c).props m ⟨[], rs.map (·.1)⟩ = v
    intro h3
    cases u with
    | error e => obtain ⟨e', rfl⟩ := h3; exact same_err _ _
    | ok u =>
      obtain ⟨m', v, rfl, hg, hr⟩ := h3
      exact same_grown hg (withUnknown_same (ents_grown hg hj) hr)

theorem decode_same (hW : FollowsIn W m0) : Sim m0 (Json.decode W.J) (decode W) := by
  intro m t r hG h
  by_cases hs : ∃ s, t = .atom (.str s)
  · obtain ⟨s, rfl⟩ := hs
    rw [(looks_atom_iff h (.str s)).mpr rfl]
    exact same_lift (hW.loads s m)
  · have h1 : Json.decode W.J t = .ok t := by
      unfold Json.decode
      split
      · exact absurd ⟨_, rfl⟩ hs
      · rfl
    have h2 : decode W m r = .ok (m, r) := by
      unfold decode
      split
      · exact absurd ⟨_, (looks_atom_iff h _).mp rfl⟩ hs
      · rfl
    rw [h1, h2]
    exact same_ok h

/-- What `JsonRecord.__init__` does after decoding. -/
theorem mkJson_after (hW : FollowsIn W m0) (hmk : SimMk m0 mk mk') (c : String) {m : Mem} {u : Val} {v : Ref}
    (hG : Grown m0 m) (h : Looks m u v) : SameIn Looks m
    (match Json.decode W.J u with
      | .error e => .error e
      | .ok j' =>
        match Json.initKwargs W.J mk c j' [] with
        | .error e => .error e
        | .ok kw => Json.initRecord W.J mk c kw)
    (match decode W m v with
      | .error e => .error e
      | .ok (m2, j') =>
        match initKwargs W mk' c m2 j' with
        | .error e => .error e
        | .ok (m3, kw) => initRecord W mk' c m3 kw) := by
  both (decode_same hW m u v hG h) with m2 x y hg hr
  simp only
  both (initKwargs_same hW hmk c (grown_trans hG hg) hr) with m3 x3 y3 hg3 hr3
  exact initRecord_same hW hmk c (grown_trans (grown_trans hG hg) hg3) hr3

theorem mkJson_same (hW : FollowsIn W m0) (hmk : SimMk m0 mk mk') (c : String) :
    Sim m0 (Json.mkJson W.J mk c) (mkJson W mk' c) := by
  intro m t r hG h
  unfold Json.mkJson mkJson
  both (decode_same hW m t r hG h) with m1 u v hg hr
  simp only
  have hG := grown_trans hG hg
  by_cases hn : u = .atom .none
  · subst hn
    rw [if_pos ((looks_atom_iff hr .none).mpr rfl)]
    exact initRecord_same hW hmk c hG .nil
  · rw [if_neg (fun h => hn ((looks_atom_iff hr .none).mp h))]
    have fin := mkJson_after hW hmk c hG hr
    cases u with
    | atom a =>
      cases a with
      | none => exact absurd rfl hn
      | _ => exact fin
    | _ => exact fin

theorem falsy_same {m : Mem} {t : Val} {r : Ref} (h : Looks m t r) : falsy W (deref m r) = Json.falsy W.J t := by
  have hd := looks_deref h
  have hE : ∀ {α β : Type} {P : α → β → Prop} {xs : List α} {ys : List β}, List.Forall₂ P xs ys →
      ys.isEmpty = xs.isEmpty := by
    intro α β P xs ys h
    cases h <;> rfl
  cases t with
  | atom a =>
    have hd : deref m r = .atom a := hd
    rw [hd]; rfl
  | list ts => obtain ⟨rs, hd, he⟩ := hd; rw [hd]; exact hE he
  | lcoll _ ts => obtain ⟨rs, hd, he⟩ := hd; rw [hd]; exact hE he
  | dict ts => obtain ⟨rs, hd, he⟩ := hd; rw [hd]; exact hE he
  | dcoll _ ts => obtain ⟨rs, hd, he⟩ := hd; rw [hd]; exact hE he
  | rcd _ ts => obtain ⟨rs, hd, he⟩ := hd; rw [hd]; rfl

theorem namedArgs_same {m : Mem} {ts : List (Comp × Val)} {rs : List (Comp × Ref)} (h : Ents m ts rs) :
    (∃ e e', Json.namedArgs ts = .error e ∧ namedArgs rs = .error e') ∨
      ∃ kt kw, Json.namedArgs ts = .ok kt ∧ namedArgs rs = .ok kw ∧ Ents m kt kw := by
  unfold Ents at h
  induction h with
  | nil => exact Or.inr ⟨[], [], rfl, rfl, .nil⟩
  | @cons a b as bs h1 h2 ih =>
    obtain ⟨k1, a⟩ := a
    obtain ⟨k2, b⟩ := b
    obtain ⟨hk, hl⟩ := h1
    simp only at hk
    subst hk
    cases k1 with
    | str k =>
      simp only [Json.namedArgs, namedArgs]
      rcases ih with ⟨e, e', h3, h4⟩ | ⟨kt, kw, h3, h4, h5⟩
      · rw [h3, h4]; exact Or.inl ⟨_, _, rfl, rfl⟩
      · rw [h3, h4]; exact Or.inr ⟨_, _, rfl, rfl, .cons ⟨rfl, hl⟩ h5⟩
    | int i => exact Or.inl ⟨_, _, rfl, rfl⟩
    | none => exact Or.inl ⟨_, _, rfl, rfl⟩

theorem mkPlain_same (hW : FollowsIn W m0) (hmk : SimMk m0 mk mk') (c : String) :
    Sim m0 (Json.mkPlain W.J mk c) (mkPlain W mk' c) := by
  intro m t r hG h
  unfold Json.mkPlain mkPlain
  rw [falsy_same h]
  split
  · exact initRecord_same hW hmk c hG .nil
  · have hd := looks_deref h
    cases t with
    | atom a =>
      have hd : deref m r = .atom a := hd
      rw [hd]; exact same_err _ _
    | list ts => obtain ⟨rs, hd, he⟩ := hd; rw [hd]; exact same_err _ _
    | lcoll _ ts => obtain ⟨rs, hd, he⟩ := hd; rw [hd]; exact same_err _ _
    | rcd _ ts => obtain ⟨rs, hd, he⟩ := hd; rw [hd]; exact same_err _ _
    | dict ts =>
      obtain ⟨rs, hd, he⟩ := hd
      rw [hd]
      simp only
      rcases namedArgs_same he with ⟨e, e', h3, h4⟩ | ⟨kt, kw, h3, h4, h5⟩
      · rw [h3, h4]; exact same_err _ _
      · rw [h3, h4]; exact initRecord_same hW hmk c hG h5
    | dcoll _ ts =>
      obtain ⟨rs, hd, he⟩ := hd
      rw [hd]
      simp only
      rcases namedArgs_same he with ⟨e, e', h3, h4⟩ | ⟨kt, kw, h3, h4, h5⟩
      · rw [h3, h4]; exact same_err _ _
      · rw [h3, h4]; exact initRecord_same hW hmk c hG h5

theorem isItem_same (hW : FollowsIn W m0) {m : Mem} {t : Val} {r : Ref} (h : Looks m t r) (it : ItemTy) :
    isItem W m r it = Json.isItem W.J it t := by
  cases it with
  | one ty => exact instOf_same hW h ty
  | tup tys => exact anyInst_same hW h tys

theorem coerceItem_same (hW : FollowsIn W m0) (hmk : SimMk m0 mk mk') (it : ItemTy) :
    Sim m0 (Json.coerceItem W.J mk it) (coerceItem W mk' it) := by
  intro m t r hG h
  unfold Json.coerceItem coerceItem
  rw [isItem_same hW h]
  split
  · exact same_ok h
  · cases it with
    | tup tys => exact same_err _ _
    | one ty =>
      simp only
      both (callTy_same hW hmk ty m t r hG h) with m' x y hg hr
      exact same_ok hr

theorem mapM_same {f : Val → Except JErr Val} {g : Fn} (hf : Sim m0 f g) (ts : List Val) : ∀ (m : Mem) (rs : List Ref),
    Grown m0 m → Items m ts rs → SameIn Items m (mapE f ts) (Mem.mapM g rs m) := by
  induction ts with
  | nil =>
    intro m rs _ h
    cases h
    exact same_ok .nil
  | cons t ts ih =>
    intro m rs hG h
    cases h with
    | @cons _ b _ bs h1 h2 =>
      simp only [mapE, Mem.mapM]
      both (hf m t b hG h1) with m' x y hg hr
      simp only
      both (ih m' bs (grown_trans hG hg) (items_grown hg h2)) with m2 xs ys hg2 hr2
      exact same_ok (.cons (looks_grown hg2 hr) hr2)

/-- A function on entries that leaves the key alone. -/
def SimEnt (m0 : Mem) (f : Comp × Val → Except JErr (Comp × Val)) (g : Fn) : Prop := ∀ m (kt : Comp × Val) r,
  Grown m0 m → Looks m kt.2 r → SameIn (fun m (a : Comp × Val) b => a.1 = kt.1 ∧ Looks m a.2 b) m (f kt) (g m r)

theorem memberEntry_same {f : Val → Except JErr Val} {g : Fn} (hf : Sim m0 f g) : SimEnt m0 (Json.memberEntry f) g := by
  intro m kt r hG h
  unfold Json.memberEntry
  have h1 := same_boxing (k := kt.1) (hf m kt.2 r hG h)
  revert h1
  generalize Json.boxing kt.1 (f kt.2) = u
  generalize g m r = v
  intro h1
  cases u with
  | error e => exact h1
  | ok u =>
    obtain ⟨m', y, rfl, hg, hr⟩ := h1
    exact same_grown hg (same_ok ⟨rfl, hr⟩)

theorem coerceEntry_same (hW : FollowsIn W m0) (hmk : SimMk m0 mk mk') (it : ItemTy) :
    SimEnt m0 (Json.coerceEntry W.J mk it) (coerceItem W mk' it) := by
  intro m kt r hG h
  unfold Json.coerceEntry
  have h1 := coerceItem_same hW hmk it m kt.2 r hG h
  revert h1
  generalize Json.coerceItem W.J mk it kt.2 = u
  generalize coerceItem W mk' it m r = v
  intro h1
  cases u with
  | error e => exact h1
  | ok u =>
    obtain ⟨m', y, rfl, hg, hr⟩ := h1
    exact same_grown hg (same_ok ⟨rfl, hr⟩)

theorem mapValues_same {f : Comp × Val → Except JErr (Comp × Val)} {g : Fn} (hf : SimEnt m0 f g)
    (ts : List (Comp × Val)) : ∀ (m : Mem) (rs : List (Comp × Ref)),
    Grown m0 m → Ents m ts rs → SameIn Ents m (mapE f ts) (mapValues g rs m) := by
  induction ts with
  | nil =>
    intro m rs _ h
    cases h
    exact same_ok .nil
  | cons t ts ih =>
    intro m rs hG h
    cases h with
    | @cons _ b _ bs h1 h2 =>
      obtain ⟨k, b⟩ := b
      simp only [mapE, mapValues]
      both (hf m t b hG h1.2) with m' x y hg hr
      simp only
      both (ih m' bs (grown_trans hG hg) (ents_grown hg h2)) with m2 xs ys hg2 hr2
      exact same_ok (.cons ⟨hr.1.trans h1.1, looks_grown hg2 hr.2⟩ hr2)

/-- The same for the items of a list, with their indices. -/
theorem mapNumbered_same {f : Comp × Val → Except JErr (Comp × Val)} {g : Fn} (hf : SimEnt m0 f g)
    (ts : List (Comp × Val)) : ∀ (m : Mem) (rs : List Ref), Grown m0 m → Items m (ts.map (·.2)) rs →
    SameIn (fun m (xs : List (Comp × Val)) ys => Items m (xs.map (·.2)) ys) m (mapE f ts) (Mem.mapM g rs m) := by
  induction ts with
  | nil =>
    intro m rs _ h
    cases h
    exact same_ok .nil
  | cons t ts ih =>
    intro m rs hG h
    cases h with
    | @cons _ b _ bs h1 h2 =>
      simp only [mapE, Mem.mapM]
      both (hf m t b hG h1) with m' x y hg hr
      simp only
      both (ih m' bs (grown_trans hG hg) (items_grown hg h2)) with m2 xs ys hg2 hr2
      exact same_ok (.cons (looks_grown hg2 hr.2) hr2)

theorem enum_vals (xs : List Val) : (Ident.enum xs).map (·.2) = xs := by
  unfold Ident.enum
  rw [List.map_map]
  show xs.zipIdx.map Prod.fst = xs
  simp

theorem items_numbered {m : Mem} {ts : List Val} {rs : List Ref} (h : Items m ts rs) :
    Ents m (Ident.enum ts) (numbered rs) := by
  have key : ∀ n, Ents m ((ts.zipIdx n).map (fun x => (Comp.int x.2, x.1)))
      ((rs.zipIdx n).map (fun x => (Comp.int x.2, x.1))) := by
    unfold Items at h
    induction h with
    | nil => exact fun n => .nil
    | cons h1 h2 ih =>
      intro n
      simp only [List.zipIdx_cons, List.map_cons]
      exact .cons ⟨rfl, h1⟩ (ih (n + 1))
  exact key 0

theorem keys_items {m : Mem} {ts : List (Comp × Val)} {rs : List (Comp × Ref)} (h : Ents m ts rs) :
    Items m (ts.map (fun x => Json.keyVal x.1)) (rs.map (fun x => keyRef x.1)) := by
  unfold Ents at h
  induction h with
  | nil => exact .nil
  | @cons a b as bs h1 h2 ih =>
    refine .cons ?_ ih
    show Looks m (Json.keyVal a.1) (keyRef b.1)
    rw [h1.1]
    cases b.1 <;> exact looks_atom _

theorem listItems_same {m : Mem} {t : Val} {r : Ref} (h : Looks m t r) :
    (∃ e e', Json.listItems W.J t = .error e ∧ listItems W (deref m r) = .error e') ∨
      ∃ xs ys, Json.listItems W.J t = .ok xs ∧ listItems W (deref m r) = .ok ys ∧ Items m xs ys := by
  have hd := looks_deref h
  cases t with
  | atom a =>
    have hd : deref m r = .atom a := hd
    rw [hd]
    cases a with
    | str s => exact Or.inl ⟨_, _, rfl, rfl⟩
    | _ =>
      simp only [Json.listItems, listItems]
      split
      · exact Or.inr ⟨_, _, rfl, rfl, .nil⟩
      · exact Or.inl ⟨_, _, rfl, rfl⟩
  | list ts => obtain ⟨rs, hd, he⟩ := hd; rw [hd]; exact Or.inr ⟨_, _, rfl, rfl, he⟩
  | lcoll _ ts => obtain ⟨rs, hd, he⟩ := hd; rw [hd]; exact Or.inr ⟨_, _, rfl, rfl, he⟩
  | rcd _ ts => obtain ⟨rs, hd, he⟩ := hd; rw [hd]; exact Or.inl ⟨_, _, rfl, rfl⟩
  | dcoll _ ts => obtain ⟨rs, hd, he⟩ := hd; rw [hd]; exact Or.inr ⟨_, _, rfl, rfl, keys_items he⟩
  | dict ts =>
    obtain ⟨rs, hd, he⟩ := hd
    rw [hd]
    simp only [Json.listItems, listItems]
    have h1 : (rs.all fun x => rs.all fun y => Ident.Comp.sameSort x.1 y.1) =
        ts.all fun x => ts.all fun y => Ident.Comp.sameSort x.1 y.1 := by
      rw [ents_all (fun k => rs.all fun y => Ident.Comp.sameSort k y.1) he]
      congr 1
      funext x
      exact ents_all (fun k => Ident.Comp.sameSort x.1 k) he
    rw [h1]
    split
    · exact Or.inr ⟨_, _, rfl, rfl, (ents_iff.mp (ents_sort Ident.Comp.le he)).2⟩
    · exact Or.inl ⟨_, _, rfl, rfl⟩

theorem dictItems_same {m : Mem} {t : Val} {r : Ref} (h : Looks m t r) :
    (∃ e e', Json.dictItems t = .error e ∧ dictItems (deref m r) = .error e') ∨
      ∃ xs ys, Json.dictItems t = .ok xs ∧ dictItems (deref m r) = .ok ys ∧ Ents m xs ys := by
  have hd := looks_deref h
  cases t with
  | atom a =>
    have hd : deref m r = .atom a := hd
    rw [hd]
    cases a with
    | str s => exact Or.inl ⟨_, _, rfl, rfl⟩
    | _ => exact Or.inr ⟨_, _, rfl, rfl, .nil⟩
  | list ts => obtain ⟨rs, hd, he⟩ := hd; rw [hd]; exact Or.inr ⟨_, _, rfl, rfl, items_numbered he⟩
  | lcoll _ ts => obtain ⟨rs, hd, he⟩ := hd; rw [hd]; exact Or.inr ⟨_, _, rfl, rfl, .nil⟩
  | rcd _ ts => obtain ⟨rs, hd, he⟩ := hd; rw [hd]; exact Or.inr ⟨_, _, rfl, rfl, .nil⟩
  | dcoll _ ts => obtain ⟨rs, hd, he⟩ := hd; rw [hd]; exact Or.inr ⟨_, _, rfl, rfl, .nil⟩
  | dict ts => obtain ⟨rs, hd, he⟩ := hd; rw [hd]; exact Or.inr ⟨_, _, rfl, rfl, he⟩

theorem listOf_same (hW : FollowsIn W m0) (hmk : SimMk m0 mk mk') (c : String) (it : ItemTy) {m : Mem}
    {ts : List Val} {rs : List Ref} (hG : Grown m0 m) (h : Items m ts rs) :
    SameIn Looks m (Json.mkList W.J mk c it (.list ts)) (listOf W mk' c it rs m) := by
  unfold Json.mkList listOf
  simp only [Json.listItems]
  both (mapM_same (coerceItem_same hW hmk it) ts m rs hG h) with m' x y hg hr
  exact same_made (looks_lcoll c hr)

theorem dictOf_same (hW : FollowsIn W m0) (hmk : SimMk m0 mk mk') (c : String) (it : ItemTy) {m : Mem}
    {ts : List (Comp × Val)} {rs : List (Comp × Ref)} (hG : Grown m0 m) (h : Ents m ts rs) :
    SameIn Looks m (Json.mkDict W.J mk c it (.dict ts)) (dictOf W mk' c it rs m) := by
  unfold Json.mkDict dictOf
  simp only [Json.dictItems]
  both (mapValues_same (coerceEntry_same hW hmk it) ts m rs hG h) with m' x y hg hr
  exact same_made (looks_dcoll c hr)

theorem mkList_same (hW : FollowsIn W m0) (hmk : SimMk m0 mk mk') (c : String) (it : ItemTy) :
    Sim m0 (Json.mkList W.J mk c it) (mkList W mk' c it) := by
  intro m t r hG h
  unfold mkList
  rcases listItems_same (W := W) h with ⟨e, e', h1, h2⟩ | ⟨xs, ys, h1, h2, h3⟩
  · unfold Json.mkList
    rw [h1, h2]; exact same_err _ _
  · have h4 : Json.mkList W.J mk c it t = Json.mkList W.J mk c it (.list xs) := by
      unfold Json.mkList
      rw [h1]
      rfl
    rw [h4, h2]
    exact listOf_same hW hmk c it hG h3

theorem mkDict_same (hW : FollowsIn W m0) (hmk : SimMk m0 mk mk') (c : String) (it : ItemTy) :
    Sim m0 (Json.mkDict W.J mk c it) (mkDict W mk' c it) := by
  intro m t r hG h
  unfold mkDict
  rcases dictItems_same h with ⟨e, e', h1, h2⟩ | ⟨xs, ys, h1, h2, h3⟩
  · unfold Json.mkDict
    rw [h1, h2]; exact same_err _ _
  · have h4 : Json.mkDict W.J mk c it t = Json.mkDict W.J mk c it (.dict xs) := by
      unfold Json.mkDict
      rw [h1]
      rfl
    rw [h4, h2]
    exact dictOf_same hW hmk c it hG h3

theorem fromPlain_same (hW : FollowsIn W m0) (hmk : SimMk m0 mk mk') (c : String) :
    Sim m0 (Json.fromPlain W.J mk c) (fromPlain W mk' c) := by
  intro m t r hG h
  unfold Json.fromPlain fromPlain
  both (initKwargs_same hW hmk c hG h) with m' x y hg hr
  simp only
  have hE : y.isEmpty = x.isEmpty := by
    cases hr <;> rfl
  rw [hE]
  cases hc : (W.J.S.cls c).coll with
  | none => exact initRecord_same hW hmk c (grown_trans hG hg) hr
  | some q =>
    obtain ⟨k, it⟩ := q
    cases k with
    | list =>
      by_cases hi : x.isEmpty = true
      · simp only [if_pos hi]; exact same_made (looks_lcoll c .nil)
      · simp only [if_neg hi]; exact same_err _ _
    | dict =>
      by_cases hi : x.isEmpty = true
      · simp only [if_pos hi]; exact same_made (looks_dcoll c .nil)
      · simp only [if_neg hi]; exact same_err _ _

theorem fromJsonWith_same (hW : FollowsIn W m0) (hmk : SimMk m0 mk mk') (c : String) :
    Sim m0 (Json.fromJsonWith W.J mk c) (fromJsonWith W mk' c) := by
  intro m t r hG h
  unfold Json.fromJsonWith fromJsonWith
  both (decode_same hW m t r hG h) with m' x y hg hr
  simp only
  split
  · exact hmk c m' x y (grown_trans hG hg) hr
  · exact fromPlain_same hW hmk c m' x y (grown_trans hG hg) hr

/-- The functions for the members. -/
def SimMember (m0 : Mem) : Except JErr (Option (Val → Except JErr Val)) → Except Exc Fn → Prop
  | .error _, .error _ => True
  | .ok none, .ok g => g = fun m x => .ok (m, x)
  | .ok (some f), .ok g => Sim m0 f g
  | _, _ => False

theorem memberIn_same (hW : FollowsIn W m0) (hmk : SimMk m0 mk mk') (it : ItemTy) :
    SimMember m0 (Json.memberIn W.J mk it) (memberIn W mk' it) := by
  cases it with
  | tup tys => trivial
  | one ty =>
    cases ty with
    | cls d =>
      intro m t r hG h
      simp only [recordMember, instOf_same hW h]
      split
      · exact same_ok h
      · split
        · exact hmk d m t r hG h
        · exact fromJsonWith_same hW hmk d m t r hG h
    | other n =>
      simp only [Json.memberIn, memberIn]
      rcases sameFn_cases (m0 := m0) (hW.typeFromJson n) with ⟨h1, h2⟩ | ⟨f, g, h1, h2, h3⟩
      · rw [h1, h2]; rfl
      · rw [h1, h2]
        intro m t r hG h
        simp only [otherMember, hW.isa n m t r h, Json.instOf]
        show SameIn Looks m (if W.J.isa n t = true then .ok t else Json.lift (f t))
          (if W.J.isa n t = true then .ok (m, r) else g m r)
        by_cases hi : W.J.isa n t = true
        · rw [if_pos hi, if_pos hi]; exact same_ok h
        · rw [if_neg hi, if_neg hi]; exact h3 m t r hG h

theorem mapM_id (rs : List Ref) : ∀ m, Mem.mapM (fun m x => .ok (m, x)) rs m = .ok (m, rs) := by
  induction rs with
  | nil => exact fun m => rfl
  | cons r rs ih =>
    intro m
    simp only [Mem.mapM, ih m]

theorem mapValues_id (rs : List (Comp × Ref)) : ∀ m, mapValues (fun m x => .ok (m, x)) rs m = .ok (m, rs) := by
  induction rs with
  | nil => exact fun m => rfl
  | cons r rs ih =>
    intro m
    simp only [mapValues, ih m]

theorem listValues_same (hW : FollowsIn W m0) (hmk : SimMk m0 mk mk') (it : ItemTy) {m : Mem} {t : Val} {r : Ref}
    (hG : Grown m0 m) (h : Looks m t r) : SameIn Items m (Json.listValues W.J mk it t) (listValues W mk' it m r) := by
  have hd := looks_deref h
  unfold listValues
  cases t with
  | atom a =>
    have hd : deref m r = .atom a := hd
    rw [hd]; exact same_err _ _
  | lcoll _ ts => obtain ⟨rs, hd, he⟩ := hd; rw [hd]; exact same_err _ _
  | rcd _ ts => obtain ⟨rs, hd, he⟩ := hd; rw [hd]; exact same_err _ _
  | dcoll _ ts => obtain ⟨rs, hd, he⟩ := hd; rw [hd]; exact same_err _ _
  | dict ts => obtain ⟨rs, hd, he⟩ := hd; rw [hd]; exact same_err _ _
  | list ts =>
    obtain ⟨rs, hd, he⟩ := hd
    rw [hd]
    simp only [Json.listValues]
    have h1 := memberIn_same hW hmk it
    revert h1
    generalize Json.memberIn W.J mk it = u
    generalize memberIn W mk' it = v
    intro h1
    cases u with
    | error e =>
      cases v with
      | error e' => exact same_err _ _
      | ok g => exact h1.elim
    | ok f =>
      cases v with
      | error e' => cases f <;> exact h1.elim
      | ok g =>
        cases f with
        | none =>
          have h1 : g = fun m x => .ok (m, x) := h1
          subst h1
          simp only [mapM_id]
          exact same_ok he
        | some f =>
          simp only
          have h2 := mapNumbered_same (memberEntry_same h1) (Ident.enum ts) m rs hG (by rw [enum_vals]; exact he)
          revert h2
          generalize mapE (Json.memberEntry f) (Ident.enum ts) = u
          generalize Mem.mapM g rs m = v
          intro h2
          cases u with
          | error e => exact h2
          | ok u => exact h2

theorem dictValues_same (hW : FollowsIn W m0) (hmk : SimMk m0 mk mk') (it : ItemTy) {m : Mem} {t : Val} {r : Ref}
    (hG : Grown m0 m) (h : Looks m t r) : SameIn Ents m (Json.dictValues W.J mk it t) (dictValues W mk' it m r) := by
  have hd := looks_deref h
  unfold dictValues
  cases t with
  | atom a =>
    have hd : deref m r = .atom a := hd
    rw [hd]; exact same_err _ _
  | lcoll _ ts => obtain ⟨rs, hd, he⟩ := hd; rw [hd]; exact same_err _ _
  | rcd _ ts => obtain ⟨rs, hd, he⟩ := hd; rw [hd]; exact same_err _ _
  | dcoll _ ts => obtain ⟨rs, hd, he⟩ := hd; rw [hd]; exact same_err _ _
  | list ts => obtain ⟨rs, hd, he⟩ := hd; rw [hd]; exact same_err _ _
  | dict ts =>
    obtain ⟨rs, hd, he⟩ := hd
    rw [hd]
    simp only [Json.dictValues]
    have h1 := memberIn_same hW hmk it
    revert h1
    generalize Json.memberIn W.J mk it = u
    generalize memberIn W mk' it = v
    intro h1
    cases u with
    | error e =>
      cases v with
      | error e' => exact same_err _ _
      | ok g => exact h1.elim
    | ok f =>
      cases v with
      | error e' => cases f <;> exact h1.elim
      | ok g =>
        cases f with
        | none =>
          have h1 : g = fun m x => .ok (m, x) := h1
          subst h1
          simp only [mapValues_id]
          exact same_ok he
        | some f => exact mapValues_same (memberEntry_same h1) ts m rs hG he

theorem mkJsonList_same (hW : FollowsIn W m0) (hmk : SimMk m0 mk mk') (c : String) (it : ItemTy) :
    Sim m0 (Json.mkJsonList W.J mk c it) (mkJsonList W mk' c it) := by
  intro m t r hG h
  unfold Json.mkJsonList mkJsonList
  both (decode_same hW m t r hG h) with m1 u v hg hr
  simp only
  have hG := grown_trans hG hg
  by_cases hn : u = .atom .none
  · subst hn
    rw [if_pos ((looks_atom_iff hr .none).mpr rfl)]
    exact same_made (looks_lcoll c .nil)
  · rw [if_neg (fun h => hn ((looks_atom_iff hr .none).mp h))]
    have fin : SameIn Looks m1
        (match Json.listValues W.J mk it u with | .error e => .error e | .ok xs => Json.mkList W.J mk c it (.list xs))
        (match listValues W mk' it m1 v with | .error e => .error e | .ok (m2, xs) => listOf W mk' c it xs m2) := by
      both (listValues_same hW hmk it hG hr) with m2 x y hg2 hr2
      exact listOf_same hW hmk c it (grown_trans hG hg2) hr2
    cases u with
    | atom a =>
      cases a with
      | none => exact absurd rfl hn
      | _ => exact fin
    | _ => exact fin

theorem mkJsonDict_same (hW : FollowsIn W m0) (hmk : SimMk m0 mk mk') (c : String) (it : ItemTy) :
    Sim m0 (Json.mkJsonDict W.J mk c it) (mkJsonDict W mk' c it) := by
  intro m t r hG h
  unfold Json.mkJsonDict mkJsonDict
  both (decode_same hW m t r hG h) with m1 u v hg hr
  simp only
  have hG := grown_trans hG hg
  by_cases hn : u = .atom .none
  · subst hn
    rw [if_pos ((looks_atom_iff hr .none).mpr rfl)]
    exact same_made (looks_dcoll c .nil)
  · rw [if_neg (fun h => hn ((looks_atom_iff hr .none).mp h))]
    have fin : SameIn Looks m1
        (match Json.dictValues W.J mk it u with | .error e => .error e | .ok xs => Json.mkDict W.J mk c it (.dict xs))
        (match dictValues W mk' it m1 v with | .error e => .error e | .ok (m2, xs) => dictOf W mk' c it xs m2) := by
      both (dictValues_same hW hmk it hG hr) with m2 x y hg2 hr2
      exact dictOf_same hW hmk c it (grown_trans hG hg2) hr2
    cases u with
    | atom a =>
      cases a with
      | none => exact absurd rfl hn
      | _ => exact fin
    | _ => exact fin

theorem construct_same (hW : FollowsIn W m0) (hmk : SimMk m0 mk mk') (c : String) :
    Sim m0 (Json.construct W.J mk c) (construct W mk' c) := by
  intro m t r hG h
  unfold Json.construct construct
  cases hj : W.J.isJson c <;> cases hc : (W.J.S.cls c).coll with
  | none => first | exact mkJson_same hW hmk c m t r hG h | exact mkPlain_same hW hmk c m t r hG h
  | some q =>
    obtain ⟨k, it⟩ := q
    cases k with
    | list => first | exact mkJsonList_same hW hmk c it m t r hG h | exact mkList_same hW hmk c it m t r hG h
    | dict => first | exact mkJsonDict_same hW hmk c it m t r hG h | exact mkDict_same hW hmk c it m t r hG h

theorem makes_same (hW : FollowsIn W m0) (n : Nat) : SimMk m0 (Json.make W.J n) (makes W n) := by
  induction n with
  | zero => exact fun c m t r _ _ => same_err _ _
  | succ n ih => exact fun c => construct_same hW ih c

theorem fromJson_same (hW : FollowsIn W m0) (n : Nat) (c : String) :
    Sim m0 (Json.fromJson W.J n c) (fromJson W n c) := fromJsonWith_same hW (makes_same hW n) c

end Normalize.JsonInMem
