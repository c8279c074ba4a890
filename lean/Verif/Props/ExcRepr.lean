import Verif.Spec.ExcRepr
import Verif.Props.Repr

/-! C126: `repr` of an exception of the library creates it again. -/

namespace Normalize.Repr

open Normalize.Spec

/-- C126, in full: `repr` of an exception is source that creates the exception again. -/
def C126_statement : Prop :=
  ∀ (printable : Char → Bool) (E : Env) (inExc X : String → Option Exn.Cls) (W : Exn.World XArg) (n : Nat)
    (mod : String) (c : Exn.Cls) (args : List XArg) (kw : List (String × XArg)) (o : Exn.Obj XArg),
    NamesOk E → NoOwnNames E → InScope inExc X mod c → (∀ a ∈ args, PlainArg E a ∨ TupleArg E a) → KwargsOk E kw →
    Exn.init W n c args kw = .ok o → CreatesAgain printable E inExc X W n mod o

theorem init_obj {W : Exn.World XArg} {n : Nat} {c : Exn.Cls} {args : List XArg} {kw : List (String × XArg)}
    {o : Exn.Obj XArg} (h : Exn.init W n c args kw = .ok o) : o.cls = c ∧ o.args = args ∧ o.kwargs = kw := by
  have hr : ∀ {r : Except (Exn.Raised XArg) (Exn.Obj XArg)}, Exn.raising r ≠ .ok o := by
    intro r e
    cases r <;> exact nomatch e
  cases n with
  | zero => exact nomatch h
  | succ n =>
    rw [Exn.init] at h
    split at h
    · cases h; exact ⟨rfl, rfl, rfl⟩
    · split at h
      · exact nomatch h
      · exact absurd h hr
    · exact nomatch h
    · exact absurd h hr
    · exact nomatch h

/-- A value as a positional argument in source. -/
def posArg (v : V) : Option String × V := (none, v)

theorem works_pos {pr : Char → Bool} {E : Env} (hN : NamesOk E) (hO : NoOwnNames E) :
    ∀ {as : List XArg}, (∀ a ∈ as, PlainArg E a) →
    ∃ (vs : List V) (ts : List (List Char)) (es : List (Option String × Ex)), as = vs.map XArg.val ∧ posTexts pr E as = some ts ∧ List.Forall₂ ArgText ts es ∧
      evalA E es = some (vs.map posArg) := by
  intro as
  induction as with
  | nil => intro _; exact ⟨[], [], [], rfl, rfl, .nil, rfl⟩
  | cons a as ih =>
    intro h
    obtain ⟨v, rfl, hF, hT⟩ := h a (by simp)
    obtain ⟨t, e, h1, h2, _, h4, h5⟩ := works_fits (pr := pr) hN hO hF hT
    obtain ⟨vs, ts, es, g1, g2, g3, g4⟩ := ih (fun b hb => h b (by simp [hb]))
    refine ⟨v :: vs, t :: ts, (none, e) :: es, by simp [g1], by simp [posTexts, percentR, h1, g2],
      .cons ⟨h2, h4⟩ g3, by simp [evalA, h5, g4, posArg]⟩

theorem works_kw {pr : Char → Bool} {E : Env} (hN : NamesOk E) (hO : NoOwnNames E) :
    ∀ {kw : List (String × XArg)}, (∀ e ∈ kw, Spellable e.1) → (∀ e ∈ kw, PlainArg E e.2) →
    ∃ (s : List (String × V)) (ts : List (List Char)) (es : List (Option String × Ex)), kw = s.map (fun e => (e.1, XArg.val e.2)) ∧ kwTexts pr E kw = some ts ∧ List.Forall₂ ArgText ts es ∧
      evalA E es = some (kwargs s) := by
  intro kw
  induction kw with
  | nil => intro _ _; exact ⟨[], [], [], rfl, rfl, .nil, rfl⟩
  | cons x kw ih =>
    intro hs h
    obtain ⟨nm, a⟩ := x
    obtain ⟨v, rfl, hF, hT⟩ := h (nm, a) (by simp)
    obtain ⟨t, e, h1, h2, _, h4, h5⟩ := works_fits (pr := pr) hN hO hF hT
    obtain ⟨s, ts, es, g1, g2, g3, g4⟩ := ih (fun b hb => hs b (by simp [hb])) (fun b hb => h b (by simp [hb]))
    refine ⟨(nm, v) :: s, (nm.toList ++ '=' :: t) :: ts, (some nm, e) :: es, by simp [g1],
      by simp [kwTexts, kwargText, h1, g2], .cons ⟨t, rfl, hs (nm, .val v) (by simp), h2, h4⟩ g3,
      by simp [evalA, h5, g4, kwargs]⟩

theorem evalA_append {E : Env} : ∀ {es fs : List (Option String × Ex)} {vs ws : List (Option String × V)},
    evalA E es = some vs → evalA E fs = some ws → evalA E (es ++ fs) = some (vs ++ ws) := by
  intro es
  induction es with
  | nil =>
    intro fs vs ws h1 h2
    simp only [evalA, Option.some.injEq] at h1
    subst h1
    exact h2
  | cons e es ih =>
    intro fs vs ws h1 h2
    obtain ⟨nm, e⟩ := e
    simp only [evalA] at h1
    split at h1
    · exact nomatch h1
    · next v hv =>
      split at h1
      · exact nomatch h1
      · next us hu =>
        cases h1
        simp only [List.cons_append, evalA, hv, ih hu h2]

theorem callExc_eq (W : Exn.World XArg) (n : Nat) (c : Exn.Cls) (vs : List V) (s : List (String × V))
    (hd : (s.map (·.1)).Nodup) (hs : "self" ∉ s.map (·.1)) :
    callExc W n c (vs.map posArg ++ kwargs s) =
      some (Exn.init W n c (vs.map XArg.val) (s.map (fun e => (e.1, XArg.val e.2)))) := by
  have h1 : (vs.map posArg ++ kwargs s).takeWhile (fun e => e.1.isNone) = vs.map posArg ∧
      (vs.map posArg ++ kwargs s).dropWhile (fun e => e.1.isNone) = kwargs s := by
    induction vs with
    | nil =>
      cases s with
      | nil => exact ⟨rfl, rfl⟩
      | cons x s => exact ⟨rfl, rfl⟩
    | cons v vs ih =>
      simp only [List.map_cons, List.cons_append]
      rw [List.takeWhile_cons, List.dropWhile_cons]
      simp only [posArg, Option.isNone_none, if_true]
      exact ⟨congrArg _ ih.1, ih.2⟩
  have h2 : (kwargs s).filterMap (fun e => e.1) = s.map (·.1) := by
    simp [kwargs, List.filterMap_map, Function.comp_def]
  have h3 : (kwargs s).all (fun e => e.1.isSome) = true := by simp [kwargs]
  have h4 : (kwargs s).filterMap (fun e => e.1.map (fun nm => (nm, XArg.val e.2))) =
      s.map (fun e => (e.1, XArg.val e.2)) := by
    simp [kwargs, List.filterMap_map, Function.comp_def]
  simp only [callExc, h1.1, h1.2, h2, h3, h4]
  rw [if_pos]
  · simp [posArg, Function.comp_def]
  · simp only [Bool.and_eq_true, decide_eq_true_eq, Bool.not_eq_true', decide_eq_false_iff_not]
    exact ⟨⟨trivial, hd⟩, hs⟩

theorem suffix_iff (mod : String) : ".exc".toList.isSuffixOf mod.toList = true ↔ ∃ m, mod = m ++ ".exc" := by
  rw [List.isSuffixOf_iff_suffix]
  constructor
  · rintro ⟨m, h⟩
    exact ⟨String.ofList m, by rw [← String.toList_inj, String.toList_append, String.toList_ofList, h]⟩
  · rintro ⟨m, rfl⟩
    exact ⟨m.toList, by rw [String.toList_append]⟩

/-- C126, what holds: `repr` of an exception none of whose positional arguments is a tuple is source that creates the
exception again. -/
theorem C126_partial (printable : Char → Bool) (E : Env) (inExc X : String → Option Exn.Cls) (W : Exn.World XArg)
    (n : Nat) (mod : String) (c : Exn.Cls) (args : List XArg) (kw : List (String × XArg)) (o : Exn.Obj XArg)
    (hN : NamesOk E) (hO : NoOwnNames E) (hc : InScope inExc X mod c) (ha : ∀ a ∈ args, PlainArg E a)
    (hk : KwargsOk E kw) (ho : Exn.init W n c args kw = .ok o) :
    CreatesAgain printable E inExc X W n mod o := by
  obtain ⟨o1, o2, o3⟩ := init_obj ho
  obtain ⟨vs, ps, es, h1, h2, h3, h4⟩ := works_pos (pr := printable) hN hO ha
  obtain ⟨s, ks, fs, g1, g2, g3, g4⟩ := works_kw (pr := printable) hN hO (fun e he => (hk.names e he).1) hk.values
  have hnm : kw.map (·.1) = s.map (·.1) := by rw [g1, List.map_map]; rfl
  have hcall := callExc_eq W n c vs s (hnm ▸ hk.once) (by
    rw [← hnm]
    intro hm
    obtain ⟨e, he, h⟩ := List.mem_map.mp hm
    exact (hk.names e he).2 h)
  rw [← h1, ← g1, ho] at hcall
  have hread := reads_call hc.name (List.rel_append h3 g3)
  have hev : ∀ Y : String → Option Exn.Cls, Y c.name = some c →
      evalCall E Y W n (c.name.toList ++ ('(' :: join (ps ++ ks) ++ [')'])) = some (.ok o) := by
    intro Y hY
    have := hread (c.name.toList ++ ('(' :: join (ps ++ ks) ++ [')'])).length [] (by simp [Delim]) (by simp)
    rw [List.append_nil] at this
    simp only [evalCall, this, hY, evalA_append h4 g4, hcall]
  refine ⟨_, by rw [excText, o1, o2, o3, h2, g2], ?_⟩
  by_cases hm : ∃ m, mod = m ++ ".exc"
  · rw [if_pos ((suffix_iff mod).mpr hm), evalExc]
    have t1 : ∀ r, ("exc.".toList ++ r).takeWhile idCont = "exc".toList := fun r => rfl
    have t2 : ∀ r, ("exc.".toList ++ r).dropWhile idCont = '.' :: r := fun r => rfl
    rw [t1, t2, if_pos ⟨rfl, rfl⟩]
    exact hev inExc (hc.within hm)
  · rw [if_neg (fun h => hm ((suffix_iff mod).mp h)), List.nil_append, evalExc, if_neg]
    · exact hev X (hc.outside hm)
    · have := (spell_span hc.name (c := '(') (t := join (ps ++ ks) ++ [')']) (by decide)).2
      rintro ⟨_, h⟩
      rw [List.cons_append, this] at h
      exact absurd (Option.some.inj h) (by decide)

theorem posTexts_tuple (pr : Char → Bool) (E : Env) {vs : List V} (h : vs.length ≠ 1) :
    ∀ {as : List XArg}, XArg.tuple vs ∈ as → posTexts pr E as = none := by
  have h0 : percentR pr E (.tuple vs) = none := by
    match vs, h with
    | [], _ => rfl
    | [_], h => exact absurd rfl h
    | _ :: _ :: _, _ => rfl
  intro as
  induction as with
  | nil => intro hm; exact absurd hm (by simp)
  | cons a as ih =>
    intro hm
    rcases List.mem_cons.mp hm with e | e
    · subst e; simp only [posTexts, h0]
    · simp only [posTexts, ih e]
      cases percentR pr E a <;> rfl

/-- With a tuple among the positional arguments, `repr` raises an exception, unless the tuple has one member. -/
theorem C126_tuple (printable : Char → Bool) (E : Env) (mod : String) (o : Exn.Obj XArg) (vs : List V)
    (hm : XArg.tuple vs ∈ o.args) (h : vs.length ≠ 1) : excText printable E mod o = none := by
  simp only [excText, posTexts_tuple printable E h hm]

/-- A tuple with one member is shown as if its member had been passed: two exceptions with different arguments print
alike. -/
theorem C126_one_member (printable : Char → Bool) (E : Env) (mod : String) (c : Exn.Cls) (before after : List XArg)
    (kw : List (String × XArg)) (s : String) (v : V) :
    excText printable E mod ⟨c, before ++ .tuple [v] :: after, kw, s⟩ =
      excText printable E mod ⟨c, before ++ .val v :: after, kw, s⟩ := by
  have : posTexts printable E (before ++ .tuple [v] :: after) = posTexts printable E (before ++ .val v :: after) := by
    induction before with
    | nil => simp only [List.nil_append, posTexts, percentR]
    | cons a as ih => simp only [List.cons_append, posTexts, ih]
  simp only [excText, this]

/-! ## An example -/

/-- Everything is shown as a question mark. -/
def quietWorld : Exn.World XArg where
  ofStr := fun s => .val (.str s)
  str := fun _ => .ok "?"
  repr := fun _ => .ok "?"
  attr := fun _ _ => .error .attribute
  reprTuple := fun _ => .ok "?"
  reprKeys := fun _ => "?"

/-- A class of the library. -/
def exNoMatch : Exn.Cls := ⟨"SelectorMismatch", "no {0} in {within}"⟩

theorem spell_noMatch : Spellable "SelectorMismatch" :=
  spellable_of ⟨'S', "electorMismatch".toList, by decide, by decide, by decide⟩ (by decide)

/-- The only class there is. -/
def exOnly (nm : String) : Option Exn.Cls := if nm = "SelectorMismatch" then some exNoMatch else none

theorem ex_scope (mod : String) : InScope exOnly exOnly mod exNoMatch :=
  ⟨spell_noMatch, fun _ => rfl, fun _ => rfl⟩

theorem ex_plain (v : V) (h : v = exSky ∨ v = .none) : PlainArg exEnv (.val v) := by
  refine ⟨v, rfl, ?_⟩
  rcases h with rfl | rfl
  · exact ⟨ex_fits, ex_complete⟩
  · exact ⟨.none, .none⟩

/-- `C126_partial` at work. -/
example (mod : String) :
    CreatesAgain (fun _ => true) exEnv exOnly exOnly quietWorld 1 mod
      ⟨exNoMatch, [.val exSky, .val .none], [("within", .val exSky)], "no ? in ?"⟩ :=
  C126_partial _ _ _ _ _ _ _ exNoMatch [.val exSky, .val .none] [("within", .val exSky)] _ ex_names ex_own
    (ex_scope mod)
    (by
      intro a ha
      simp only [List.mem_cons, List.not_mem_nil, or_false] at ha
      rcases ha with rfl | rfl
      · exact ex_plain _ (Or.inl rfl)
      · exact ex_plain _ (Or.inr rfl))
    { names := by
        intro e he
        simp only [List.mem_singleton] at he
        subst he
        exact ⟨spellable_of ⟨'w', "ithin".toList, by decide, by decide, by decide⟩ (by decide), by decide⟩
      once := by simp
      values := by
        intro e he
        simp only [List.mem_singleton] at he
        subst he
        exact ex_plain _ (Or.inl rfl) }
    rfl

/-- `repr(SelectorMismatch((None, None), within=None))` raises `TypeError`. -/
theorem C126_violated : ¬ C126_statement := by
  intro h
  obtain ⟨text, h1, _⟩ := h (fun _ => true) exEnv exOnly exOnly quietWorld 1 "app" exNoMatch
    [.tuple [.none, .none]] [("within", .val .none)]
    ⟨exNoMatch, [.tuple [.none, .none]], [("within", .val .none)], "no ? in ?"⟩ ex_names ex_own (ex_scope _)
    (by
      intro a ha
      simp only [List.mem_singleton] at ha
      subst ha
      exact Or.inr ⟨_, rfl, by
        intro v hv
        simp only [List.mem_cons, List.not_mem_nil, or_false, or_self] at hv
        subst hv
        exact ⟨.none, .none⟩⟩)
    { names := by
        intro e he
        simp only [List.mem_singleton] at he
        subst he
        exact ⟨spellable_of ⟨'w', "ithin".toList, by decide, by decide, by decide⟩ (by decide), by decide⟩
      once := by simp
      values := by
        intro e he
        simp only [List.mem_singleton] at he
        subst he
        exact ex_plain _ (Or.inr rfl) }
    rfl
  rw [C126_tuple _ _ _ _ [.none, .none] (by simp) (by decide)] at h1
  exact nomatch h1

end Normalize.Repr
