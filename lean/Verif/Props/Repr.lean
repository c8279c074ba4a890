import Verif.Lemmas.ReprEval

/-! C97: `repr` of records and collections prints a valid constructor. -/

namespace Normalize.Repr

open Normalize.Spec

/-- C97, in full: whenever the names can be spelled, `repr` of a value prints source that gives the value back. -/
def C97_statement : Prop :=
  ∀ (printable : Char → Bool) (E : Env) (v : V), NamesOk E → Fits E v → PrintsConstructor printable E v

/-- C97, what holds: when no property has a name the constructor has its own use for, no record or collection lacks a
property the constructor would fill in, and there is no `JsonRecordDict`. -/
theorem C97_partial (printable : Char → Bool) (E : Env) (v : V) (hN : NamesOk E) (hO : NoOwnNames E) (hF : Fits E v)
    (hC : Throughout E (fun c s => c.kind ≠ .jdict ∧ Filled c s) v) : PrintsConstructor printable E v := by
  obtain ⟨t, e, h1, _, _, h4, h5⟩ := works_fits (pr := printable) hN hO hF hC
  refine ⟨t, h1, ?_⟩
  have := h4 t.length [] (by simp [Delim]) (by simp)
  rw [List.append_nil] at this
  simp only [eval, this, h5]

/-- Two such values print alike only if they are the same. -/
theorem C97_distinct (printable : Char → Bool) (E : Env) (v w : V) (hN : NamesOk E) (hO : NoOwnNames E)
    (hv : Fits E v) (hw : Fits E w) (hCv : Throughout E (fun c s => c.kind ≠ .jdict ∧ Filled c s) v)
    (hCw : Throughout E (fun c s => c.kind ≠ .jdict ∧ Filled c s) w)
    (h : reprV printable E v = reprV printable E w) : v = w := by
  obtain ⟨t, h1, h2⟩ := C97_partial printable E v hN hO hv hCv
  obtain ⟨u, g1, g2⟩ := C97_partial printable E w hN hO hw hCw
  rw [h1, g1, Option.some.injEq] at h
  subst h
  exact Option.some.inj (h2.symm.trans g2)

/-- None as the first argument is as good as no argument. -/
theorem C97_none (cls : String) (c : Cls) (kw : List (String × V)) (h : firstParam c.kind ∉ kw.map (·.1)) :
    call cls c ((none, .none) :: kw.map (fun e => (some e.1, e.2))) = call cls c (kw.map (fun e => (some e.1, e.2))) := by
  have hr : ∀ k : List (String × V), "init_dict" ∉ k.map (·.1) → recordInit c (("init_dict", V.none) :: k) = recordInit c k := by
    intro k hk
    simp [recordInit, alookup, aerase, Option.filter, truthy, alookup_notin hk, aerase_notin hk]
  have hj : ∀ k : List (String × V), "json_data" ∉ k.map (·.1) → hasJson (("json_data", V.none) :: k) = hasJson k ∧
      aerase (("json_data", V.none) :: k) "json_data" = aerase k "json_data" := by
    intro k hk
    simp [hasJson, alookup, aerase, alookup_notin hk]
  have hv : ∀ (k : List (String × V)) (con : Option V → Option V) (next : List (String × V) → Option Slots),
      con (some .none) = con none → "values" ∉ k.map (·.1) →
      collInit cls con next (("values", V.none) :: k) = collInit cls con next k := by
    intro k con next hc hk
    simp [collInit, alookup, aerase, alookup_notin hk, hc]
  have hk : construct cls c ((firstParam c.kind, V.none) :: kw) = construct cls c kw := by
    unfold construct
    cases k : c.kind with
    | rcd => simp only [k, firstParam] at h ⊢; rw [hr kw h]
    | jrcd => simp only [k, firstParam, jsonInit] at h ⊢; simp only [(hj kw h).1, (hj kw h).2]
    | list => simp only [k, firstParam] at h ⊢; rw [hv kw _ _ rfl h]
    | dict => simp only [k, firstParam] at h ⊢; rw [hv kw _ _ rfl h]
    | jlist => simp only [k, firstParam] at h ⊢; simp only [(hj kw h).1, (hj kw h).2]
    | jdict => simp only [k, firstParam] at h ⊢; simp only [(hj kw h).1, (hj kw h).2]
  have h1 : (kw.map (fun e => (some e.1, e.2))).all (·.1.isSome) = true := by simp
  have h2 : (kw.map (fun e => (some e.1, e.2))).filterMap (·.1) = kw.map (·.1) := by
    induction kw with
    | nil => rfl
    | cons e kw ih => simp
  have h3 : (kw.map (fun e => (some e.1, e.2))).filterMap (fun e => e.1.map (fun nm => (nm, e.2))) = kw := by
    rw [List.filterMap_map]
    simp [Function.comp_def]
  have h4 : call cls c (kw.map (fun e => (some e.1, e.2))) = if (kw.map (·.1)).Nodup && !("self" ∈ kw.map (·.1)) then
      construct cls c kw else none := by
    cases kw with
    | nil => simp [call]
    | cons e kw =>
      simp only [List.map_cons] at h1 h2 h3 ⊢
      simp only [call, h1, h2, h3, Bool.true_and]
  rw [h4]
  simp only [call, h1, h2, h3, hk, h, Bool.true_and, decide_false, Bool.not_false, Bool.and_true]

/-- `Cls(None, a=…)` for a record class. -/
example (cls : String) (c : Cls) (h : c.kind = .rcd) (x : V) :
    call cls c [(none, .none), (some "a", x)] = call cls c [(some "a", x)] :=
  C97_none cls c [("a", x)] (by simp [h, firstParam])

/-- Strings: whatever the characters are, the literal that is printed denotes the string. -/
theorem C97_string (printable : Char → Bool) (E : Env) (s : String) :
    eval E (reprStr printable s.toList) = some (.str s) := by
  have := reads_str printable s (reprStr printable s.toList).length [] (by simp [Delim]) (by simp)
  rw [List.append_nil] at this
  simp only [eval, this, evalE]

/-! ## A concrete case -/

/-- An untyped, optional property. -/
def anyProp : PropD :=
  { required := false, valued := false, isa := fun _ => true, coerce := fun _ => none, check := fun _ => true,
    default := none }

/-- A property with a default. -/
def zeroProp : PropD := { anyProp with default := some (fun _ => some (.int 0)) }

/-- A required property that holds strings. -/
def nameProp : PropD :=
  { required := true, valued := true, isa := fun v => match v with | .str _ => true | _ => false,
    coerce := fun _ => none, check := fun _ => true, default := none }

/-- Classes `Star`, `Sky` (a list collection with a property), `Log` (a JSON list) and `Map`. -/
def exEnv : Env := fun nm =>
  if nm = "Star" then
    some { kind := .rcd, props := [("name", nameProp), ("mag", zeroProp), ("at", anyProp)], itemIsa := fun _ => true,
           itemCoerce := fun _ => none }
  else if nm = "Sky" then
    some { kind := .list, props := [("hemi", anyProp)], itemIsa := fun v => match v with | .rcd _ _ => true | _ => false,
           itemCoerce := fun _ => none }
  else if nm = "Log" then
    some { kind := .jlist, props := [("page", anyProp)], itemIsa := fun _ => true, itemCoerce := fun _ => none }
  else if nm = "Map" then
    some { kind := .dict, props := [], itemIsa := fun _ => true, itemCoerce := fun _ => none }
  else none

/-- A record with a quote, a backslash and a control character in it. -/
def exStar : V := .rcd "Star" [("mag", .int (-14)), ("name", .str "O'\\\n\"(")]

/-- A collection of records, with a property. -/
def exSky : V := .coll "Sky" (.list [exStar, .rcd "Star" [("at", .list [.none, .bool true]), ("mag", .int 10), ("name", .str "")]])
  [("hemi", .coll "Map" (.dict [(.str "it's", .int 5), (.none, .coll "Log" (.list [.int 1]) [("page", .int 2)])]) [])]

theorem spellable_of {s : String} (h : ∃ c r, s.toList = c :: r ∧ idStart c = true ∧ r.all idCont = true)
    (hk : s ∉ keywords) : Spellable s := by
  obtain ⟨c, r, h1, h2, h3⟩ := h
  exact ⟨⟨c, r, h1, h2, List.all_eq_true.mp h3⟩, hk⟩

theorem ex_env {cls : String} {c : Cls} (h : exEnv cls = some c) :
    (cls = "Star" ∧ c.kind = .rcd ∧ c.props = [("name", nameProp), ("mag", zeroProp), ("at", anyProp)]) ∨
      (cls = "Sky" ∧ c.kind = .list ∧ c.props = [("hemi", anyProp)]) ∨
      (cls = "Log" ∧ c.kind = .jlist ∧ c.props = [("page", anyProp)]) ∨ (cls = "Map" ∧ c.kind = .dict ∧ c.props = []) := by
  unfold exEnv at h
  split at h
  · next e => cases h; exact Or.inl ⟨e, rfl, rfl⟩
  · split at h
    · next e => cases h; exact Or.inr (Or.inl ⟨e, rfl, rfl⟩)
    · split at h
      · next e => cases h; exact Or.inr (Or.inr (Or.inl ⟨e, rfl, rfl⟩))
      · split at h
        · next e => cases h; exact Or.inr (Or.inr (Or.inr ⟨e, rfl, rfl⟩))
        · cases h

theorem spell_ex : ∀ nm ∈ ["Star", "Sky", "Log", "Map", "name", "mag", "at", "hemi", "page"], Spellable nm := by
  intro nm h
  simp only [List.mem_cons, List.not_mem_nil, or_false] at h
  rcases h with rfl | rfl | rfl | rfl | rfl | rfl | rfl | rfl | rfl
  · exact spellable_of ⟨'S', ['t', 'a', 'r'], by decide, by decide, by decide⟩ (by decide)
  · exact spellable_of ⟨'S', ['k', 'y'], by decide, by decide, by decide⟩ (by decide)
  · exact spellable_of ⟨'L', ['o', 'g'], by decide, by decide, by decide⟩ (by decide)
  · exact spellable_of ⟨'M', ['a', 'p'], by decide, by decide, by decide⟩ (by decide)
  · exact spellable_of ⟨'n', ['a', 'm', 'e'], by decide, by decide, by decide⟩ (by decide)
  · exact spellable_of ⟨'m', ['a', 'g'], by decide, by decide, by decide⟩ (by decide)
  · exact spellable_of ⟨'a', ['t'], by decide, by decide, by decide⟩ (by decide)
  · exact spellable_of ⟨'h', ['e', 'm', 'i'], by decide, by decide, by decide⟩ (by decide)
  · exact spellable_of ⟨'p', ['a', 'g', 'e'], by decide, by decide, by decide⟩ (by decide)

theorem ex_names : NamesOk exEnv where
  cls cls c h := by
    apply spell_ex
    rcases ex_env h with ⟨rfl, _⟩ | ⟨rfl, _⟩ | ⟨rfl, _⟩ | ⟨rfl, _⟩ <;> decide
  prop cls c nm h hm := by
    apply spell_ex
    rcases ex_env h with ⟨_, _, hp⟩ | ⟨_, _, hp⟩ | ⟨_, _, hp⟩ | ⟨_, _, hp⟩ <;> rw [hp] at hm <;>
      simp only [List.map_cons, List.map_nil, List.mem_cons, List.not_mem_nil, or_false] at hm
    · rcases hm with rfl | rfl | rfl <;> decide
    · subst hm; decide
    · subst hm; decide
  nodup cls c h := by
    rcases ex_env h with ⟨_, _, hp⟩ | ⟨_, _, hp⟩ | ⟨_, _, hp⟩ | ⟨_, _, hp⟩ <;> rw [hp] <;>
      simp only [List.map_cons, List.map_nil] <;> decide

theorem ex_own : NoOwnNames exEnv := by
  intro cls c nm h hm
  rcases ex_env h with ⟨_, hk, hp⟩ | ⟨_, hk, hp⟩ | ⟨_, hk, hp⟩ | ⟨_, hk, hp⟩ <;> rw [hp] at hm <;> rw [hk] <;>
    simp only [List.map_cons, List.map_nil, List.mem_cons, List.not_mem_nil, or_false] at hm
  · rcases hm with rfl | rfl | rfl <;> decide
  · subst hm; decide
  · subst hm; decide

theorem star_ok {s : Slots} (hs : s.Pairwise (fun a b => a.1 < b.1))
    (h : ∀ e ∈ s, e.1 = "name" ∧ (∃ t, e.2 = .str t) ∨ e.1 = "mag" ∨ e.1 = "at") {c : Cls}
    (hc : exEnv "Star" = some c) : SlotsOk c s := by
  rcases ex_env hc with ⟨_, _, hp⟩ | ⟨h, _⟩ | ⟨h, _⟩ | ⟨h, _⟩
  · refine ⟨hs, fun e he => ?_⟩
    rcases h e he with ⟨h1, t, h2⟩ | h1 | h1
    · exact ⟨nameProp, by rw [hp, h1]; rfl, ⟨fun _ => by rw [h2]; rfl, rfl, fun _ h => by cases h⟩⟩
    · exact ⟨zeroProp, by rw [hp, h1]; rfl, ⟨fun h => (nomatch h), rfl, fun h => (nomatch h)⟩⟩
    · exact ⟨anyProp, by rw [hp, h1]; rfl, ⟨fun h => (nomatch h), rfl, fun h => (nomatch h)⟩⟩
  all_goals exact absurd h (by decide)

theorem any_ok {cls nm : String} {v : V} {c : Cls} (hc : exEnv cls = some c) (h : alookup c.props nm = some anyProp) :
    SlotsOk c [(nm, v)] :=
  ⟨List.pairwise_singleton _ _, fun e he => by
    rw [List.mem_singleton] at he
    subst he
    exact ⟨anyProp, h, ⟨fun h => (nomatch h), rfl, fun h => (nomatch h)⟩⟩⟩

theorem fits_items {E : Env} {xs : List V} (h : List.Forall (Fits E) xs) : ∀ x ∈ xs, Fits E x :=
  List.forall_iff_forall_mem.mp h

theorem fits_slots {E : Env} {κ : Type} {xs : List (κ × V)} (h : List.Forall (fun e => Fits E e.2) xs) :
    ∀ e ∈ xs, Fits E e.2 := List.forall_iff_forall_mem.mp h

theorem ex_star_fits : Fits exEnv exStar :=
  .rcd rfl (Or.inl rfl)
    (star_ok (by simp only [List.pairwise_cons]; decide)
      (by simp) rfl)
    (fits_slots ⟨.int _, .str _⟩)

/-- The example meets the hypotheses of `C97_partial`. -/
theorem ex_fits : Fits exEnv exSky :=
  .listColl rfl (Or.inl rfl) (any_ok (cls := "Sky") rfl rfl)
    (fits_slots
      (.dictColl rfl (Or.inl rfl) ⟨List.Pairwise.nil, by simp⟩ (by simp) (by decide) (by simp)
        (fits_slots ⟨.int _, .listColl rfl (Or.inr rfl) (any_ok (cls := "Log") rfl rfl) (fits_slots (.int _)) (by simp)
          (fits_items (.int _))⟩)))
    (by simp [exStar])
    (fits_items ⟨ex_star_fits,
      .rcd rfl (Or.inl rfl)
        (star_ok (by simp only [List.pairwise_cons]; decide) (by simp) rfl)
        (fits_slots ⟨.list (fits_items ⟨.none, .bool _⟩), .int _, .str _⟩)⟩)

theorem star_complete {s : Slots} (h1 : "name" ∈ s.map (·.1)) (h2 : "mag" ∈ s.map (·.1)) :
    ∀ c, exEnv "Star" = some c → c.kind ≠ .jdict ∧ Filled c s := by
  intro c hc
  rcases ex_env hc with ⟨_, hk, hp⟩ | ⟨h, _⟩ | ⟨h, _⟩ | ⟨h, _⟩
  · refine ⟨by rw [hk]; decide, fun e he hg => ?_⟩
    rw [hp] at he
    simp only [List.mem_cons, List.not_mem_nil, or_false] at he
    rcases he with rfl | rfl | rfl
    · exact h1
    · exact h2
    · exact absurd hg (by decide)
  all_goals exact absurd h (by decide)

theorem any_complete {cls : String} {s : Slots} (hne : cls ≠ "Star") :
    ∀ c, exEnv cls = some c → c.kind ≠ .jdict ∧ Filled c s := by
  intro c hc
  rcases ex_env hc with ⟨h, _⟩ | ⟨_, hk, hp⟩ | ⟨_, hk, hp⟩ | ⟨_, hk, hp⟩
  · exact absurd h hne
  all_goals
    refine ⟨by rw [hk]; decide, fun e he hg => ?_⟩
    rw [hp] at he
    simp only [List.mem_cons, List.not_mem_nil, or_false] at he
    try (subst he; exact absurd hg (by decide))

theorem ex_complete : Throughout exEnv (fun c s => c.kind ≠ .jdict ∧ Filled c s) exSky :=
  .coll (any_complete (by decide))
    (.list (List.forall_iff_forall_mem.mp
      ⟨.rcd (star_complete (by decide) (by decide)) (List.forall_iff_forall_mem.mp ⟨.int _, .str _⟩),
       .rcd (star_complete (by decide) (by decide))
        (List.forall_iff_forall_mem.mp ⟨.list (List.forall_iff_forall_mem.mp ⟨.none, .bool _⟩), .int _, .str _⟩)⟩))
    (List.forall_iff_forall_mem.mp
      (.coll (any_complete (by decide))
        (.dict (List.forall_iff_forall_mem.mp ⟨.int _,
          .coll (any_complete (by decide)) (.list (List.forall_iff_forall_mem.mp (.int _)))
            (List.forall_iff_forall_mem.mp (.int _))⟩))
        (by simp)))

/-- `C97_partial` at work. -/
example : PrintsConstructor (fun _ => true) exEnv exSky :=
  C97_partial _ _ _ ex_names ex_own ex_fits ex_complete

/-! ## Why the hypotheses are there -/

/-- C97 without the hypothesis that values the constructor fills in are there. -/
def C97_default_statement : Prop :=
  ∀ (printable : Char → Bool) (E : Env) (v : V), NamesOk E → NoOwnNames E → Fits E v →
    Throughout E (fun c _ => c.kind ≠ .jdict) v → PrintsConstructor printable E v

/-- The names of the attributes of a record. -/
def slotNames : V → List String
  | .rcd _ s => s.map (·.1)
  | _ => []

/-- The attribute `mag` has been deleted; the constructor puts the default back. -/
def exDeleted : V := .rcd "Star" [("name", .str "Vega")]

theorem C97_default_violated : ¬ C97_default_statement := by
  intro h
  obtain ⟨t, h1, h2⟩ := h (fun _ => true) exEnv exDeleted ex_names ex_own
    (.rcd rfl (Or.inl rfl) (star_ok (List.pairwise_singleton _ _) (by simp) rfl) (fits_slots (.str _)))
    (.rcd (fun c hc => by
      rcases ex_env hc with ⟨_, hk, _⟩ | ⟨h, _⟩ | ⟨h, _⟩ | ⟨h, _⟩
      · rw [hk]; decide
      all_goals exact absurd h (by decide)) (List.forall_iff_forall_mem.mp (.str _)))
  have e : (reprV (fun _ => true) exEnv exDeleted).bind (fun t => (eval exEnv t).map slotNames) =
      some ["mag", "name"] := by decide +kernel
  rw [h1, Option.bind_some, h2] at e
  exact absurd e (by decide)

/-- So the full statement is false. -/
theorem C97_violated : ¬ C97_statement :=
  fun h => C97_default_violated (fun pr E v hN _ hF _ => h pr E v hN hF)

/-- C97 without the hypothesis about the names of properties. -/
def C97_own_statement : Prop :=
  ∀ (printable : Char → Bool) (E : Env) (v : V), NamesOk E → Fits E v →
    Throughout E (fun c s => c.kind ≠ .jdict ∧ Filled c s) v → PrintsConstructor printable E v

/-- A class with a property called `init_dict`. -/
def oddEnv : Env := fun nm =>
  if nm = "Odd" then
    some { kind := .rcd, props := [("init_dict", anyProp)], itemIsa := fun _ => true, itemCoerce := fun _ => none }
  else none

/-- `Odd({"init_dict": 5})`: its `repr` is `Odd(init_dict=5)`, which the constructor takes to be a dict of
arguments. -/
def exOdd : V := .rcd "Odd" [("init_dict", .int 5)]

theorem odd_env {cls : String} {c : Cls} (h : oddEnv cls = some c) :
    cls = "Odd" ∧ c.kind = .rcd ∧ c.props = [("init_dict", anyProp)] := by
  unfold oddEnv at h
  split at h
  · next e => cases h; exact ⟨e, rfl, rfl⟩
  · cases h

theorem odd_names : NamesOk oddEnv where
  cls cls c h := by
    rw [(odd_env h).1]
    exact spellable_of ⟨'O', ['d', 'd'], by decide, by decide, by decide⟩ (by decide)
  prop cls c nm h hm := by
    rw [(odd_env h).2.2] at hm
    simp only [List.map_cons, List.map_nil, List.mem_cons, List.not_mem_nil, or_false] at hm
    subst hm
    exact spellable_of ⟨'i', ['n', 'i', 't', '_', 'd', 'i', 'c', 't'], by decide, by decide, by decide⟩ (by decide)
  nodup cls c h := by
    rw [(odd_env h).2.2]
    simp

theorem C97_own_violated : ¬ C97_own_statement := by
  intro h
  obtain ⟨t, h1, h2⟩ := h (fun _ => true) oddEnv exOdd odd_names
    (.rcd rfl (Or.inl rfl)
      ⟨List.pairwise_singleton _ _, fun e he => by
        rw [List.mem_singleton] at he
        subst he
        exact ⟨anyProp, rfl, ⟨fun h => (nomatch h), rfl, fun h => (nomatch h)⟩⟩⟩
      (fits_slots (.int _)))
    (.rcd (fun c hc => by
      obtain ⟨_, hk, hp⟩ := odd_env hc
      refine ⟨by rw [hk]; decide, fun e he hg => ?_⟩
      rw [hp, List.mem_singleton] at he
      subst he
      exact absurd hg (by decide)) (List.forall_iff_forall_mem.mp (.int _)))
  have e : (reprV (fun _ => true) oddEnv exOdd).bind (fun t => (eval oddEnv t).map slotNames) = none := by
    decide +kernel
  rw [h1, Option.bind_some, h2] at e
  exact absurd e (by decide)

/-- C97 without the hypothesis that excludes `JsonRecordDict`. -/
def C97_json_dict_statement : Prop :=
  ∀ (printable : Char → Bool) (E : Env) (v : V), NamesOk E → NoOwnNames E → Fits E v →
    Throughout E Filled v → PrintsConstructor printable E v

/-- A class derived from `JsonRecordDict`. -/
def dictEnv : Env := fun nm =>
  if nm = "Map" then
    some { kind := .jdict, props := [], itemIsa := fun _ => true, itemCoerce := fun _ => none }
  else none

/-- `repr` of a `JsonRecordDict` raises an exception. -/
theorem C97_json_dict_violated : ¬ C97_json_dict_statement := by
  intro h
  have henv : ∀ {cls c}, dictEnv cls = some c → cls = "Map" ∧ c.kind = .jdict ∧ c.props = [] := by
    intro cls c h
    unfold dictEnv at h
    split at h
    · next e => cases h; exact ⟨e, rfl, rfl⟩
    · cases h
  obtain ⟨t, h1, _⟩ := h (fun _ => true) dictEnv (.coll "Map" (.dict []) [])
    { cls := fun cls c h => by
        rw [(henv h).1]
        exact spellable_of ⟨'M', ['a', 'p'], by decide, by decide, by decide⟩ (by decide)
      prop := fun cls c nm h hm => by rw [(henv h).2.2] at hm; simp at hm
      nodup := fun cls c h => by rw [(henv h).2.2]; simp }
    (fun cls c nm h hm => by rw [(henv h).2.2] at hm; simp at hm)
    (.dictColl rfl (Or.inr rfl) ⟨List.Pairwise.nil, by simp⟩ (by simp) (by simp) (by simp) (by simp))
    (.coll (fun c hc e he => by rw [(henv hc).2.2] at he; simp at he) (.dict (by simp)) (by simp))
  have e : (reprV (fun _ => true) dictEnv (.coll "Map" (.dict []) [])).isSome = false := by decide +kernel
  rw [h1] at e
  cases e

/-- The texts of the example. -/
example : (reprV (fun _ => true) exEnv exSky).map String.ofList =
    some ("Sky([Star(mag=-14, name='O\\'\\\\\\n\"('), Star(at=[None, True], mag=10, name='')], " ++
      "hemi=Map({\"it's\": 5, None: Log(values=[1], page=2)}))") := by decide +kernel

example : (reprV (fun _ => false) exEnv (.str "aé\u0007€😀")).map String.ofList =
    some "'a\\xe9\\x07\\u20ac\\U0001f600'" := by decide +kernel

end Normalize.Repr
