import Verif.Lemmas.ExceptionSites

/-!
# C102: exceptions are what the raise statement says, and carry what it passes
-/

namespace Normalize.Props

open Normalize.Exn Normalize.Spec

/-! ## Raise statements -/

/-- C102: every raise statement of the library raises an exception of the class that it names, with the arguments that
it passes, whatever objects of the right sorts they are. -/
def C102_statement : Prop :=
  ∀ (V : Type) (W : World V) (s : Site) (args : List V) (kw : List (String × V)),
    s ∈ librarySites → Passes W s args kw → RaisesIt W s args kw

/-- C102 but for four raise statements: all the others raise what they say. -/
theorem C102_partial {V : Type} (W : World V) (s : Site) (args : List V) (kw : List (String × V))
    (hs : s ∈ librarySites) (hb : ¬ BrokenSite s) (hp : Passes W s args kw) : RaisesIt W s args kw := by
  obtain ⟨d, t, hd, _, hc⟩ := siteFits_sound W s args kw hp (sites_fit s hs hb)
  exact fun n => ⟨⟨d, args, kw, t⟩, hc n, findCls_name hd, rfl, rfl⟩

/-- The four raise statements end with python's `AttributeError` instead, always: two name classes that do not exist,
two pass an object without `__name__` to a message that shows its `__name__`. -/
theorem C102_broken {V : Type} (W : World V) (s : Site) (args : List V) (kw : List (String × V)) (n : Nat)
    (hs : s ∈ librarySites) (hb : BrokenSite s) (hp : Passes W s args kw) :
    create W (n + 1) s.cls args kw = .error (.py .attribute) :=
  siteFails_sound W s args kw hp (sites_fail s hs hb) n

/-- Objects of all sorts, each with a name. -/
def excWorld : World (Kind × String) where
  ofStr := fun s => (.text, s)
  str := fun v => .ok v.2
  repr := fun v => .ok ("<" ++ v.2 ++ ">")
  attr := fun v a =>
    if kindHas v.1 a = true then .ok (.text, v.2 ++ "." ++ a) else .error .attribute
  reprTuple := fun vs => .ok (toString vs.length ++ " arguments")
  reprKeys := fun ks => ", ".intercalate ks

theorem excWorld_plain : PlainStrings excWorld := fun _ => rfl

theorem excWorld_showable (v : Kind × String) : Showable excWorld v := ⟨⟨_, rfl⟩, ⟨_, rfl⟩⟩

theorem excWorld_isA (k : Kind) (s : String) : IsA excWorld k (k, s) := by
  cases k
  · exact ⟨excWorld_showable _, rfl⟩
  · exact ⟨excWorld_showable _, _, rfl, excWorld_showable _⟩
  · exact ⟨excWorld_showable _, ⟨_, rfl, excWorld_showable _⟩, _, rfl, excWorld_showable _⟩
  · exact ⟨excWorld_showable _, rfl⟩
  · exact ⟨excWorld_showable _, ⟨_, rfl, excWorld_showable _⟩, _, rfl, excWorld_showable _⟩
  · exact ⟨excWorld_showable _, _, rfl, excWorld_showable _⟩
  · exact ⟨excWorld_showable _, _, rfl, excWorld_showable _⟩
  · exact excWorld_showable _

/-- Every raise statement can be reached with some objects. -/
theorem excWorld_passes (s : Site) :
    Passes excWorld s (s.args.map (fun k => (k, "x"))) (s.kwargs.map (fun p => (p.1, (p.2, p.1)))) := by
  constructor
  · rw [List.forall₂_map_right_iff]
    exact List.forall₂_same.mpr (fun k _ => excWorld_isA k _)
  · rw [List.forall₂_map_right_iff]
    exact List.forall₂_same.mpr (fun p _ => ⟨rfl, excWorld_isA p.2 _⟩)

/-- The raise statement of visitor.py:233 (`VisitorUnpackError`). -/
def unpackSite : Site :=
  ⟨"VisitorUnpackError", "visitor.py", 233, [], [("passed", .any), ("colltype", .text), ("context", .visitor)]⟩

theorem C102_violated : ¬ C102_statement := by
  intro h
  have hm : unpackSite ∈ librarySites := by decide +kernel
  have hp := excWorld_passes unpackSite
  obtain ⟨o, ho, _⟩ := h _ excWorld unpackSite _ _ hm hp 0
  rw [C102_broken excWorld unpackSite _ _ 0 hm (Or.inl ⟨rfl, rfl, rfl⟩) hp] at ho
  cases ho

example : (librarySites.filter (fun s => decide (BrokenSite s))).length = 4 ∧
    70 ≤ (librarySites.filter (fun s => !decide (BrokenSite s))).length := by decide +kernel

/-! ## Messages -/

/-- The message of an exception says the text of its parts with the fields filled in, whatever the parts are, and fails
like the first part that fails. -/
theorem C102_format {V : Type} (W : World V) (args : List V) (kw : List (String × V)) (ps : List MsgPart)
    (hp : ∀ p : MsgPart, p ∈ ps → p.Good) :
    format W (String.ofList (msgSource ps)) args kw = msgText W args kw 0 ps :=
  format_source W args kw ps hp

/-- The message of `CoerceError` by its parts. -/
def coerceParts : List MsgPart :=
  [.text "coerce to ", .named "valuetype" [] .plain, .text " for ", .named "prop" ["fullname"] .plain,
   .text " failed with value ", .named "passed" [] .r, .text ": ", .named "func" [] .plain, .text " raised: ",
   .named "exc" [] .plain]

theorem coerceParts_good : ∀ p : MsgPart, p ∈ coerceParts → p.Good := goodB_sound (by decide +kernel)

example : messageOf 8 "CoerceError" = some (String.ofList (msgSource coerceParts)) := by decide +kernel

example : msgText excWorld [] [("prop", (.prop, "P")), ("passed", (.any, "v")), ("exc", (.any, "E")),
      ("func", (.any, "f")), ("valuetype", (.text, "int"))] 0 coerceParts =
    .ok "coerce to int for P.fullname failed with value <v>: f raised: E" := by decide +kernel

/-- When every field of the message is there, the exception is made; `str` of it is the message, and its arguments are
the ones given, one by one. -/
theorem C102_created {V : Type} (W : World V) (n : Nat) (name : String) (ps : List MsgPart) (args : List V)
    (kw : List (String × V)) (t : String) (hp : ∀ p : MsgPart, p ∈ ps → p.Good)
    (ht : msgText W args kw 0 ps = .ok t) :
    ∃ o : Obj V, init W (n + 1) ⟨name, String.ofList (msgSource ps)⟩ args kw = .ok o ∧ o.str = t ∧ o.cls.name = name ∧
      o.kwargs = kw ∧ ∀ (i : Nat) (v : V), args[i]? = some v → o.item i = .ok v := by
  refine ⟨⟨⟨name, String.ofList (msgSource ps)⟩, args, kw, t⟩, ?_, rfl, rfl, rfl,
    fun i v hv => by simp only [Obj.item, positional]; rw [hv]⟩
  simp only [init]
  rw [format_source W args kw ps hp, ht]

/-- A missing keyword argument ends with `KeywordExceptionFormatError`, which tells the class, the name of the
argument and what was passed. -/
theorem C102_missing_keyword {V : Type} (W : World V) (hW : PlainStrings W) (n : Nat) (name : String)
    (ps : List MsgPart) (args : List V) (kw : List (String × V)) (k : String)
    (hp : ∀ p : MsgPart, p ∈ ps → p.Good) (ht : msgText W args kw 0 ps = .error (.key [W.ofStr k])) :
    ∃ o : Obj V, init W (n + 2) ⟨name, String.ofList (msgSource ps)⟩ args kw = .error (.obj o) ∧
      o.cls.name = "KeywordExceptionFormatError" ∧
      o.str = name ++ " raised without passing " ++ k ++ "; saw only: " ++ W.reprKeys (kw.map (·.1)) := by
  exact ⟨_, init_keyword W hW n _ args kw k (by rw [format_source W args kw ps hp, ht]), rfl, rfl⟩

/-- A missing positional argument ends with `PositionalExceptionFormatError`, which tells the class and what was
passed. -/
theorem C102_missing_positional {V : Type} (W : World V) (hW : PlainStrings W) (n : Nat) (name : String)
    (ps : List MsgPart) (args : List V) (kw : List (String × V)) (r : String)
    (hp : ∀ p : MsgPart, p ∈ ps → p.Good) (ht : msgText W args kw 0 ps = .error .index)
    (hr : W.reprTuple args = .ok r) :
    ∃ o : Obj V, init W (n + 2) ⟨name, String.ofList (msgSource ps)⟩ args kw = .error (.obj o) ∧
      o.cls.name = "PositionalExceptionFormatError" ∧
      o.str = name ++ " expects a positional format string; passed: " ++ r := by
  exact ⟨_, init_positional W hW n _ args kw r (by rw [format_source W args kw ps hp, ht]) hr, rfl, rfl⟩

example : findCls "KeywordExceptionFormatError" = some keywordError ∧
    findCls "PositionalExceptionFormatError" = some positionalError := by decide +kernel

example : msgText excWorld [] [("prop", (.prop, "P"))] 0 coerceParts = .error (.key [excWorld.ofStr "valuetype"]) :=
  by decide +kernel

example : msgText excWorld [(.any, "a")] [] 0 [.next [] .plain, .text "{", .next [] .r] = .error .index := by
  decide +kernel

/-! ## Attributes -/

/-- What is passed by keyword can be read back as an attribute of the exception. -/
def C102_attribute_statement : Prop :=
  ∀ (V : Type) (W : World V) (since310 : Bool) (s : Site) (args : List V) (kw : List (String × V)) (n : Nat) (o : Obj V),
    s ∈ librarySites → Passes W s args kw → create W (n + 1) s.cls args kw = .ok o →
      ∀ (k : String) (v : V), (k, v) ∈ kw → o.get since310 k = .value v

theorem create_kwargs {V : Type} {W : World V} {n : Nat} {c : String} {args : List V} {kw : List (String × V)}
    {o : Obj V} (h : create W (n + 1) c args kw = .ok o) : o.kwargs = kw ∧ o.cls.name = c ∧ o.args = args := by
  simp only [create] at h
  cases hc : findCls c with
  | none => rw [hc] at h; cases h
  | some d =>
    rw [hc] at h
    obtain ⟨h1, h2, h3, _⟩ := init_ok h
    exact ⟨h3, by rw [h1]; exact findCls_name hc, h2⟩

theorem lookup_passed {V : Type} {kw : List (String × V)} {k : String} {v : V} (hn : (kw.map (·.1)).Nodup)
    (hk : (k, v) ∈ kw) : alookup kw k = some v := by
  induction kw with
  | nil => cases hk
  | cons p kw ih =>
    obtain ⟨a, w⟩ := p
    simp only [List.map_cons, List.nodup_cons] at hn
    simp only [alookup]
    rcases List.mem_cons.mp hk with e | hk
    · cases e; rw [if_pos rfl]
    · rw [if_neg, ih hn.2 hk]
      rintro rfl
      exact hn.1 (List.mem_map.mpr ⟨_, hk, rfl⟩)

/-- Attributes can be read back before python 3.10, and for all classes but `FieldSelectorAttributeError`. -/
theorem C102_attribute_partial {V : Type} (W : World V) (since310 : Bool) (s : Site) (args : List V)
    (kw : List (String × V)) (n : Nat) (o : Obj V) (hs : s ∈ librarySites) (hp : Passes W s args kw)
    (ho : create W (n + 1) s.cls args kw = .ok o)
    (hold : since310 = false ∨ s.cls ≠ "FieldSelectorAttributeError") (k : String) (v : V) (hk : (k, v) ∈ kw) :
    o.get since310 k = .value v := by
  obtain ⟨hkw, hcls, _⟩ := create_kwargs ho
  have hkeys : kw.map (·.1) = s.kwargs.map (·.1) := by
    have := hp.2
    clear hk ho hkw hp
    generalize s.kwargs = l at this
    induction this with
    | nil => rfl
    | cons h _ ih => simp only [List.map_cons, h.1, ih]
  have hall : ∀ s : Site, s ∈ librarySites → (s.kwargs.map (·.1)).Nodup ∧
      ∀ b : Bool, (b = false ∨ s.cls ≠ "FieldSelectorAttributeError") →
        ∀ k : String, k ∈ s.kwargs.map (·.1) → (ownAttrs b s.cls).contains k = false := by decide +kernel
  obtain ⟨hnd, hown⟩ := hall s hs
  have hmem : k ∈ s.kwargs.map (·.1) := by
    rw [← hkeys]; exact List.mem_map.mpr ⟨(k, v), hk, rfl⟩
  simp only [Obj.get]
  rw [hcls, hown since310 hold k hmem, hkw]
  simp only [Bool.false_eq_true, if_false]
  have hl : alookup kw k = some v := lookup_passed (by rw [hkeys]; exact hnd) hk
  rw [hl]

/-- Since python 3.10, `e.name` of a `FieldSelectorAttributeError` is python's own attribute (`None`), not the name
that was passed. -/
theorem C102_attribute_violated : ¬ C102_attribute_statement := by
  intro h
  have hm : (⟨"FieldSelectorAttributeError", "selector.py", 167, [], [("name", .text)]⟩ : Site) ∈ librarySites := by
    decide +kernel
  have hp := excWorld_passes ⟨"FieldSelectorAttributeError", "selector.py", 167, [], [("name", .text)]⟩
  obtain ⟨o, ho, hc, _⟩ := C102_partial excWorld _ _ _ hm (by decide +kernel) hp 0
  have := h _ excWorld true _ _ _ 0 o hm hp ho "name" (.text, "name") (by simp)
  simp only [Obj.get] at this
  rw [hc] at this
  rw [if_pos (by decide +kernel)] at this
  cases this

/-- Of any exception, also of classes that users define, a keyword argument can be read back as an attribute unless
exceptions have an attribute of that name themselves. -/
theorem C102_keyword {V : Type} (since310 : Bool) (o : Obj V) (k : String) (v : V) (hn : (o.kwargs.map (·.1)).Nodup)
    (hk : (k, v) ∈ o.kwargs) :
    o.get since310 k = .value v ↔ k ∉ ["args", "kwargs", "formatted", "message", "with_traceback"] ∧
      (since310 = true → k ≠ "add_note" ∧ (isSubclass o.cls.name "AttributeError" = true → k ≠ "name" ∧ k ≠ "obj")) := by
  have hl : alookup o.kwargs k = some v := lookup_passed hn hk
  simp only [Obj.get, hl]
  cases since310 <;> cases hs : isSubclass o.cls.name "AttributeError" <;> simp [ownAttrs, hs] <;> tauto

example : (⟨⟨"MyError", "{kwargs} {who}"⟩, [], [("kwargs", 1), ("who", 2)], "1 2"⟩ : Obj Nat).get true "who" = .value 2 :=
  (C102_keyword _ _ _ _ (by decide) (by decide)).2 (by decide +kernel)

/-- The text that selectors pass by position is not in the message. -/
theorem C102_text_lost {V : Type} (W : World V) (s : Site) (args : List V) (kw : List (String × V))
    (n : Nat) (hs : s ∈ librarySites) (hc : s.cls = "FieldSelectorException") (hp : Passes W s args kw) :
    args.length = 1 ∧ ∃ o : Obj V, create W (n + 1) s.cls args kw = .ok o ∧ o.args = args ∧
      o.str = "(uncustomized exception!)" := by
  have hall : ∀ s : Site, s ∈ librarySites → s.cls = "FieldSelectorException" → s.args.length = 1 := by decide +kernel
  refine ⟨by rw [← hp.1.length_eq]; exact hall s hs hc, ⟨⟨⟨"FieldSelectorException", "(uncustomized exception!)"⟩, args, kw, "(uncustomized exception!)"⟩, ?_, rfl, rfl⟩⟩
  · simp only [create]
    rw [hc, show findCls "FieldSelectorException" = some ⟨"FieldSelectorException", "(uncustomized exception!)"⟩ from by
      decide +kernel]
    simp only [init]
    have := format_source W args kw [.text "(uncustomized exception!)"] (by simp [MsgPart.Good])
    rw [show String.ofList (msgSource [.text "(uncustomized exception!)"]) = "(uncustomized exception!)" from by
      decide +kernel] at this
    rw [this]
    rfl

example : (librarySites.filter (fun s => s.cls == "FieldSelectorException")).length = 5 := by decide +kernel

/-! ## Copies -/

/-- An exception that the library raises can be copied and pickled. -/
def C102_copy_statement : Prop :=
  ∀ (V : Type) (W : World V) (s : Site) (args : List V) (kw : List (String × V)) (n : Nat) (o : Obj V),
    PlainStrings W → s ∈ librarySites → Passes W s args kw → create W (n + 2) s.cls args kw = .ok o →
      copy W (n + 2) o = .ok o

/-- Exceptions raised without keyword arguments are equal to their copies. -/
theorem C102_copy_partial {V : Type} (W : World V) (s : Site) (args : List V) (kw : List (String × V)) (n : Nat)
    (o : Obj V) (hs : s ∈ librarySites) (hk : s.kwargs = []) (hp : Passes W s args kw)
    (ho : create W (n + 1) s.cls args kw = .ok o) : copy W (n + 1) o = .ok o := by
  have hall : ∀ s : Site, s ∈ librarySites → s.kwargs = [] →
      ((clsPieces s.cls).map onlyText).getD false = true := by decide +kernel
  have hx := hall s hs hk
  simp only [clsPieces] at hx
  simp only [create] at ho
  cases hd : findCls s.cls with
  | none => rw [hd] at ho; cases ho
  | some d =>
    rw [hd] at hx ho
    obtain ⟨t, ht⟩ := onlyText_sound W _ hx
    have ht' : ∀ (args : List V) (kw : List (String × V)), format W d.message args kw = .ok t :=
      fun args kw => ht args kw .unset
    simp only [init] at ho
    rw [ht'] at ho
    cases ho
    simp only [copy, init]
    rw [ht']

/-- Exceptions raised with keyword arguments cannot be copied or pickled: that ends with
`KeywordExceptionFormatError`. -/
theorem C102_copy_fails {V : Type} (W : World V) (hW : PlainStrings W) (s : Site) (args : List V)
    (kw : List (String × V)) (n m : Nat) (o : Obj V) (hs : s ∈ librarySites) (hk : s.kwargs ≠ [])
    (ho : create W (n + 1) s.cls args kw = .ok o) :
    ∃ e : Obj V, copy W (m + 2) o = .error (.obj e) ∧ e.cls.name = "KeywordExceptionFormatError" := by
  have hall : ∀ s : Site, s ∈ librarySites → s.kwargs ≠ [] → (findCls s.cls).isSome = true →
      ((clsPieces s.cls).bind firstName).isSome = true := by decide +kernel
  have hcr := create_kwargs ho
  simp only [create] at ho
  cases hd : findCls s.cls with
  | none => rw [hd] at ho; cases ho
  | some d =>
    have hx := hall s hs hk (by rw [hd]; rfl)
    simp only [clsPieces] at hx
    rw [hd] at hx ho
    simp only [Option.map_some, Option.bind_some] at hx
    obtain ⟨k, hk'⟩ := Option.isSome_iff_exists.mp hx
    have hf : format W d.message o.args [] = .error (.key [W.ofStr k]) := firstName_sound W o.args _ k hk' .unset
    have hc := (init_ok ho).1
    have hi := init_keyword W hW m d o.args [] k hf
    have hcp : ∀ e : Obj V, init W (m + 2) d o.args [] = .error (.obj e) → copy W (m + 2) o = .error (.obj e) := by
      intro e he
      simp only [copy]
      rw [hc, he]
    exact ⟨_, hcp _ hi, rfl⟩

/-- The raise statement of property/__init__.py:242 (`ValueCheckError`). -/
def checkSite : Site := ⟨"ValueCheckError", "property/__init__.py", 242, [], [("prop", .prop), ("passed", .any)]⟩

theorem C102_copy_violated : ¬ C102_copy_statement := by
  intro h
  have hm : checkSite ∈ librarySites := by decide +kernel
  have hp := excWorld_passes checkSite
  obtain ⟨o, ho, _⟩ := C102_partial excWorld checkSite _ _ hm (by decide +kernel) hp 1
  obtain ⟨e, he, _⟩ := C102_copy_fails excWorld excWorld_plain checkSite _ _ 1 0 o hm (by decide +kernel) ho
  rw [h _ excWorld checkSite _ _ 0 o excWorld_plain hm hp ho] at he
  cases he

example : 14 ≤ (librarySites.filter (fun s => s.kwargs.isEmpty)).length := by decide +kernel

/-! ## Classes -/

theorem derives_trans {a b c : String} (h1 : Derives a b) (h2 : Derives b c) : Derives a c := by
  induction h1 with
  | refl => exact h2
  | step hb _ ih => exact .step hb (ih h2)

theorem ancestors_derive (n : Nat) (c d : String) (h : d ∈ ancestors n c) : Derives c d := by
  induction n generalizing c with
  | zero => cases h
  | succ n ih =>
    simp only [ancestors, List.mem_cons, List.mem_flatMap] at h
    rcases h with rfl | ⟨b, hb, hd⟩
    · exact .refl _
    · exact .step hb (ih b hd)

/-- The classes of exc.py and the ones of python that the other models mention. -/
def knownClasses : List String :=
  classTable.map (·.name) ++ ["AttributeError", "KeyError", "IndexError", "TypeError", "ValueError", "AssertionError",
    "RecursionError", "Exception"]

/-- `isSubclass` is what it says: the class itself, or a base that is a subclass. -/
theorem C102_subclass (c d : String) (hc : c ∈ knownClasses) : isSubclass c d = true ↔ Derives c d := by
  have hall : ∀ c : String, c ∈ knownClasses → c ∈ ancestors 8 c ∧
      ∀ a : String, a ∈ ancestors 8 c → ∀ b : String, b ∈ basesOf a → b ∈ ancestors 8 c := by decide +kernel
  rw [isSubclass, List.contains_iff_mem]
  refine ⟨ancestors_derive 8 c d, fun h => ?_⟩
  obtain ⟨h0, hstep⟩ := hall c hc
  have key : ∀ a e : String, Derives a e → a ∈ ancestors 8 c → e ∈ ancestors 8 c := by
    intro a e ha
    clear h
    induction ha with
    | refl => exact id
    | step hb _ ih => exact fun hm => ih (hstep _ hm _ hb)
  exact key c d h h0

/-- `except NormalizeError` catches every exception of the library, and every class but that one formats a message. -/
theorem C102_catch (d : ClsDef) (hd : d ∈ classTable) :
    Derives d.name "NormalizeError" ∧ Derives d.name "Exception" ∧
      (d.name = "NormalizeError" ∨ (Derives d.name "StringFormatException" ∧ (findCls d.name).isSome = true)) := by
  have hall : ∀ d : ClsDef, d ∈ classTable → isSubclass d.name "NormalizeError" = true ∧
      isSubclass d.name "Exception" = true ∧ (d.name = "NormalizeError" ∨
        (isSubclass d.name "StringFormatException" = true ∧ (findCls d.name).isSome = true)) := by decide +kernel
  have hk : d.name ∈ knownClasses := List.mem_append_left _ (List.mem_map.mpr ⟨d, hd, rfl⟩)
  obtain ⟨h1, h2, h3⟩ := hall d hd
  exact ⟨(C102_subclass _ _ hk).mp h1, (C102_subclass _ _ hk).mp h2,
    h3.imp id (fun h => ⟨(C102_subclass _ _ hk).mp h.1, h.2⟩)⟩

/-- The `except` clauses of the other models catch the classes that exc.py says. -/
theorem C102_except (e : Exc) (c : String) (h : excName e = some c) :
    (e.isCoercion = true ↔ Derives c "CoercionError") ∧ (e.isAttribute = true ↔ Derives c "AttributeError") ∧
      (e.isKey = true ↔ Derives c "KeyError") ∧ (e.isIndex = true ↔ Derives c "IndexError") ∧
      (e.isLookup = true ↔ Derives c "LookupError") ∧
      (e.isFieldSelector = true ↔ Derives c "FieldSelectorException") := by
  have hk : c ∈ knownClasses := by
    cases e <;> simp only [excName, Option.some.injEq, reduceCtorEq] at h <;> subst h <;> decide +kernel
  simp only [← C102_subclass c _ hk]
  cases e <;> simp only [excName, Option.some.injEq, reduceCtorEq] at h <;> subst h <;>
    simp only [Exc.isCoercion, Exc.isAttribute, Exc.isKey, Exc.isIndex, Exc.isLookup, Exc.isFieldSelector] <;>
    decide +kernel

example : Derives "FieldSelectorKeyError" "LookupError" ∧ ¬ Derives "ValueCheckError" "CoercionError" := by
  rw [← C102_subclass _ _ (by decide +kernel), ← C102_subclass _ _ (by decide +kernel)]
  decide +kernel

end Normalize.Props
