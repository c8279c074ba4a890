import Verif.Lemmas.DiffComplete
import Verif.Props.DiffAgree

/-!
# C112: a filtered diff misses nothing
-/

namespace Normalize.Diff
open Ident (IProp ICls Ty ItemTy CollKind Schema readAttr)
open Spec (Real Touches Whole AgreeFor Compared)

/-- A comparison with a filter and otherwise the default options (any text options, `unchanged`, `moved`,
`extraneous` and `fuzzy_match`). -/
structure FilterOnly (o : Opts) (h : Heads) : Prop where
  duck : o.duckType = false
  recurse : o.recurse = false
  slots : o.ignoreEmptySlots = false
  items : o.ignoreEmptyItems = false
  filter : o.compareFilter = some h

/-- C112: if a comparison with `compare_filter` ends and reports no difference, the two objects agree in everything
that the selectors touch. -/
def C112_statement : Prop := ∀ (D : Setup) (o : Opts) (ord : List MArg → List MArg) (h : Heads) (qs : List FS)
    (n : Nat) (x y : Val), (∀ p, D.compareAs p = none) → OrdOK D.hooks → Mfs.OrdOK ord → Built ord h qs → qs ≠ [] →
    FilterOnly o h → Real D.S x → Real D.S y → tagOf x ≠ none → tagOf x = tagOf y →
    (diff D.hooks o n x y).exc = none →
    (∀ d ∈ (diff D.hooks o n x y).out, d.kind = .noChange ∨ d.kind = .moved) →
    AgreeFor D.hooks o qs (fun q k => Touches qs (q ++ [k])) [] (some x) (some y)

namespace Ex

/-- `MultiFieldSelector([0, "name"])` -/
def firstName : Heads := [(.int 0, .node [(.str "name", .all)])]

theorem firstName_built : Built id firstName [[.int 0, .str "name"]] := .mk (.fs .nil) rfl

/-- A list of people. -/
def peopleA : Val := .lcoll "People" [person 1 "Ann"]

/-- The same, but for the name. -/
def peopleB : Val := .lcoll "People" [person 1 "Eve"]

theorem peopleA_real : Real schema peopleA := real_people (by intro x hx; simp at hx; exact ⟨_, _, hx⟩)

theorem peopleB_real : Real schema peopleB := real_people (by intro x hx; simp at hx; exact ⟨_, _, hx⟩)

theorem names_differ {o : Opts} {q : FS} {qs : List FS} {pick : FS → Comp → Prop}
    (ht : Touches qs (q ++ [.str "name"])) :
    ¬ AgreeFor (hooks {}) o qs pick q (some (person 1 "Ann")) (some (person 1 "Eve")) := by
  intro h
  generalize ha : (some (person 1 "Ann")) = a at h
  generalize hb : (some (person 1 "Eve")) = b at h
  cases h with
  | unset => simp at ha
  | equal h1 _ =>
    simp at ha hb
    subst ha hb
    simp [person, tagOf] at h1
  | simple _ _ h1 =>
    simp at ha
    subst ha
    obtain ⟨xs, hxs, _⟩ := h1
    simp [person, tuplesOf] at hxs
  | records ps _ _ _ h1 =>
    simp at ha
    subst ha
    simp [person, tuplesOf] at h1
  | record va vb h1 h2 h3 =>
    simp only [Option.some.injEq, person, Val.rcd.injEq] at ha hb
    obtain ⟨rfl, rfl⟩ := ha
    obtain ⟨_, rfl⟩ := hb
    have hp : ({ name := "name" } : IProp) ∈ ((hooks {}).S.cls "Person").props := by
      show _ ∈ [({ name := "id" } : IProp), { name := "name" }]
      simp
    have hc : Compared o ({ name := "name" } : IProp) := fun _ => rfl
    have g1 := h1 _ hp hc ht
    have g2 := h2 _ hp hc ht
    have g3 := h3 _ hp hc ht
    have e1 : va { name := "name" } = some (.str "Ann") := by
      have : (hooks {}).normSlot (readAttr (hooks {}).S (.rcd "Person" [("id", .int 1), ("name", .str "Ann")]) "name")
          { name := "name" } (some (.rcd "Person" [("id", .int 1), ("name", .str "Ann")])) = .ok (some (.str "Ann")) := by
        decide +kernel
      rw [this] at g1
      exact (Except.ok.inj g1).symm
    have e2 : vb { name := "name" } = some (.str "Eve") := by
      have : (hooks {}).normSlot (readAttr (hooks {}).S (.rcd "Person" [("id", .int 1), ("name", .str "Eve")]) "name")
          { name := "name" } (some (.rcd "Person" [("id", .int 1), ("name", .str "Eve")])) = .ok (some (.str "Eve")) := by
        decide +kernel
      rw [this] at g2
      exact (Except.ok.inj g2).symm
    rw [e1, e2] at g3
    cases g3 with
    | equal _ h => exact absurd h (by decide +kernel)
    | simple _ _ h =>
      obtain ⟨xs, hxs, _⟩ := h
      simp [tuplesOf, Val.str] at hxs
    | records ps _ _ _ h => simp [tuplesOf, Val.str] at h

theorem people_differ {o : Opts} {qs : List FS} {pick : FS → Comp → Prop} (hp : pick [] (.int 0))
    (ht : Touches qs [.int 0, .str "name"]) :
    ¬ AgreeFor (hooks {}) o qs pick [] (some peopleA) (some peopleB) := by
  intro h
  generalize ha : (some peopleA) = a at h
  generalize hb : (some peopleB) = b at h
  cases h with
  | unset => simp at ha
  | equal h1 _ =>
    simp at ha hb
    subst ha hb
    simp [peopleA, peopleB, tagOf] at h1
  | simple _ h1 =>
    simp at ha
    subst ha
    obtain ⟨kd, t, h2⟩ := h1 "People" rfl
    simp [hooks, Setup.hooks, setup, schema, cls] at h2
  | record va vb => simp [peopleA] at ha
  | records ps _ _ _ h1 h2 _ _ h3 h4 _ h5 =>
    simp at ha hb
    subst ha hb
    simp only [tuplesOf, peopleA, peopleB, Except.ok.injEq] at h1 h2
    subst h1 h2
    have hm : ((.int 0, person 1 "Ann") : Comp × Val) ∈ ps.map (·.1) := (h3 _).2 ⟨by simp [Ident.enum], hp⟩
    obtain ⟨p, hp', e1⟩ := List.mem_map.1 hm
    have hw := ((h4 p.2).1 (List.mem_map_of_mem hp')).1
    have e2 : p.2 = (.int 0, person 1 "Eve") := by simpa [Ident.enum] using hw
    have h6 := h5 p hp'
    rw [e1, e2] at h6
    exact names_differ (q := [] ++ [.int 0]) ht h6

end Ex

/-- C112 is false of the code: if a selector names a member of a collection of records by its key and then a part
of it, that member is not compared at all.  (The keys are looked up with `fs in compare_filter`, diff.py:661, which
is true only of members that are selected as a whole.) -/
theorem C112_violated : ¬ C112_statement := by
  intro h
  have ht : Touches [[.int 0, .str "name"]] [.int 0, .str "name"] :=
    (selects_iff ordOK_id Ex.firstName_built (List.cons_ne_nil _ _) _).1 (by decide +kernel)
  have h0 : Touches [[.int 0, .str "name"]] ([] ++ [.int 0]) :=
    (selects_iff ordOK_id Ex.firstName_built (List.cons_ne_nil _ _) _).1 (by decide +kernel)
  have h1 := h (Ex.setup {}) { compareFilter := some Ex.firstName } id Ex.firstName _ 9 Ex.peopleA Ex.peopleB
    (fun _ => rfl) (Ex.ordOK {}) ordOK_id Ex.firstName_built (List.cons_ne_nil _ _) ⟨rfl, rfl, rfl, rfl, rfl⟩
    Ex.peopleA_real Ex.peopleB_real (by simp [Ex.peopleA, tagOf]) rfl (by decide +kernel) (by decide +kernel)
  exact Ex.people_differ h0 ht h1

/-- C112 (partial): an empty filtered diff means agreement in everything that the selectors touch, at any depth of
nesting, except for members of collections of records that are named by key and selected only in part.  What is
missing: those members (`C112_violated`). -/
theorem C112_partial (D : Setup) (o : Opts) (ord : List MArg → List MArg) (h : Heads) (qs : List FS)
    (n : Nat) (x y : Val) (hc : Spec.CompareFlat D) (ho : OrdOK D.hooks) (hord : Mfs.OrdOK ord)
    (hb : Built ord h qs) (hq : qs ≠ []) (hf : FilterOnly o h) (hx : Real D.S x) (hy : Real D.S y)
    (hcx : tagOf x ≠ none) (ht : tagOf x = tagOf y) (hend : (diff D.hooks o n x y).exc = none)
    (hno : ∀ d ∈ (diff D.hooks o n x y).out, d.kind = .noChange ∨ d.kind = .moved) :
    AgreeFor D.hooks o qs (fun q k => (∀ k', Touches qs (q ++ [k'])) ∨ Whole qs (q ++ [k])) [] (some x) (some y) := by
  obtain ⟨w, hcov, he⟩ := built_sound hord hb
  have hnon : Mfs.nonEmpty h = true := by
    cases h with
    | nil => exact absurd (he.1 rfl) hq
    | cons _ _ => rfl
  have ha : o.active = some h := by
    unfold Opts.active
    rw [hf.filter]
    simp [Option.filter, hnon]
  have hs : StdF D.hooks o h := ⟨ho, closed_default D hc, tupIds_default D, plain_default D hc, hf.duck, hf.recurse,
    hf.slots, hf.items, w, ha⟩
  have hcmp : comparable x = true := by
    cases hx' : tagOf x with
    | none => exact absurd hx' hcx
    | some _ => simp [comparable, hx']
  exact agreeFor_of_still hs (selects_iff hord hb hq) hcov (fun q k => Iff.rfl) n x y [] [] hx hy hcmp ht
    ((selects_iff hord hb hq []).1 hnon) ⟨hend, hno⟩

/-- So a filter with a wildcard, or one that selects whole members, finds what it selects: two lists of people are
told apart by the name of the first one. -/
example : ¬ AgreeFor (Ex.hooks {}) {} [[.none, .str "name"]] (fun q k => (∀ k', Touches [[.none, .str "name"]] (q ++ [k'])) ∨
    Whole [[.none, .str "name"]] (q ++ [k])) [] (some Ex.peopleA) (some Ex.peopleB) := by
  have hall : ∀ k, Touches [[.none, .str "name"]] ([] ++ [k]) :=
    fun k => ⟨[.str "name"], _, List.mem_singleton.2 rfl, .wild _ (.same _ (.nil _))⟩
  exact Ex.people_differ (.inl hall) ⟨[], _, List.mem_singleton.2 rfl, .wild _ (.same _ (.nil _))⟩

namespace Ex

/-- A document that differs from `docA` in what `someFields` does not select. -/
def docT : Val := .rcd "Doc" [("title", .str "A  title"), ("author", person 1 "Anna"),
  ("people", .lcoll "People" [person 1 "Ann", person 2 "Bob", person 3 "Cid"]),
  ("tags", .list [.str "z"]), ("scores", .dict [])]

theorem docT_real : Real schema docT := by
  refine .rcd (by simp [Ident.Proper, schema, cls]) (by simp [schema, cls]) ?_
  intro x hx
  simp only [List.mem_cons, List.not_mem_nil, or_false] at hx
  rcases hx with rfl | rfl | rfl | rfl | rfl
  · exact .atom _
  · exact real_person _ _
  · exact real_people (by simp)
  · exact real_atoms (by simp; exact ⟨_, rfl⟩)
  · exact .dict (by simp) (by simp)

end Ex

/-- The hypotheses are met: a filtered comparison of two documents that differ elsewhere reports nothing. -/
example : FilterOnly Ex.filtered Ex.someFields ∧ Built id Ex.someFields Ex.fields ∧ Ex.fields ≠ [] ∧
    Real Ex.schema Ex.docA ∧ Real Ex.schema Ex.docT ∧ tagOf Ex.docA ≠ none ∧ tagOf Ex.docA = tagOf Ex.docT ∧
    (diff (Ex.hooks {}) Ex.filtered 9 Ex.docA Ex.docT).exc = none ∧
    (diff (Ex.hooks {}) Ex.filtered 9 Ex.docA Ex.docT).out = [] ∧
    (diff (Ex.hooks {}) {} 9 Ex.docA Ex.docT).out ≠ [] :=
  ⟨⟨rfl, rfl, rfl, rfl, rfl⟩, Ex.someFields_built, List.cons_ne_nil _ _, Ex.real_docA, Ex.docT_real,
    by simp [Ex.docA, tagOf], rfl, by decide +kernel, by decide +kernel, by decide +kernel⟩

end Normalize.Diff
