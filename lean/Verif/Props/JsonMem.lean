import Verif.Lemmas.JsonMemTree
import Verif.Props.JsonOut

/-!
# C107: marshalling makes new documents

`to_json(record)`, `record.json_data()`: what becomes of the record and of everything else, and what the result
shares with them.
-/

namespace Normalize.JsonMem

open Normalize.Mem Normalize.Spec
open Ident (IProp)

/-- Marshalling, whether or not it ends with an exception, leaves every object what it was, except that lazy
properties may have got their values; what it returns is a document that consists of new objects only. -/
theorem C107 {W : World} (hW : Marshals W) (e : Bool) (n : Nat) (d : Bool) (m : Mem) (r : Ref) :
    FilledIn W m (out W e n d m r).1 ∧
      ∀ y, (out W e n d m r).2 = .ok y → AllNew m (out W e n d m r).1 y ∧ Document (out W e n d m r).1 y :=
  out_good hW n d m r

/-- Without lazy properties nothing at all is changed, and the document has no part in common with anything that
existed: changing either later does not affect the other. -/
theorem C107_separate {W : World} (hW : Marshals W) (hl : ∀ c p, W.lazy c p = none) (e : Bool) (n : Nat) (d : Bool)
    (m : Mem) (r : Ref) : OnlyNew m (out W e n d m r).1 ∧
      ∀ y, (out W e n d m r).2 = .ok y → ∀ x, Exist m x → Separate (out W e n d m r).1 y x := by
  have h := out_good (e := e) hW n d m r
  have hn := filled_onlyNew hl h.1
  refine ⟨hn, ?_⟩
  intro y hy x hx l hp
  have h1 := ((h.2 y hy).1 l hp.1).1
  have h2 := hx l ((part_onlyNew hn hx).mp hp.2)
  omega

/-- For objects that look like a tree, `to_json` does what it does to the tree; no part of the document occurs
twice in it, even if objects occur several times in what was marshalled. -/
theorem C107_same {W : World} (hW : Simple W) (e : Bool) {m : Mem} {t : Val} {r : Ref} (h : Looks m t r) :
    ∃ n0, ∀ n, n0 ≤ n → SameOut (Json.toJson W.J e t) (out W e n false m r) ∧
      SameOut (Json.jsonData W.J e t) (out W e n true m r) := by
  have key : ∀ (g : Except Exc Val) (q : Mem × Except Exc Ref), SameN m g q → SameOut g q := by
    intro g q h
    cases g with
    | error x => exact h
    | ok j =>
      obtain ⟨y, h1, ls, h2, h3, _⟩ := h
      exact ⟨y, h1, ls, h2, h3⟩
  obtain ⟨n0, h0⟩ := deep hW (e := e) t
  exact ⟨n0, fun n hn => ⟨key _ _ (h0 n hn false m r h).2.2, key _ _ (h0 n hn true m r h).2.2⟩⟩

/-- Marshalling the same record twice gives two documents that look alike and have no part in common. -/
theorem C107_again {W : World} (hW : Simple W) (e : Bool) {m : Mem} {t j : Val} {r : Ref} (h : Looks m t r)
    (hj : Json.toJson W.J e t = .ok j) :
    ∃ n0, ∀ n, n0 ≤ n → ∃ m1 y1 m2 y2, out W e n false m r = (m1, .ok y1) ∧ out W e n false m1 r = (m2, .ok y2) ∧
      Unshared m2 j y1 ∧ Unshared m2 j y2 ∧ Separate m2 y1 y2 := by
  obtain ⟨n0, h0⟩ := deep hW (e := e) t
  refine ⟨n0, ?_⟩
  intro n hn
  have h1 := h0 n hn false m r h
  have g1 := (out_good (e := e) (simple_marshals hW) n false m r).2
  generalize out W e n false m r = q at h1 g1
  obtain ⟨m1, q⟩ := q
  obtain ⟨hl1, hn1, h1⟩ := h1
  simp only [treeOut, hj] at h1
  obtain ⟨y1, hy1, ls1, ho1, hd1, _⟩ := h1
  simp only at hy1 ho1
  subst hy1
  have h2 := h0 n hn false m1 r (looks_onlyNew h hn1)
  have g2 := (out_good (e := e) (simple_marshals hW) n false m1 r).2
  refine ⟨m1, y1, (out W e n false m1 r).1, ?_⟩
  generalize out W e n false m1 r = q at h2 g2
  obtain ⟨m2, q⟩ := q
  obtain ⟨hl2, hn2, h2⟩ := h2
  simp only [treeOut, hj] at h2
  obtain ⟨y2, hy2, ls2, ho2, hd2, _⟩ := h2
  simp only at hy2 ho2 hn2
  subst hy2
  refine ⟨y2, rfl, rfl, ⟨ls1, owns_onlyNew ho1 hn2, hd1⟩, ⟨ls2, ho2, hd2⟩, ?_⟩
  intro l hp
  have he1 : Exist m1 y1 := looks_exist ⟨ls1, ho1⟩
  have a := he1 l ((part_onlyNew hn2 he1).mp hp.1)
  have b := ((g2 y2 rfl).1 l hp.2).1
  omega

/-! ## A concrete case -/

/-- Two classes; the second is a `JsonRecord`. -/
def exOutCls : String → Ident.ICls
  | "Tag" => { props := [{ name := "label" }] }
  | "Post" => { props := [{ name := "title" }, { name := "tags" }, { name := "first" },
      { name := "unknown_json_keys", extraneous := true }] }
  | _ => {}

def exOutJ : Json.Setup :=
  { S := Json.exSchema exOutCls
    info := fun c p => if c = "Post" ∧ p = "unknown_json_keys" then { json := some { jsonName := some none } } else {}
    isJson := fun c => c == "Post"
    isa := fun _ _ => false
    make := fun _ _ => .error .typeError
    loads := fun _ => .error .valueError }

def exOutW : World := { J := exOutJ }

theorem exOut_simple : Simple exOutW where
  jout _ _ := rfl
  lazy _ _ := rfl
  json c p := by
    simp only [exOutW, exOutJ]
    split <;> rfl
  empty c p := by
    simp only [exOutW, exOutJ]
    split <;> rfl

/-- A post whose first tag is also in its list of tags, with an unknown key. -/
def exOutM : Mem :=
  [.rcd "Tag" [("label", .atom (.str "x"))], .list [.ptr 0, .ptr 0], .list [.atom (.int 1)],
   .dict [(.str "extra", .ptr 2)],
   .rcd "Post" [("title", .atom (.str "t")), ("tags", .ptr 1), ("first", .ptr 0), ("unknown_json_keys", .ptr 3)]]

def exTag : Val := .rcd "Tag" [("label", .str "x")]

def exPost : Val := .rcd "Post" [("title", .str "t"), ("tags", .list [exTag, exTag]), ("first", exTag),
  ("unknown_json_keys", .dict [(.str "extra", .list [.int 1])])]

theorem exOut_looks : Looks exOutM exPost (.ptr 4) := by
  refine ⟨[4, 1, 0, 0, 0, 3, 2], ?_⟩
  simp [exPost, exTag, Owns, OwnsL, OwnsC, OwnsS, exOutM, Val.str, Val.int]

example : out exOutW true 5 true exOutM (.ptr 4) =
    (exOutM ++ [.dict [(.str "label", .atom (.str "x"))], .dict [(.str "label", .atom (.str "x"))], .list [.ptr 5, .ptr 6],
      .dict [(.str "label", .atom (.str "x"))], .list [.atom (.int 1)],
      .dict [(.str "title", .atom (.str "t")), (.str "tags", .ptr 7), (.str "first", .ptr 8), (.str "extra", .ptr 9)]],
     .ok (.ptr 10)) := by decide +kernel

/-- The theorems apply to it. -/
example : ∃ n0, ∀ n, n0 ≤ n → SameOut (Json.toJson exOutJ true exPost) (out exOutW true n false exOutM (.ptr 4)) ∧
    SameOut (Json.jsonData exOutJ true exPost) (out exOutW true n true exOutM (.ptr 4)) :=
  C107_same exOut_simple true exOut_looks

example : ∃ j, Json.toJson exOutJ true exPost = .ok j := ⟨_, rfl⟩

/-! ## What does not hold -/

/-- Marshalling a record leaves everything what it was. -/
def C107_unchanged_statement : Prop := ∀ (W : World), Marshals W → ∀ e n d m r, OnlyNew m (out W e n d m r).1

/-- A class with a lazy property. -/
def exLazyW : World :=
  { J := { exOutJ with S := Json.exSchema (fun _ => { props := [{ name := "size" }] }) }
    lazy := fun c p => if c = "Box" ∧ p = "size" then some (fun m _ => (m, .ok (.atom (.int 3)))) else none }

theorem exLazy_marshals : Marshals exLazyW where
  jout c p f hf := by cases hf
  lazy c p f hf m r := by
    simp only [exLazyW] at hf
    split at hf
    · cases hf
      exact ⟨filled_refl m, fun h => h⟩
    · cases hf

/-- `to_json(Box())` sets the lazy property of the box. -/
theorem C107_unchanged_violated : ¬ C107_unchanged_statement := by
  intro h
  have := h exLazyW exLazy_marshals true 2 false [.rcd "Box" []] (.ptr 0) 0 (by decide)
  revert this
  decide +kernel

example : out exLazyW true 2 false [.rcd "Box" []] (.ptr 0) =
    ([.rcd "Box" [("size", .atom (.int 3))], .dict [(.str "size", .atom (.int 3))]], .ok (.ptr 1)) := by decide +kernel

/-- Marshalling ends, however deep the objects are nested. -/
def C107_ends_statement : Prop := ∀ (W : World), Simple W → ∀ e d m r, Exist m r →
  ∃ n0, ∀ n, n0 ≤ n → (out W e n d m r).2 ≠ .error recursion

/-- A tag that is its own label. -/
def exCycle : Mem := [.rcd "Tag" [("label", .ptr 0)]]

/-- A record that is part of itself cannot be marshalled: the recursion does not end. -/
theorem C107_ends_violated : ¬ C107_ends_statement := by
  intro h
  have hx : Exist exCycle (.ptr 0) := by
    have hr : Reg exCycle (fun l => l = 0) := by
      refine ⟨fun l hl => by subst hl; decide, ?_⟩
      intro l o hl ho k hk
      subst hl
      simp only [exCycle, List.getElem?_cons_zero, Option.some.injEq] at ho
      subst ho
      simp only [kids, List.map_cons, List.map_nil, List.mem_singleton] at hk
      subst hk
      rfl
    exact hr.exist (r := .ptr 0) rfl
  obtain ⟨n0, h0⟩ := h exOutW exOut_simple true false exCycle (.ptr 0) hx
  have key : ∀ n d, out exOutW true n d exCycle (.ptr 0) = (exCycle, .error recursion) := by
    intro n
    induction n with
    | zero => intro d; rfl
    | succ n ih =>
      intro d
      have hd : deref exCycle (.ptr 0) = .rcd "Tag" [("label", .ptr 0)] := rfl
      have hp : (exOutW.J.S.cls "Tag").props = [{ name := "label" }] := rfl
      have hnm : Json.jsonName exOutW.J "Tag" { name := "label" } = some "label" := by decide +kernel
      have hs : slotOf (Obj.rcd "Tag" [("label", .ptr 0)]) "label" = some (.ptr 0) := by decide +kernel
      have hread : readProp exOutW "Tag" { name := "label" } exCycle (.ptr 0) = (exCycle, some (.ok (.ptr 0))) := by
        unfold readProp
        rw [hd]
        simp only [hs]
      have hc : convOf exOutW (out exOutW true n true) "Tag" { name := "label" } = out exOutW true n true := rfl
      have hw : writeProp exOutW (out exOutW true n true) true "Tag" (.ptr 0) { name := "label" } exCycle [] =
          (exCycle, .error recursion) := by
        unfold writeProp
        rw [if_neg (by decide), hnm]
        simp only
        rw [hread]
        simp only
        rw [hc, ih true]
        rfl
      have hws : writeProps exOutW (out exOutW true n true) true "Tag" (.ptr 0) [{ name := "label" }] exCycle [] =
          (exCycle, .error recursion) := by
        simp only [writeProps]
        rw [hw]
      simp only [out]
      rw [hd]
      simp only [rcdOut]
      rw [hp, hws]
      rfl
  exact h0 n0 (Nat.le_refl _) (by rw [key])

end Normalize.JsonMem
