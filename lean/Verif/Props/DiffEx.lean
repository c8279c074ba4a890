import Verif.Model.DiffDefault
import Verif.Lemmas.DiffDefault
import Verif.Spec.Diff
import Verif.Props.DiffText

/-!
# An example setup for the diff theorems

A document with a title, an author, a list of people (identified by `id`), a plain list of tags and a plain
dict of scores; `note` is extraneous.
-/

namespace Normalize.Diff.Ex
open Normalize.Ident (IProp ICls Schema Ty)

/-- The classes. -/
def cls : String → ICls
  | "Person" => { props := [{ name := "id" }, { name := "name" }], pk := [{ name := "id" }] }
  | "People" => { coll := some (.list, .one (.cls "Person")) }
  | "Word" => { props := [{ name := "text" }, { name := "lang" }] }
  | "Words" => { coll := some (.list, .one (.cls "Word")) }
  | "Names" => { coll := some (.list, .one (.other 1)) }
  | "Doc" =>
    { props := [{ name := "title" }, { name := "author", types := [.cls "Person"] },
        { name := "people", types := [.cls "People"] }, { name := "words", types := [.cls "Words"] },
        { name := "tags" }, { name := "scores" }, { name := "note", extraneous := true }] }
  | _ => {}

/-- What python does with objects without parts. -/
def schema : Schema where
  cls := cls
  atomEq a b := decide (a = b)
  atomHash _ := some 7
  falsy a := decide (a = .none ∨ a = .bool false ∨ a = .int 0 ∨ a = .str "")
  tupleHash := List.sum
  mixL _ _ _ := .ok false
  mixD _ _ _ := .ok false

/-- The default `DiffOptions` methods. -/
def setup (t : TextOpts := {}) : Setup where
  S := schema
  U := ascii
  text := t
  repr _ := "<...>"
  depth := 9

/-- The hooks. -/
abbrev hooks (t : TextOpts := {}) : Hooks Ident.Key Val := (setup t).hooks

theorem ordOK (t : TextOpts) : OrdOK (hooks t) := fun _ _ => List.Perm.refl _

theorem plain (t : TextOpts) : Spec.PlainSlots (hooks t) := plain_default _ (.none fun _ => rfl)

/-- A function for `compare_as`: a text is compared by its length. -/
def textLength : Val → Val
  | .atom (.str s) => .atom (.int s.length)
  | v => v

/-- The same, with names of people compared by their length. -/
def setupLengths : Setup :=
  { setup {} with compareAs := fun p => if p.name = "name" then some fun _ v => .ok (textLength v) else none }

theorem pureLengths : Spec.ComparePure setupLengths := by
  intro p f hf
  have hf' : (if p.name = "name" then some fun (_ : Val) v => Except.ok (ε := Exc) (textLength v) else none) = some f := hf
  split at hf'
  · obtain rfl : (fun (_ : Val) v => Except.ok (ε := Exc) (textLength v)) = f := by simpa using hf'
    refine ⟨textLength, fun _ _ => rfl, fun x => ?_⟩
    cases x with
    | atom a => exact .inr ⟨⟨a, rfl⟩, by cases a <;> exact ⟨_, rfl⟩⟩
    | _ => exact .inl rfl
  · simp at hf'

theorem flatLengths : Spec.CompareFlat setupLengths := pureLengths.flat

/-- A person. -/
def person (i : Int) (n : String) : Val := .rcd "Person" [("id", .int i), ("name", .str n)]

/-- A word. -/
def word (t l : String) : Val := .rcd "Word" [("text", .str t), ("lang", .str l)]

/-- A document. -/
def docA : Val := .rcd "Doc" [("title", .str "A  title"), ("author", person 1 "Ann"),
  ("people", .lcoll "People" [person 1 "Ann", person 2 "Bob", person 3 "Cid"]),
  ("words", .lcoll "Words" [word "red" "en", word "rot" "de", word "blu" "it"]),
  ("tags", .list [.str "x", .str "y", .str "y"]),
  ("scores", .dict [(.str "k", .int 1), (.str "l", .int 2)]), ("note", .str "one")]

/-- Another one. -/
def docB : Val := .rcd "Doc" [("title", .str "A title"), ("author", person 1 "Anna"),
  ("people", .lcoll "People" [person 2 "Bob", person 3 "Sid", person 4 "Dan"]),
  ("words", .lcoll "Words" [word "red" "en", word "rouge" "de", word "green" "en"]),
  ("tags", .list [.str "x", .str "z", .str "y", .str "w"]),
  ("scores", .dict [(.str "k", .int 3), (.str "m", .int 2)]), ("note", .str "two")]

/-! Both are real objects. -/

theorem real_person (i : Int) (n : String) : Spec.Real schema (person i n) := by
  refine .rcd (by simp [Ident.Proper, schema, cls]) (by simp [schema, cls]) ?_
  intro x hx
  simp only [List.mem_cons, List.not_mem_nil, or_false] at hx
  rcases hx with rfl | rfl <;> exact .atom _

theorem real_word (t l : String) : Spec.Real schema (word t l) := by
  refine .rcd (by simp [Ident.Proper, schema, cls]) (by simp [schema, cls]) ?_
  intro x hx
  simp only [List.mem_cons, List.not_mem_nil, or_false] at hx
  rcases hx with rfl | rfl <;> exact .atom _

theorem real_people {l : List Val} (h : ∀ x ∈ l, ∃ i n, x = person i n) : Spec.Real schema (.lcoll "People" l) :=
  .lcoll ⟨⟨_, rfl⟩, by intro kd n _ x hx; obtain ⟨i, m, rfl⟩ := h x hx; simp [clsOf, person]⟩
    (by intro x hx; obtain ⟨i, m, rfl⟩ := h x hx; exact real_person i m)

theorem real_words {l : List Val} (h : ∀ x ∈ l, ∃ i n, x = word i n) : Spec.Real schema (.lcoll "Words" l) :=
  .lcoll ⟨⟨_, rfl⟩, by intro kd n _ x hx; obtain ⟨i, m, rfl⟩ := h x hx; simp [clsOf, word]⟩
    (by intro x hx; obtain ⟨i, m, rfl⟩ := h x hx; exact real_word i m)

theorem real_atoms {l : List Val} (h : ∀ x ∈ l, ∃ a, x = .atom a) : Spec.Real schema (.list l) :=
  .list (by intro x hx; obtain ⟨a, rfl⟩ := h x hx; exact .atom a)

theorem real_docA : Spec.Real schema docA := by
  refine .rcd (by simp [Ident.Proper, schema, cls]) (by simp [schema, cls]) ?_
  intro x hx
  simp only [List.mem_cons, List.not_mem_nil, or_false] at hx
  rcases hx with rfl | rfl | rfl | rfl | rfl | rfl | rfl
  · exact .atom _
  · exact real_person _ _
  · exact real_people (by simp)
  · exact real_words (by simp)
  · exact real_atoms (by simp; exact ⟨⟨_, rfl⟩, ⟨_, rfl⟩⟩)
  · exact .dict (by simp) (by simp; exact ⟨.atom _, .atom _⟩)
  · exact .atom _

theorem real_docB : Spec.Real schema docB := by
  refine .rcd (by simp [Ident.Proper, schema, cls]) (by simp [schema, cls]) ?_
  intro x hx
  simp only [List.mem_cons, List.not_mem_nil, or_false] at hx
  rcases hx with rfl | rfl | rfl | rfl | rfl | rfl | rfl
  · exact .atom _
  · exact real_person _ _
  · exact real_people (by simp)
  · exact real_words (by simp)
  · exact real_atoms (by simp; exact ⟨⟨_, rfl⟩, ⟨_, rfl⟩, ⟨_, rfl⟩, ⟨_, rfl⟩⟩)
  · exact .dict (by simp) (by simp; exact ⟨.atom _, .atom _⟩)
  · exact .atom _

theorem laws : Ident.AtomLaws schema where
  refl a := by simp [schema]
  symm a b h := by simp [schema] at h ⊢; exact h.symm
  trans a b c h g := by simp [schema] at h g ⊢; exact h.trans g

end Normalize.Diff.Ex
