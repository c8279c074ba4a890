import Verif.Lemmas.DiffOutside
import Verif.Props.DiffComplete

/-!
# C45, second part: differences outside the filter, with collections
-/

namespace Normalize.Diff
open Ident (IProp ICls Ty ItemTy CollKind Schema readAttr)
open Spec (Real Touches SameFor SameTouched SameParts SameMembers SamePair KeysOK)

/-- C45, second part: if two objects are changed only in what the selectors do not touch, the result of comparing
them with `compare_filter` is the same. -/
def C45_outside_statement : Prop := ∀ (D : Setup) (o : Opts) (ord : List MArg → List MArg) (h : Heads) (qs : List FS)
    (n : Nat) (x x' y y' : Val), (∀ p, D.compareAs p = none) → Ident.AtomLaws D.S → OrdOK D.hooks → Mfs.OrdOK ord →
    Built ord h qs → qs ≠ [] → FilterOnly o h → Real D.S x → Real D.S x' → Real D.S y → Real D.S y' →
    tagOf x ≠ none → tagOf x = tagOf y → SameTouched D.S qs [] (some x) (some x') → SameTouched D.S qs [] (some y) (some y') →
    diff D.hooks o n x y = diff D.hooks o n x' y'

namespace Ex

/-- People in clubs. -/
def clubCls : String → ICls
  | "Person" => { props := [{ name := "id" }, { name := "name" }] }
  | "People" => { coll := some (.list, .one (.cls "Person")) }
  | "Club" => { props := [{ name := "people", types := [.cls "People"] }] }
  | "Clubs" => { coll := some (.list, .one (.cls "Club")) }
  | _ => {}

/-- The classes with clubs. -/
def clubSchema : Schema := { schema with cls := clubCls }

/-- The default `DiffOptions` methods. -/
def clubSetup : Setup := { setup {} with S := clubSchema }

/-- `MultiFieldSelector([None, "people", None, "name"])` -/
def memberNames : Heads := [(.none, .node [(.str "people", .node [(.none, .node [(.str "name", .all)])])])]

theorem memberNames_built : Built id memberNames [[.none, .str "people", .none, .str "name"]] := .mk (.fs .nil) rfl

/-- A club. -/
def club (i : Int) : Val := .rcd "Club" [("people", .lcoll "People" [person i "Ann"])]

/-- A list of one club. -/
def clubs (i : Int) : Val := .lcoll "Clubs" [club i]

theorem clubs_real (i : Int) : Real clubSchema (clubs i) := by
  refine .lcoll ⟨⟨_, rfl⟩, ?_⟩ ?_
  · intro kd n hn x hx
    simp only [List.mem_singleton] at hx
    subst hx
    simp [clubSchema, clubCls] at hn
    simp [clsOf, club]
  · intro x hx
    simp only [List.mem_singleton] at hx
    subst hx
    refine .rcd (by simp [Ident.Proper, clubSchema, clubCls]) (by simp [clubSchema, clubCls]) ?_
    intro x hx
    simp only [List.mem_singleton] at hx
    subst hx
    refine .lcoll ⟨⟨_, rfl⟩, ?_⟩ ?_
    · intro kd n hn x hx
      simp only [List.mem_singleton] at hx
      subst hx
      simp [clsOf, person]
    · intro x hx
      simp only [List.mem_singleton] at hx
      subst hx
      refine .rcd (by simp [Ident.Proper, clubSchema, clubCls]) (by simp [clubSchema, clubCls]) ?_
      intro x hx
      simp only [List.mem_cons, List.not_mem_nil, or_false] at hx
      rcases hx with rfl | rfl <;> exact .atom _

theorem clubs_same : SameTouched clubSchema [[.none, .str "people", .none, .str "name"]] [] (some (clubs 1)) (some (clubs 2)) := by
  have h0 : ∀ p, Touches [[.none, .str "people", .none, .str "name"]] p → selects memberNames p = true :=
    fun p => (selects_iff ordOK_id memberNames_built (List.cons_ne_nil _ _) p).2
  refine .coll (kd := .list) (n := "Club") (c := "Clubs") (xs := [(.int 0, club 1)]) (ys := [(.int 0, club 2)]) rfl rfl rfl rfl rfl rfl ?_
  intro k u u' hk hk' _
  simp only [List.mem_singleton, Prod.mk.injEq] at hk hk'
  obtain ⟨rfl, rfl⟩ := hk
  obtain ⟨_, rfl⟩ := hk'
  refine .rcd ?_
  intro p hp _
  simp only [clubSchema, clubCls, List.mem_singleton] at hp
  subst hp
  refine .coll (kd := .list) (n := "Person") (c := "People") (xs := [(.int 0, person 1 "Ann")]) (ys := [(.int 0, person 2 "Ann")])
    rfl rfl rfl rfl rfl rfl ?_
  intro k u u' hk hk' _
  simp only [List.mem_singleton, Prod.mk.injEq] at hk hk'
  obtain ⟨rfl, rfl⟩ := hk
  obtain ⟨_, rfl⟩ := hk'
  refine .rcd ?_
  intro p hp ht
  simp only [clubSchema, clubCls, List.mem_cons, List.not_mem_nil, or_false] at hp
  rcases hp with rfl | rfl
  · exact absurd (h0 _ ht) (by decide +kernel)
  · exact .refl

end Ex

/-- C45, second part, is false of the code: the members of a collection that is inside the members of another are
identified by all their properties, also by those that the filter does not touch.  (`record_id` takes the part of
the filter for an item with `selector[k]`, identity.py:61, which does not find wildcards.) -/
theorem C45_outside_violated : ¬ C45_outside_statement := by
  intro h
  have := h Ex.clubSetup { compareFilter := some Ex.memberNames } id Ex.memberNames _ 9 (Ex.clubs 1) (Ex.clubs 2) (Ex.clubs 1)
    (Ex.clubs 1) (fun _ => rfl) ⟨Ex.laws.refl, Ex.laws.symm, Ex.laws.trans⟩ (fun _ _ => List.Perm.refl _) ordOK_id
    Ex.memberNames_built (List.cons_ne_nil _ _) ⟨rfl, rfl, rfl, rfl, rfl⟩ (Ex.clubs_real 1) (Ex.clubs_real 2) (Ex.clubs_real 1)
    (Ex.clubs_real 1) (by simp [Ex.clubs, tagOf]) rfl Ex.clubs_same .refl
  have h2 : (diff Ex.clubSetup.hooks { compareFilter := some Ex.memberNames } 9 (Ex.clubs 1) (Ex.clubs 1)).out ≠
      (diff Ex.clubSetup.hooks { compareFilter := some Ex.memberNames } 9 (Ex.clubs 2) (Ex.clubs 1)).out := by
    decide +kernel
  exact h2 (congrArg Gen.out this)

/-- C45 (partial), second part, with collections: differences outside the filter do not affect the result, also those
in the members of collections of records, as long as the properties of these members that the filter touches are the same (so
the members of collections inside members of collections do not change: `C45_outside_violated`). -/
theorem C45_members_partial (D : Setup) (o : Opts) (hc : ∀ p, D.compareAs p = none) (hd : o.duckType = false)
    (ho : OrdOK D.hooks) {ord : List MArg → List MArg} (hord : Mfs.OrdOK ord) {h : Heads} {qs : List FS}
    (hb : Built ord h qs) (hq : qs ≠ []) (hf : o.compareFilter = some h) (n : Nat) (x x' y y' : Val)
    (ht : tagOf x = tagOf y) (hs : SamePair D.S qs [] (some x) (some y) (some x') (some y')) :
    diff D.hooks o n x y = diff D.hooks o n x' y' := by
  obtain ⟨w, _, he⟩ := built_sound hord hb
  have hnon : Mfs.nonEmpty h = true := by
    cases h with
    | nil => exact absurd (he.1 rfl) hq
    | cons _ _ => rfl
  have ha : o.active = some h := by
    unfold Opts.active
    rw [hf]
    simp [Option.filter, hnon]
  exact outside_pairs D hc hd ho w ha (selects_iff hord hb hq) n [] [] _ _ _ _
    ((selects_iff hord hb hq []).1 hnon) hs (by
    intro u v hu hv
    cases hu
    cases hv
    exact ht)

namespace Ex

/-- A document with people that have the ids given. -/
def docOf (i j : Int) : Val :=
  .rcd "Doc" [("title", .str "t"), ("people", .lcoll "People" [person i "Ann", person j "Bob"]), ("tags", .list [.int i])]

end Ex

/-- The hypotheses of `C45_members_partial` are met by documents with people whose ids differ, although these are
the primary keys: with the filter, the people are identified by their names. -/
example : SamePair Ex.schema Ex.fields [] (some (Ex.docOf 1 2)) (some (Ex.docOf 2 1)) (some (Ex.docOf 3 4))
    (some (Ex.docOf 5 6)) := by
  have h0 : ∀ p, Touches Ex.fields p → selects Ex.someFields p = true :=
    fun p => (selects_iff ordOK_id Ex.someFields_built (List.cons_ne_nil _ _) p).2
  have hm : ∀ i j i' j', SameMembers Ex.schema Ex.fields ([] ++ [.str "people"]) (.lcoll "People" [Ex.person i "Ann", Ex.person j "Bob"])
      (.lcoll "People" [Ex.person i' "Ann", Ex.person j' "Bob"]) := by
    intro i j i' j'
    have hp : ∀ k i i' nm, SameParts Ex.schema Ex.fields ([] ++ [.str "people"] ++ [.int k]) (Ex.person i nm) (Ex.person i' nm) := by
      intro k i i' nm
      refine ⟨"Person", _, _, rfl, rfl, rfl, ?_⟩
      intro p hp ht
      simp only [Ex.schema, Ex.cls, List.cons_append, List.nil_append, List.mem_cons, List.not_mem_nil, or_false] at hp
      have hid : ¬ Touches Ex.fields ([] ++ [.str "people"] ++ [.int k] ++ [.str "id"]) := by
        intro ht
        have := h0 _ ht
        simp [selects, Ex.someFields, Mfs.getPath, Mfs.complete, Mfs.hasNone, Mfs.headKey, Mfs.lookup] at this
      rcases hp with rfl | rfl | rfl
      · exact absurd ht hid
      · rfl
      · exact absurd ht hid
    exact ⟨rfl, ⟨trivial, trivial⟩, _, _, rfl, rfl, .cons ⟨rfl, fun _ => hp _ _ _ _⟩ (.cons ⟨rfl, fun _ => hp _ _ _ _⟩ .nil)⟩
  refine .rcd ?_
  intro p hp ht
  have ht := h0 _ ht
  simp only [Ex.schema, Ex.cls, List.mem_cons, List.not_mem_nil, or_false] at hp
  rcases hp with rfl | rfl | rfl | rfl | rfl | rfl | rfl
  · exact .each .refl .refl
  · exact .each .refl .refl
  · exact .coll (c := "People") (kd := .list) (n := "Person") rfl rfl rfl (hm _ _ _ _) (hm _ _ _ _)
  · exact .each .refl .refl
  · exact absurd ht (by decide +kernel)
  · exact .each .refl .refl
  · exact .each .refl .refl

/-- So the diff of the two is empty, whatever the ids, while without the filter it is not. -/
example : diff (Ex.hooks {}) Ex.filtered 9 (Ex.docOf 1 2) (Ex.docOf 7 8) = { out := [] } ∧
    (diff (Ex.hooks {}) {} 9 (Ex.docOf 1 2) (Ex.docOf 7 8)).out.length = 5 := by
  decide +kernel

end Normalize.Diff
