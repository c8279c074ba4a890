import Verif.Props.VisitorTrip

/-!
# C54 and C55: cases that meet the hypotheses
-/

namespace Normalize.Visit
open Ident (IProp Ty ItemTy CollKind)
open Json (Setup clsOf)
open Spec

namespace Trips

/-- Only the title, and the names of the commenters. -/
def two : List FS := [[.str "title"], [.str "comments", .none, .str "name"]]

def twoHeads : Heads := (Mfs.init id (two.map .fs)).toOption.getD []

theorem two_built : Built id twoHeads two := .mk (.fs (.fs .nil)) rfl

def twoOpts : Opts := { filter := some twoHeads }

-- C54: the visit shows the two fields
example : FilterIs id twoOpts (some two) := .some rfl two_built (List.cons_ne_nil _ _)

def twoDoc : Val := .dict [(.str "title", .str "hello"),
  (.str "comments", .list [.dict [(.str "name", .str "bob")], .dict [(.str "name", .str "eve")]])]

theorem two_visit : visit blogJ 5 blogSelf twoOpts showTime (.rcd "Post" slots) = .ok twoDoc := by decide +kernel

example : ∃ d, ∃ f : IProp → Val, twoDoc = .dict d ∧
      (∀ p ∈ (blogJ.S.cls "Post").props, ∀ v, alookup slots p.name = some v → Chosen twoOpts (some two) [] p →
        ShowsSlot blogJ blogSelf twoOpts (some two) showTime [] (.val v) p (f p)) ∧
      (∀ p ∈ (blogJ.S.cls "Post").props, ∀ w, alookup d (.str p.name) = some w ↔
        Chosen twoOpts (some two) [] p ∧ (∃ v, alookup slots p.name = some v) ∧ Kept twoOpts (f p) ∧ w = f p) ∧
      ∀ x ∈ d, ∃ p ∈ (blogJ.S.cls "Post").props, x.1 = .str p.name :=
  C54 ok (ord := id) (fun _ _ => Iff.rfl) (.some rfl two_built (List.cons_ne_nil _ _)) rfl (by decide +kernel) rfl two_visit

end Trips

/-! ## C55 -/

theorem visited_single {self : IProp → Val} {c : String} {s : List (String × Val)} {path : FS} {x : Slot} {k : Comp}
    (h : Visited self (.rcd c s) path x) (hp : path = [k]) : ∃ nm, k = .str nm := by
  have nil : ∀ {path : FS} {x : Slot}, Visited self (.rcd c s) path x → path = [] → x = .val (.rcd c s) := by
    intro path x h hp
    cases h with
    | root => rfl
    | _ => simp at hp
  have last : ∀ {path : FS} {k' : Comp}, path ++ [k'] = [k] → path = [] ∧ k' = k := by
    intro path k' h
    have := List.append_inj' (s₁ := path) (s₂ := []) (t₁ := [k']) (t₂ := [k]) h rfl
    simpa using this
  cases h with
  | root => cases hp
  | slot h1 h2 => exact ⟨_, (last hp).2.symm⟩
  | item h1 h2 h3 =>
    cases nil h1 (last hp).1
    cases h2

/-- Two hooks that differ at the place `[0]` give the same visit of a record, which has no such place. -/
example (n : Nat) : map Trips.blogJ (Ex.atZero.hooks Trips.blogJ Trips.blogSelf) {} n (.val (.rcd "Post" Trips.slots))
      (.cls "Post") [] =
    map Trips.blogJ (Ex.never.hooks Trips.blogJ Trips.blogSelf) {} n (.val (.rcd "Post" Trips.slots)) (.cls "Post") [] := by
  have key : ∀ path x, Visited Trips.blogSelf (.rcd "Post" Trips.slots) path x → path ≠ [.int 0] := by
    intro path x h hp
    obtain ⟨nm, h⟩ := visited_single h hp
    cases h
  refine C55_visit (C := Ex.atZero) (C' := Ex.never) ⟨?_, ?_, fun _ _ _ _ _ => rfl, fun _ _ _ _ _ _ => rfl⟩ n
  · intro path x h; simp [Ex.atZero, Ex.never, key path x h]
  · intro path x p h _; simp [Ex.atZero, Ex.never, key path x h]

-- but they differ for a collection
example : map Ex.tagsJ (Ex.atZero.hooks Ex.tagsJ Trips.blogSelf) {} 5 (.val (.lcoll "Tags" [.str "a"])) (.cls "Tags") [] ≠
    map Ex.tagsJ (Ex.never.hooks Ex.tagsJ Trips.blogSelf) {} 5 (.val (.lcoll "Tags" [.str "a"])) (.cls "Tags") [] := by
  decide +kernel

/-- The default hooks raise no `AssertionError`. -/
example (n : Nat) (v : Val) : visit Trips.blogJ n Trips.blogSelf {} applyDefault v ≠ .error (.raw .assertionError) := by
  unfold visit
  split
  · refine C55_restored ⟨?_, ?_, ?_, ?_⟩ n _ _ _
    · intro x t path
      simp only [visitHooks, unpack]
      repeat' split
      all_goals first | simp | skip
      rename_i e he
      unfold unpackColl at he
      split at he <;> cases he
      simp
    · intro x p path
      cases x <;> simp [visitHooks, applyDefault]
    · intro l t path
      simp only [visitHooks, aggregate]
      repeat' split
      all_goals simp
    · intro mp mc t path
      simp only [visitHooks, reduce]
      repeat' split
      all_goals simp
  · simp

end Normalize.Visit
