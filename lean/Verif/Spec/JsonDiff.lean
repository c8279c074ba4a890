import Verif.Model.Diff

/-!
# What a list of differences says in JSON

Read without the library: each entry names the kind of the difference and the two places, a place being an array of
names, indices and nulls.
-/

namespace Normalize.Spec
open Diff (DType DInfo)

/-- An element of a place in JSON. -/
inductive JsonStep : Val → Comp → Prop
  | name (s : String) : JsonStep (.atom (.str s)) (.str s)
  | index (i : Int) : JsonStep (.atom (.int i)) (.int i)
  | every : JsonStep (.atom .none) .none

/-- The word for a kind of difference. -/
inductive KindWord : String → DType → Prop
  | none : KindWord "none" .noChange
  | added : KindWord "added" .added
  | removed : KindWord "removed" .removed
  | modified : KindWord "modified" .modified
  | moved : KindWord "moved" .moved

/-- The JSON object says this difference, and nothing more. -/
structure SaysInfo (j : Val) (d : DInfo) : Prop where
  form : ∃ (es : List (Comp × Val)) (w : String) (b o : List Val), j = .dict es ∧ (es.map (·.1)).Nodup ∧
    (∀ k, k ∈ es.map (·.1) → k = .str "diff_type" ∨ k = .str "base" ∨ k = .str "other") ∧
    alookup es (.str "diff_type") = some (.atom (.str w)) ∧ KindWord w d.kind ∧
    alookup es (.str "base") = some (.list b) ∧ List.Forall₂ JsonStep b d.base ∧
    alookup es (.str "other") = some (.list o) ∧ List.Forall₂ JsonStep o d.other

/-- The JSON array says these differences, in this order. -/
def SaysDiff (j : Val) (ds : List DInfo) : Prop := ∃ js, j = .list js ∧ List.Forall₂ SaysInfo js ds

end Normalize.Spec
