import Verif.Spec.Mfs
import Verif.Model.Diff

/-!
# What the text of a list of differences is about
-/

namespace Normalize.Spec
open Diff (DType DInfo)

/-- The place `p` is mentioned after the sign `k`: new places after `+NEW`, old ones after `-OLD`, changed ones after
`<>X` if they are the same place on both sides, after `<->OLD` and `<+>NEW` otherwise, unchanged ones after `==X`. -/
inductive Mentioned (ds : List DInfo) : String → FS → Prop
  | new {b o} : ⟨.added, b, o⟩ ∈ ds → Mentioned ds "+NEW" o
  | old {b o} : ⟨.removed, b, o⟩ ∈ ds → Mentioned ds "-OLD" b
  | changed {p} : ⟨.modified, p, p⟩ ∈ ds → Mentioned ds "<>X" p
  | was {b o} : ⟨.modified, b, o⟩ ∈ ds → b ≠ o → Mentioned ds "<->OLD" b
  | became {b o} : ⟨.modified, b, o⟩ ∈ ds → b ≠ o → Mentioned ds "<+>NEW" o
  | same {b o} : ⟨.noChange, b, o⟩ ∈ ds → Mentioned ds "==X" b

/-- The text with these parts: each a sign with what is said about the places. -/
def diffLine (a b : List Char) (n : Nat) (parts : List (String × List Char)) : List Char :=
  "<Diff [".toList ++ (if a = b then a else a ++ " vs ".toList ++ b) ++ "]; ".toList ++ (toString n).toList ++ " diff(s)".toList ++
    (if parts = [] then [] else
      ": ".toList ++ List.intercalate "; ".toList (parts.map fun p => p.1.toList ++ "(".toList ++ p.2 ++ ")".toList)) ++ ">".toList

end Normalize.Spec
