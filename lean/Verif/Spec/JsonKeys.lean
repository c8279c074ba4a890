import Verif.Model.JsonKeys

/-!
# Keys that survive the conversion
-/

namespace Normalize.Spec

/-- A lower-case letter or digit is followed by an underscore and a lower-case letter somewhere in the key. -/
def HasJoint (digit : Char → Bool) (k : List Char) : Prop :=
  ∃ pre c d post, k = pre ++ c :: '_' :: d :: post ∧ (('a' ≤ c ∧ c ≤ 'z') ∨ digit c = true) ∧ 'a' ≤ d ∧ d ≤ 'z'

/-- Unicode's decimal digits are neither letters nor the underscore. -/
def Digits (digit : Char → Bool) : Prop :=
  ∀ c, digit c = true → c ≠ '_' ∧ ¬ ('A' ≤ c ∧ c ≤ 'Z') ∧ ¬ ('a' ≤ c ∧ c ≤ 'z')

end Normalize.Spec
