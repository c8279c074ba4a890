import Verif.Model.Exc
import Verif.Model.Regex

/-!
# Which components have a faithful text form
-/

namespace Normalize.Spec

/-- An ASCII letter or underscore followed by word characters. -/
def Ident (cc : CharClass) (s : List Char) : Prop :=
  ∃ c w, s = c :: w ∧ (c.isAlpha = true ∨ c = '_') ∧ ∀ d ∈ w, cc.word d = true

/-- A component whose text form is faithful: the wildcard; an index that is not negative; a key that is
not empty, does not contain `']`, and is not an identifier followed by a newline. -/
def Representable (cc : CharClass) : Comp → Prop
  | .none => True
  | .int i => 0 ≤ i
  | .str s => s ≠ "" ∧ ¬ ['\'', ']'] <:+: s.toList ∧ ¬ ∃ w, Ident cc w ∧ s.toList = w ++ ['\n']

end Normalize.Spec
