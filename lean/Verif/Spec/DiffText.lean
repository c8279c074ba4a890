/-!
# Words of a text
-/

namespace Normalize.Spec

/-- The words of a text: its maximal runs of characters that are not white space, in order. -/
noncomputable def words (space : Char → Bool) (s : List Char) : List (List Char) :=
  (s.splitOnP space).filter (fun w => !w.isEmpty)

end Normalize.Spec
