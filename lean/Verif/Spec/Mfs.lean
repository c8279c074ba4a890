import Verif.Model.Exc

/-!
# What a set of selectors covers (independent of the trie)
-/

namespace Normalize.Spec

/-- A trailing wildcard adds nothing: `["a", None]` covers what `["a"]` covers. Only one is dropped. -/
def core (q : List Comp) : List Comp :=
  if q.getLast? = some .none then q.dropLast else q

/-- `q` matches the beginning of `p`; `None` in `q` matches any component. -/
inductive Matches : List Comp → List Comp → Prop
  | nil (p) : Matches [] p
  | wild {q p} (c) : Matches q p → Matches (.none :: q) (c :: p)
  | same {q p} (c) : Matches q p → Matches (c :: q) (c :: p)

/-- The location `p` lies inside what selector `q` points at. -/
def Covers (q p : List Comp) : Prop := Matches (core q) p

/-- The empty selector means "everything", the same as `[None]`. -/
def nonNil : List Comp → List Comp
  | [] => [.none]
  | q => q

/-- Somewhere a wildcard and a named or indexed component are asked for at the same level `w`, and no
selector asks for everything at or above that level. -/
def Clash (qs : List (List Comp)) : Prop :=
  ∃ w c r₁ r₂, w ++ .none :: r₁ ∈ qs.map nonNil ∧ w ++ c :: r₂ ∈ qs.map nonNil ∧ c ≠ .none ∧
    ∀ w₁ w₂, w = w₁ ++ w₂ → w₁ ≠ [] → w₁ ∉ qs.map nonNil

end Normalize.Spec
