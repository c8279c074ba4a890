import Verif.Model.RecordStr

/-!
# Texts that can be told apart

Words used by the statements in `Verif.Props.RecordStr`.
-/

namespace Normalize.Spec

open Normalize.Ident

/-- The text ends, or goes on with a comma or a closing parenthesis. -/
def GoesOn : List Char → Prop
  | [] => True
  | c :: _ => c = ',' ∨ c = ')'

/-- `repr` prints the values with `P` so that they can be told apart, also within a tuple, and not like a tuple. -/
structure ReprTells (rp : Val → List Char) (P : Val → Prop) : Prop where
  tells : ∀ v w, P v → P w → ∀ r r', GoesOn r → GoesOn r' → rp v ++ r = rp w ++ r' → v = w
  starts : ∀ v, P v → ∃ c cs, rp v = c :: cs ∧ c ≠ '(' ∧ c ≠ ')'

/-- The values in a key have `P`. -/
inductive KeyOf (P : Val → Prop) : Key → Prop
  | raw {v : Val} : P v → KeyOf P (.raw v)
  | tup {ks : List Key} : (∀ k ∈ ks, KeyOf P k) → KeyOf P (.tup ks)

/-- `None`, a truth value, a number or a text. -/
def PlainAtom (v : Val) : Prop :=
  v = .none ∨ (∃ b, v = .atom (.bool b)) ∨ (∃ i, v = .int i) ∨ ∃ s, v = .str s

end Normalize.Spec
