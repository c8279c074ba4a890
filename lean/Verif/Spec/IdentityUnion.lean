import Verif.Spec.Identity

/-!
# The identity of a slot that may hold records of several types
-/

namespace Normalize.Spec
open Normalize.Ident

/-- The number of parts of an identity that are not `None`. -/
def setParts : List Key → Nat
  | [] => 0
  | .raw (.atom .none) :: ks => setParts ks
  | _ :: ks => setParts ks + 1

/-- The identities of `v`, taken as each of the record types in turn. -/
inductive IdsUnder (S : Schema) (n : Nat) (v : Val) : List Ty → List (List Key) → Prop
  | nil : IdsUnder S n v [] []
  | other {t ts ids} : IdsUnder S n v ts ids → IdsUnder S n v (.other t :: ts) ids
  | cls {c ts k ids} : rid S none n (.cls c) none v = .ok (.tup k) → IdsUnder S n v ts ids →
      IdsUnder S n v (.cls c :: ts) (k :: ids)

/-- The first of those identities that have parts, and of which most are set. -/
def FirstMost (ids : List (List Key)) (b : List Key) : Prop :=
  ∃ pre post : List (List Key), ids = pre ++ b :: post ∧ b ≠ [] ∧
    (∀ k ∈ pre, k ≠ [] → setParts k < setParts b) ∧ ∀ k ∈ post, setParts k ≤ setParts b

end Normalize.Spec
