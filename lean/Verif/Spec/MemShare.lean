import Verif.Spec.Mem

/-!
# C140: writing one value to all items
-/

namespace Normalize.Spec
open Normalize.Mem

/-- Different ones have no part in common, and all exist. -/
def AllApart (m : Mem) (xs : List Ref) : Prop :=
  (∀ r ∈ xs, Exist m r) ∧ ∀ r ∈ xs, ∀ s ∈ xs, r ≠ s → Separate m r s

/-- C140: if the items of a list have nothing in common with each other nor with the value, then they have nothing in
common with each other after the value was put into all of them, so that the items can still be changed one by one. -/
def C140_statement : Prop :=
  ∀ (E : Mem.Env) (m : Mem) (xs : List Ref) (x v : Ref) (p : FS), Polite E → p ≠ [] → deref m x = .list xs →
    AllApart m xs → Exist m v → (∀ r ∈ xs, Separate m r v) → AllApart (Mem.put E (.none :: p) v x m).2 xs

/-- The object is a record whose attribute `nm` takes any value as it is. -/
def Takes (E : Mem.Env) (m : Mem) (nm : String) (r : Ref) : Prop :=
  ∃ (l : Nat) (cls : String) (sl : List (String × Ref)), r = .ptr l ∧ m[l]? = some (.rcd cls sl) ∧ E.attr cls nm = none

end Normalize.Spec
