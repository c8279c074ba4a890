import Verif.Model.CollExtra

/-!
# Specification: collections with properties (C103)
-/

namespace Normalize.Spec

open Normalize.CollExtra Normalize.Slots

/-- The calls of methods of the collection. -/
def collCalls {V O : Type} : List (COp V O) → List O
  | [] => []
  | .coll o :: os => o :: collCalls os
  | .attr _ :: os => collCalls os

/-- The attribute operations. -/
def attrCalls {V O : Type} : List (COp V O) → List (Op V)
  | [] => []
  | .coll _ :: os => attrCalls os
  | .attr o :: os => o :: attrCalls os

/-- The results of the methods of the collection. -/
def collOuts {V R : Type} : List (COut V R) → List (Except Exc R)
  | [] => []
  | .coll r :: rs => r :: collOuts rs
  | .attr _ :: rs => collOuts rs

/-- The results of the attribute operations. -/
def attrOuts {V R : Type} : List (COut V R) → List (Except Exc V)
  | [] => []
  | .coll _ :: rs => attrOuts rs
  | .attr r :: rs => r :: attrOuts rs

/-- What a python container does when the methods are called one after the other. -/
def runMethods {D O R : Type} (step : O → D → Except Exc R × D) : List O → D → List (Except Exc R) × D
  | [], d => ([], d)
  | o :: os, d => ((step o d).1 :: (runMethods step os (step o d).2).1, (runMethods step os (step o d).2).2)

/-- What a record does under the attribute operations one after the other. -/
def runAttrs {V : Type} [DecidableEq V] (w : World V) (c : Cls V) (n : Nat) :
    List (Op V) → State V → Option (List (Except Exc V) × State V)
  | [], st => some ([], st)
  | o :: os, st =>
    match exec w c n st o with
    | none => none
    | some (r, st') =>
      match runAttrs w c n os st' with
      | none => none
      | some (rs, st'') => some (r :: rs, st'')

/-- The two objects have the same properties: unset in both, or set and `==`. -/
def SameProps {V D : Type} (w : World V) (names : List String) (x y : Obj V D) : Prop :=
  ∀ nm : String, nm ∈ names →
    (x.st.slots nm = none ∧ y.st.slots nm = none) ∨
      ∃ a b : V, x.st.slots nm = some a ∧ y.st.slots nm = some b ∧ w.eq a b = true

/-- The properties of the class. -/
def propNames {V : Type} (c : Cls V) : List String := c.props.map (·.1)

end Normalize.Spec
