import Verif.Model.VisitorLazy

/-! What a visitor should show, and when its generators are started in time. -/

namespace Normalize.Spec

open VisitGen

/-- Whenever `apply` was called or the filter was asked, the visitor said where the value is. -/
def PathsRight (s : VisitGen.St) : Prop := (∀ e ∈ s.applied, e.2 = e.1) ∧ ∀ e ∈ s.asked, e.2 = e.1

/-- The generator is still of use: it is the outermost object's, or some generator is at the item that it was made for. -/
def StillThere (s : VisitGen.St) (h : Nat) : Prop :=
  (s.gen h).parent = 0 ∨ ∃ g < s.nG, ∃ c ∈ (s.gen g).cur, h ∈ c.2

/-- A generator is not asked for its first item when it is too late. -/
def InTime (s : VisitGen.St) : VisitGen.Ev → Prop
  | .next h => h < s.nG → (s.gen h).own = none → StillThere s h
  | .ret => True

/-- All generators that were made for an item are started before the call for it is over. -/
def Prompt (s : VisitGen.St) : VisitGen.Ev → Prop
  | .next _ => True
  | .ret => ∀ f ∈ s.stack.head?, f.pending.isNone → ∀ g ∈ f.gen, ∀ c ∈ (s.gen g).cur, ∀ h ∈ c.2, (s.gen h).own ≠ none

/-- Everything that happens is as required. -/
def AllSteps (P : VisitGen.St → VisitGen.Ev → Prop) (keep : List Comp → Bool) (s : VisitGen.St) : List VisitGen.Ev → Prop
  | [] => True
  | e :: es => P s e ∧ AllSteps P keep (VisitGen.step keep s e) es

end Normalize.Spec
