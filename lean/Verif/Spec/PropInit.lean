import Verif.Model.PropInit
import Verif.Spec.Traits

/-!
# Which arguments a property should get
-/

namespace Normalize.Spec

open Normalize.Traits Normalize.PropInit

variable {V : Type}

/-- The `__init__` of this type, written by hand, has the argument. -/
def TakesArg (I : Inits V) (r : Reg) (c : Nat) (a : String) : Prop := ∃ T, TypeAt r c T ∧ "__init__" ∈ T.own ∧ I.made c = none ∧ a ∈ T.args

/-- The type was made with this default. -/
def HasDefault (I : Inits V) (r : Reg) (c : Nat) (a : String) (v : V) : Prop := ∃ T ds, TypeAt r c T ∧ "__init__" ∈ T.own ∧ I.made c = some ds ∧ alookup ds a = some v

/-- The value that the argument should have: the one given, or else the default of the first of the types that has one. -/
def ShouldGet (I : Inits V) (r : Reg) (types : List Nat) (kw : Kws V) (a : String) (v : V) : Prop :=
  alookup kw a = some v ∨ (alookup kw a = none ∧ ∃ pre c post, types = pre ++ c :: post ∧ HasDefault I r c a v ∧ ∀ d ∈ pre, ∀ w, ¬ HasDefault I r d a w)

/-- The `__init__` of the type received this for the argument. -/
def Received (log : List (Nat × Kws V)) (c : Nat) (a : String) (v : V) : Prop := ∃ own, (c, own) ∈ log ∧ alookup own a = some v

/-- These types hand on the argument, if it is not theirs, as it is. -/
def HandsOn (I : Inits V) (types : List Nat) (a : String) : Prop := ∀ c ∈ types, ∀ own rest out, I.pass c own rest = .ok out → alookup out a = alookup rest a

/-- The types made by `make_property_type` are as the registry has them. -/
def MadeAs (I : Inits V) (r : Reg) : Prop := ∀ c ds, I.made c = some ds → ∃ T, TypeAt r c T ∧ "__init__" ∈ T.own ∧ T.defaults = ds.map (fun e => (e.1, I.kind e.2)) ∧ T.args = ["self"]

end Normalize.Spec
