import Verif.Model.Traits

/-!
# What a property type should be

The meaning of the words "trait", "is a", "provides", "asked for" and "history" for property types, written without the
functions of the model that choose the type.
-/

namespace Normalize.Spec

open Normalize.Traits

/-- `i` is a property type, with this content. -/
def TypeAt (r : Reg) (i : Nat) (T : PType) : Prop := r.types[i]? = some T

/-- The type has the trait. -/
def HasTrait (r : Reg) (i : Nat) (t : String) : Prop := ∃ T, TypeAt r i T ∧ t ∈ T.traits

/-- `issubclass(i, j)` -/
def SubtypeOf (r : Reg) (i j : Nat) : Prop := ∃ T, TypeAt r i T ∧ j ∈ T.mro

/-- The class statement of the type has this `__trait__`. -/
def DeclaresTrait (r : Reg) (j : Nat) (t : String) : Prop := ∃ T, TypeAt r j T ∧ T.trait = some t

/-- The type is, or inherits from, the one that stands for the trait. -/
def Provides (r : Reg) (i : Nat) (t : String) : Prop := ∃ j, SubtypeOf r i j ∧ DeclaresTrait r j t

/-- One of the `__init__` of the type and its bases has the argument. -/
def Accepts (r : Reg) (i : Nat) (a : String) : Prop := ∃ j T, SubtypeOf r i j ∧ TypeAt r j T ∧ a ∈ T.args

/-- The first value of `__safe_unless_ro__` along the bases is true. -/
def SafeFlag (r : Reg) (i : Nat) : Prop :=
  ∃ T pre j post S, TypeAt r i T ∧ T.mro = pre ++ j :: post ∧ TypeAt r j S ∧ S.safe = some true ∧
    ∀ d ∈ pre, ∀ D, TypeAt r d D → D.safe = none

/-- The method comes from this class. -/
def MethodFrom (r : Reg) (i : Nat) (nm : String) (j : Nat) : Prop :=
  ∃ T pre post S, TypeAt r i T ∧ T.mro = pre ++ j :: post ∧ TypeAt r j S ∧ nm ∈ S.own ∧
    ∀ d ∈ pre, ∀ D, TypeAt r d D → nm ∉ D.own

/-- The argument has this value: given, or else by default of the called type. -/
def Passed (r : Reg) (cls : Nat) (kw : List (String × Kw)) (a : String) (v : Kw) : Prop :=
  (a, v) ∈ kw ∨ ((∀ w, (a, w) ∉ kw) ∧ ∃ T, TypeAt r cls T ∧ (a, v) ∈ T.defaults)

/-- The argument is not one of the called type, but of this one, which stands for a trait. -/
def ImpliesType (r : Reg) (cls : Nat) (kw : List (String × Kw)) (a : String) (j : Nat) : Prop :=
  a ≠ "traits" ∧ (∃ v, Passed r cls kw a v) ∧ ¬ Accepts r cls a ∧ ∃ D, TypeAt r j D ∧ a ∈ D.args ∧ D.trait ≠ none

/-- The trait is asked for: by the choice of the called type, by name, or with an argument. -/
def Asked (r : Reg) (cls : Nat) (kw : List (String × Kw)) (t : String) : Prop :=
  HasTrait r cls t ∨ (∃ l, Passed r cls kw "traits" (.list l) ∧ t ∈ l) ∨ ∃ a j, ImpliesType r cls kw a j ∧ HasTrait r j t

/-- Assignments are to be checked unless something speaks against it. -/
def SafeByDefault (r : Reg) (cls : Nat) (kw : List (String × Kw)) : Prop :=
  SafeFlag r cls ∨ (∃ a v, a ∈ ["required", "isa", "check"] ∧ Passed r cls kw a v) ∨
    ∃ a j, ImpliesType r cls kw a j ∧ SafeFlag r j

/-- The traits that the property should have. -/
inductive WantedTrait (r : Reg) (cls : Nat) (kw : List (String × Kw)) : String → Prop
  | asked {t : String} : Asked r cls kw t → t ≠ "unsafe" → WantedTrait r cls kw t
  | both : Asked r cls kw "unsafe" → Asked r cls kw "safe" → WantedTrait r cls kw "unsafe"
  | safe : SafeByDefault r cls kw → ¬ Asked r cls kw "ro" → ¬ Asked r cls kw "unsafe" → WantedTrait r cls kw "safe"
  | v1 {t : String} : t = "v1" ∨ t = "safe" → ¬ Asked r cls kw "v1" → Passed r cls kw "default" .v1none → WantedTrait r cls kw t

/-- Keyword arguments are given once. -/
def KwOnce (kw : List (String × Kw)) : Prop := (kw.map (·.1)).Nodup

/-- A class statement: there are bases. -/
def GoodDecl (d : Decl) : Prop := d.bases ≠ [] ∧ KwOnce d.defaults

/-- The property types after some history of class statements and calls, successful or not. -/
inductive Registry : Reg → Prop
  | init : Registry initial
  | decl {r : Reg} {d : Decl} : Registry r → GoodDecl d → Registry (newType r d).2
  | call {r : Reg} {n cls : Nat} {kw : List (String × Kw)} : Registry r → KwOnce kw →
      (call n r cls kw).1 ≠ .error .diverge → Registry (call n r cls kw).2

/-- The same class statements, and some more calls. -/
inductive CallsFrom (r : Reg) : Reg → Prop
  | refl : CallsFrom r r
  | call {r' : Reg} {n cls : Nat} {kw : List (String × Kw)} : CallsFrom r r' → KwOnce kw →
      (call n r' cls kw).1 ≠ .error .diverge → CallsFrom r (call n r' cls kw).2

/-- No two class statements have the same `__trait__`. -/
def UniqueTraits (r : Reg) : Prop := ∀ i j t, DeclaresTrait r i t → DeclaresTrait r j t → i = j

end Normalize.Spec
