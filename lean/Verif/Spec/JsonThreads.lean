import Verif.Model.JsonThreads
import Mathlib.Data.List.Forall2

/-!
# Specification: marshalling by several threads (C104)
-/

namespace Normalize.Spec

open Normalize.JsonThreads

variable {X T : Type}

/-- How an object should be marshalled: by its `json_data` method if it has one, which is passed `extraneous` if it
takes it. -/
def rightWay (O : Objects X T) (x : X) : How :=
  if O.has x then (if O.takes x then .withFlag else .noFlag) else .plain

/-- Objects of one type have the same methods. -/
def UniformTypes (O : Objects X T) : Prop :=
  ∀ x y : X, O.ty x = O.ty y → O.has x = O.has y ∧ O.takes x = O.takes y

/-- What the caches say is true. -/
def TrueCaches [DecidableEq T] (O : Objects X T) (c : Caches T) : Prop :=
  ∀ (x : X) (b : Bool), (alookup c.has (O.ty x) = some b → b = O.has x) ∧
    (alookup c.takes (O.ty x) = some b → b = O.takes x)

/-- No type is half known. -/
def WholeCaches [DecidableEq T] (c : Caches T) : Prop :=
  ∀ T' : T, alookup c.has T' = some true → ∃ b : Bool, alookup c.takes T' = some b

/-- What a thread that was to marshal `xs` has done so far: each of the first objects gave an outcome with `P`, in
order. -/
def DoneSoFar (P : X → Except Exc How → Prop) (xs : List X) (t : Thread X) : Prop :=
  ∃ done : List X, xs = done ++ t.todo ∧ List.Forall₂ P done t.outs.reverse

end Normalize.Spec
