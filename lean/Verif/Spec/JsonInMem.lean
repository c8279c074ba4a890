import Verif.Model.JsonInMem
import Verif.Spec.JsonMem
import Verif.Spec.MemTree

/-! What a record made from JSON data may share with it. -/

namespace Normalize.Spec

open Normalize.Mem (Mem Ref Obj)
open Normalize.JsonInMem (World Fn)

/-- A later state in which nothing that existed is changed. -/
def Grown (m m' : Mem) : Prop := m.length ≤ m'.length ∧ OnlyNew m m'

/-- A function that changes nothing and knows of no other objects than the one it is given. -/
def KnowsOnly (f : Fn) : Prop := ∀ m v m' v', Exist m v → f m v = .ok (m', v') → Makes m [v] m' [v']

/-- The functions in the declarations change nothing and know of no other objects than what they are given,
except that the defaults may be, or contain, the objects in `A`. -/
structure Tame (W : World) (m0 : Mem) (A : Nat → Prop) : Prop where
  make : ∀ n, KnowsOnly (W.make n)
  typeFromJson : ∀ n f, W.typeFromJson n = some f → KnowsOnly f
  jin : ∀ c p f, W.jin c p = some f → KnowsOnly f
  coerce : ∀ c p f, W.coerce c p = some f → KnowsOnly f
  loads : ∀ s m m' v, W.loads s m = .ok (m', v) → Makes m [] m' [v]
  default : ∀ c p f, W.default c p = some f → ∀ m m' v, Grown m0 m → f m = .ok (m', v) →
    Grown m m' ∧ ∀ l, PartOf m' v l → (m.length ≤ l ∧ l < m'.length) ∨ A l

/-- A function that makes something new, or selects a part of what it is given. -/
def Selects (f : Fn) : Prop := ∀ m v m' v', Exist m v → f m v = .ok (m', v') →
  Grown m m' ∧ (AllNew m m' v' ∨ ∀ l, PartOf m' v' l → PartOf m v l)

/-- Classes whose properties are all typed, with types of objects without parts or with record classes; the
functions in the declarations make new objects or select parts of what they are given. -/
structure AllTyped (W : World) : Prop where
  typed : ∀ c, ∀ p ∈ (W.J.S.cls c).props, p.types = [] → W.J.isJson c = true ∧ p.name = Json.unknownKeys
  unknown : ∀ c, ∀ p ∈ (W.J.S.cls c).props, W.J.isJson c = true → p.name = Json.unknownKeys →
    Json.jsonName W.J c p = none
  isa : ∀ n m v, W.isa n m v = true → ∃ a, v = .atom a
  make : ∀ n, Copier (W.make n)
  typeFromJson : ∀ n f, W.typeFromJson n = some f → Selects f
  jin : ∀ c p f, W.jin c p = some f → Selects f
  coerce : ∀ c p f, W.coerce c p = some f → Selects f
  loads : ∀ s m m' v, W.loads s m = .ok (m', v) → Grown m m' ∧ AllNew m m' v
  default : ∀ c p f, W.default c p = some f → ∀ m m' v, f m = .ok (m', v) → Grown m m' ∧ AllNew m m' v

/-- The same outcome, from the state `m`: both raise an exception, or both return, and nothing that existed is
changed, and the results are related. -/
def SameIn {ε α β : Type} (R : Mem → α → β → Prop) (m : Mem) : Except ε α → Except Exc (Mem × β) → Prop
  | .error _, q => ∃ e, q = .error e
  | .ok a, q => ∃ m' b, q = .ok (m', b) ∧ Grown m m' ∧ R m' a b

/-- A function on trees and one on objects that do the same, if there are any. -/
def SameFn : Option (Val → Except Exc Val) → Option Fn → Prop
  | none, none => True
  | some f, some g => ∀ m t r, Looks m t r → SameIn Looks m (f t) (g m r)
  | _, _ => False

/-- The same for checks. -/
def SameCheck : Option (Val → Except Exc Bool) → Option (Mem → Ref → Except Exc Bool) → Prop
  | none, none => True
  | some f, some g => ∀ m t r, Looks m t r → g m r = f t
  | _, _ => False

/-- The same for defaults. -/
def SameDefault (m0 : Mem) : Option Val → Option (Mem → Except Exc (Mem × Ref)) → Prop
  | none, none => True
  | some t, some g => ∀ m, Grown m0 m → ∃ m' r, g m = .ok (m', r) ∧ Grown m m' ∧ Looks m' t r
  | _, _ => False

/-- The functions in the declarations do the same to objects in memory as those in `W.J` to trees. -/
structure FollowsIn (W : World) (m0 : Mem) : Prop where
  isa : ∀ n m t r, Looks m t r → W.isa n m r = W.J.isa n t
  make : ∀ n m t r, Looks m t r → SameIn Looks m (W.J.make n t) (W.make n m r)
  typeFromJson : ∀ n, SameFn (W.J.typeFromJson n) (W.typeFromJson n)
  jin : ∀ c p, SameFn ((W.J.info c p).json.bind (·.jin)) (W.jin c p)
  coerce : ∀ c p, SameFn (W.J.info c p).coerce (W.coerce c p)
  check : ∀ c p, SameCheck (W.J.info c p).check (W.check c p)
  loads : ∀ s m, SameIn Looks m (W.J.loads s) (W.loads s m)
  default : ∀ c p, SameDefault m0 (W.J.info c p).default (W.default c p)

end Normalize.Spec
