import Verif.Model.Empty

/-!
# What the types of placeholders should be
-/

namespace Normalize.Spec
open Empty

/-- The types in the entry. -/
def InEntry (t : PTy) : Entry → Prop
  | .one u => t = u
  | .many us => t ∈ us

/-- All the types, in order and with repetitions. -/
def flatten : List Entry → List PTy
  | [] => []
  | .one t :: es => t :: flatten es
  | .many ts :: es => ts ++ flatten es

/-- `a` is found in `l` before `b`. -/
def FoundBefore (l : List PTy) (a b : PTy) : Prop :=
  ∃ i : Nat, l[i]? = some a ∧ ∀ j, j ≤ i → l[j]? ≠ some b

/-- The class or one of its bases has `nm` in its `__dict__`, first as `a`. -/
def Inherits (W : World) (c nm : String) (a : Attr) : Prop :=
  ∃ (i : Nat) (d : String), (W.mro c)[i]? = some d ∧ W.dict d nm = some a ∧ ∀ j < i, ∀ b, (W.mro c)[j]? = some b → W.dict b nm = none

/-- Instances of the class have an attribute of this name that is known to the class. -/
def HasAttr (W : World) (c nm : String) (a : Attr) : Prop := Inherits W c nm a ∧ a ≠ .pyNone

/-- The class makes up attributes. -/
def MakesUp (W : World) (c : String) : Prop := ∃ a, W.dict c "__getattr__" = some a

/-- One of the classes declares `t` as the (or a) type of its attribute `nm`. -/
def DeclaredAs (W : World) (ts : List PTy) (nm : String) (t : PTy) : Prop :=
  ∃ c e, .ty c ∈ ts ∧ HasAttr W c nm (.typed e) ∧ InEntry t e

/-- One of the classes has the attribute, but declares no type for it, or `any`. -/
def Untyped (W : World) (ts : List PTy) (nm : String) : Prop :=
  (∃ c, .ty c ∈ ts ∧ (HasAttr W c nm .plain ∨ ((∀ a, ¬ HasAttr W c nm a) ∧ MakesUp W c))) ∨ DeclaredAs W ts nm .any

/-- One of the classes has the attribute. -/
def SomeHas (W : World) (ts : List PTy) (nm : String) : Prop :=
  ∃ c, .ty c ∈ ts ∧ ((∃ a, HasAttr W c nm a) ∨ MakesUp W c)

/-- `t` is an item type of one of the collection classes. -/
def ItemAs (W : World) (ts : List PTy) (t : PTy) : Prop := ∃ c e, .ty c ∈ ts ∧ W.coll c = some e ∧ InEntry t e

/-- One of the classes is no collection but has items. -/
def UntypedItems (W : World) (ts : List PTy) : Prop :=
  (∃ c, .ty c ∈ ts ∧ W.coll c = none ∧ ∃ a, W.dict c "__getitem__" = some a) ∨ ItemAs W ts .any

/-- One of the classes has items. -/
def SomeItems (W : World) (ts : List PTy) : Prop :=
  ∃ c, .ty c ∈ ts ∧ ((∃ e, W.coll c = some e) ∨ ∃ a, W.dict c "__getitem__" = some a)

/-- One of the classes itself defines `__call__`. -/
def SomeCall (W : World) (ts : List PTy) : Prop := ∃ c a, .ty c ∈ ts ∧ W.dict c "__call__" = some a ∧ a ≠ .pyNone

/-- The object `i` is a placeholder for these types. -/
def IsFor (h : Heap) (i : Nat) (t : Types) : Prop := ∃ o, h.objs[i]? = some o ∧ o.types = t

/-- The placeholder's types are `any`, if the types are unknown, or else exactly the given ones, each once. -/
def Knows (unknown : Prop) (known : PTy → Prop) : Types → Prop
  | .any => unknown
  | .tuple us => ¬ unknown ∧ us.Nodup ∧ ∀ u, u ∈ us ↔ known u

/-- The heaps that come about. -/
inductive Reached (W : World) : Heap → Prop
  | init : Reached W {}
  | placeholder {h ts} : Reached W h → Reached W (placeholder h ts).2
  | run {h i op j h'} : Reached W h → run W h i op = .ok (j, h') → Reached W h'

/-- One of the classes, or one of the bases, implements the operation. -/
def Supports (W : World) (ts : List PTy) : Op → Prop
  | .attr nm => ∃ c a, .ty c ∈ ts ∧ (HasAttr W c nm a ∨ HasAttr W c "__getattr__" a)
  | .item | .slice => ∃ c a, .ty c ∈ ts ∧ (W.coll c = some a ∨ ∃ a, HasAttr W c "__getitem__" a)
  | .call => ∃ c a, .ty c ∈ ts ∧ HasAttr W c "__call__" a

end Normalize.Spec
