import Verif.Model.SoftGet

/-!
# C143: when `foo0` is a placeholder
-/

namespace Normalize.Spec
open Normalize.Slots (World Cls State PropDef Prog exec)
open Normalize.SoftGet (zeroGet)

/-- There is no value, and none can be computed: the slot is empty, and the property is not a lazy one. -/
def NoValue {V : Type} (p : PropDef V) (st : State V) (nm : String) : Prop :=
  st.slots nm = none ∧ p.kind ≠ .lazy ∧ p.kind ≠ .roLazy ∧ p.kind ≠ .lazySafe

/-- A default function that raises no `AttributeError` of its own and lets none through, whatever the attributes it uses
do. -/
inductive NoAttributeError {V : Type} : Prog V → Prop
  | ret (v : V) : NoAttributeError (.ret v)
  | raise (e : Exc) : e.isAttribute = false → NoAttributeError (.raise e)
  | op (o : Slots.Op V) (k : Except Exc V → Prog V) : (∀ r, NoAttributeError (k r)) → NoAttributeError (.op o k)

/-- A property whose default and `check` raise no `AttributeError`. -/
structure Quiet {V : Type} (p : PropDef V) : Prop where
  default : ∀ f, p.default = some f → NoAttributeError f
  check : ∀ f, p.check = some f → ∀ v e, f v = .error e → e.isAttribute = false

/-- C143: `foo0` is a placeholder only if there is no value for `foo` and none is to be computed; exceptions of the
function that computes the value are not hidden. -/
def C143_statement : Prop :=
  ∀ (w : World Int) (c : Cls Int) (n : Nat) (vt : Option Empty.Entry) (h : Empty.Heap) (st : State Int) (nm : String)
    (p : PropDef Int) (i : Nat) (h' : Empty.Heap) (st' : State Int), c.find nm = some p →
    zeroGet w c n vt h st nm = some (.ok (.empty i, h'), st') → NoValue p st nm

end Normalize.Spec
