import Verif.Model.JsonMem
import Verif.Spec.MemTree

/-! What marshalling may change, and what its result consists of. -/

namespace Normalize.Spec

open Normalize.Mem (Mem Ref Obj)
open Normalize.JsonMem (World Conv)

/-- A python list or dict. -/
def ListOrDict : Obj → Prop
  | .list _ | .dict _ => True
  | _ => False

/-- Made of python lists and dicts and of objects without parts. -/
def Document (m : Mem) (r : Ref) : Prop := ∀ l, PartOf m r l → ∃ o, m[l]? = some o ∧ ListOrDict o

/-- Every object that existed is what it was, except that lazy properties of records that had no value may
have got one. -/
def FilledIn (W : World) (m m' : Mem) : Prop :=
  m.length ≤ m'.length ∧ ∀ (l : Nat) (o : Obj), m[l]? = some o → m'[l]? = some o ∨
    ∃ (c : String) (s ext : List (String × Ref)), o = .rcd c s ∧ m'[l]? = some (.rcd c (s ++ ext)) ∧
      ∀ x ∈ ext, (W.lazy c x.1).isSome = true ∧ alookup s x.1 = none

/-- What the functions in the declarations do: a `json_out` function makes a new document and changes nothing, a lazy
default changes nothing; both may read lazy properties, though the default of a property does not read that
property. -/
structure Marshals (W : World) : Prop where
  jout : ∀ c p f, W.jout c p = some f → ∀ m r, FilledIn W m (f m r).1 ∧
    ∀ y, (f m r).2 = .ok y → AllNew m (f m r).1 y ∧ Document (f m r).1 y
  lazy : ∀ c p f, W.lazy c p = some f → ∀ m r, FilledIn W m (f m r).1 ∧
    (JsonMem.slotOf (Mem.deref m r) p = none → JsonMem.slotOf (Mem.deref (f m r).1 r) p = none)

/-- Classes without lazy properties and without `json_out` functions. -/
structure Simple (W : World) : Prop where
  jout : ∀ c p, W.jout c p = none
  lazy : ∀ c p, W.lazy c p = none
  json : ∀ c p, (W.J.info c p).json.bind (·.jout) = none
  empty : ∀ c p, (W.J.info c p).empty = .skip

/-- The same outcome: the same exception, or a document that looks like the tree, none of whose parts occurs twice. -/
def SameOut : Except Exc Val → Mem × Except Exc Ref → Prop
  | .error e, q => q.2 = .error e
  | .ok j, q => ∃ y, q.2 = .ok y ∧ Unshared q.1 j y

end Normalize.Spec
