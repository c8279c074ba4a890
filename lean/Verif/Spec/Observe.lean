import Verif.Model.Observe

/-!
# What it means that looking at records can not be noticed
-/

namespace Normalize.Observe

open Slots (State)

variable {V : Type} [DecidableEq V] (S : Setup V)

/-- The property is lazy. -/
def IsLazy (i : Nat) (nm : String) : Prop := ∃ p, (S.clsOf i).find nm = some p ∧ p.kind.isLazy = true

/-- The code only reads: attributes, and whether attributes that are not lazy are set. -/
inductive Reads {α : Type} : Code V α → Prop
  | done {r} : Reads (.done r)
  | get {i nm k} : (∀ r, Reads (k r)) → Reads (.get i nm k)
  | slot {i nm k} : ¬ IsLazy S i nm → (∀ v, Reads (k v)) → Reads (.slot i nm k)

/-- The functions in the declarations only read: the defaults of lazy properties, and `compare_as`. -/
structure Readers : Prop where
  dflt : ∀ i nm f, S.dflt (S.typ i) nm = some f → Reads S (f i)
  compareAs : ∀ i nm f, S.compareAs (S.typ i) nm = some f → ∀ v, Reads S (f i v)

/-- In this state, the operation returns or raises this. -/
def Finds (d : Nat) (h : Heap V) (o : Look V) (r : Except Exc (Out V)) : Prop :=
  ∃ n h', run S n (o.code S d) h = some (r, h')

/-- From one state to another by looking at records, any number of times and in any order; some of the operations may
have raised. -/
inductive Looked : Heap V → Heap V → Prop
  | refl {h} : Looked h h
  | step {h h1 h2 n d o r} : Looked h h1 → run S n (Look.code S d o) h1 = some (r, h2) → Looked h h2

/-- What may happen to records. -/
inductive Event (V : Type)
  | look (d : Nat) (o : Look V)
  | set (i : Nat) (nm : String) (v : V)
  | del (i : Nat) (nm : String)

/-- The event is an assignment or a deletion. -/
def Event.changes : Event V → Bool
  | .look _ _ => false
  | _ => true

/-- The attribute that is assigned or deleted. -/
def Event.name : Event V → Option String
  | .look _ _ => none
  | .set _ nm _ => some nm
  | .del _ nm => some nm

/-- A history, with how the assignments and deletions ended. -/
inductive Runs : Heap V → List (Event V) → List (Except Exc V) → Heap V → Prop
  | nil {h} : Runs h [] [] h
  | look {h h1 h2 n d o r es rs} : run S n (Look.code S d o) h = some (r, h1) → Runs h1 es rs h2 →
      Runs h (.look d o :: es) rs h2
  | set {h h2 i nm v es rs} : Runs (upd h i (Slots.setAttr S.w (S.clsOf i) (h i) nm v).2) es rs h2 →
      Runs h (.set i nm v :: es) ((Slots.setAttr S.w (S.clsOf i) (h i) nm v).1 :: rs) h2
  | del {h h2 i nm es rs} : Runs (upd h i (Slots.delAttr S.w (S.clsOf i) (h i) nm).2) es rs h2 →
      Runs h (.del i nm :: es) ((Slots.delAttr S.w (S.clsOf i) (h i) nm).1 :: rs) h2

/-- The code does not look at attributes of this name. -/
inductive Ignores {α : Type} (x : String) : Code V α → Prop
  | done {r} : Ignores x (.done r)
  | get {i nm k} : nm ≠ x → (∀ r, Ignores x (k r)) → Ignores x (.get i nm k)
  | slot {i nm k} : nm ≠ x → (∀ v, Ignores x (k v)) → Ignores x (.slot i nm k)

/-- No property of this name is lazy, and no default of a lazy property looks at it. -/
structure Apart (x : String) : Prop where
  eager : ∀ i, ¬ IsLazy S i x
  dflt : ∀ i nm f, S.dflt (S.typ i) nm = some f → Ignores x (f i)

end Normalize.Observe
