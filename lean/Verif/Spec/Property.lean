import Verif.Model.Property

/-!
# What is promised about the slots of a record

Histories of public operations, and what "type-safe" means, stated on their own.
-/

namespace Normalize.Slots

variable {V : Type} [DecidableEq V]

namespace Spec

/-- A value a property may hold: an instance of its declared type, accepted by its check function. -/
def Acceptable (p : PropDef V) (v : V) : Prop :=
  (∀ isa, p.isa = some isa → isa v = true) ∧ (∀ f, p.check = some f → f v = .ok true)

/-- Storing `v` in property `p` puts `u` in the slot: `v` itself if it already is of the declared type (or
none is declared), else what `coerce` makes of it; the result is acceptable.  A required property without a
type does not take `None`. -/
def Converts (w : World V) (p : PropDef V) (v u : V) : Prop :=
  Acceptable p u ∧
  ((p.isa = none ∧ u = v ∧ (p.required = true → v ≠ w.none)) ∨
   ∃ isa, p.isa = some isa ∧
     ((isa v = true ∧ u = v) ∨ (isa v = false ∧ (p.coerce v = .ok u ∨ p.coerce v = .subtype u))))

/-- An optional property whose coerce function turns `v` into `None`: the constructor drops it. -/
def Swallows (w : World V) (p : PropDef V) (v : V) : Prop :=
  p.required = false ∧ ∃ isa, p.isa = some isa ∧ isa v = false ∧ isa w.none = false ∧
    (p.coerce v = .ok w.none ∨ p.coerce v = .subtype w.none)

/-- The slot of `p` after construction, given what was passed for it. -/
inductive Ctor (w : World V) (p : PropDef V) : Option V → Option V → Prop
  /-- passed and stored -/
  | passed {v u} : Converts w p v u → Ctor w p (some v) (some u)
  /-- passed and silently dropped -/
  | dropped {v} : Swallows w p v → Ctor w p (some v) none
  /-- not passed, default used -/
  | default {d u} : p.kind.isLazy = false → p.default = some (.ret d) → Converts w p d u →
      Ctor w p none (some u)
  /-- not passed, default silently dropped -/
  | defaultDropped {d} : p.kind.isLazy = false → p.default = some (.ret d) → Swallows w p d →
      Ctor w p none none
  /-- not passed, nothing to do -/
  | absent : (p.kind.isLazy = true ∨ (p.default = none ∧ p.required = false)) → Ctor w p none none

/-- Any iteration order of a set. -/
def AnyOrder (ord : List String → List String) : Prop := ∀ l x, x ∈ ord l ↔ x ∈ l

/-- States a record can be in: just constructed, or after any operation on such a record, whether or not
the operation raised. -/
inductive Reach (w : World V) (c : Cls V) : State V → Prop
  | init {n ord d kw st} : AnyOrder ord → construct w c n ord d kw = some (.ok (), st) → Reach w c st
  | step {n st o r st'} : Reach w c st → exec w c n st o = some (r, st') → Reach w c st'

/-- A history: operations performed one after the other, from one state to another. -/
inductive Hist (w : World V) (c : Cls V) : State V → List (Op V) → State V → Prop
  | nil {st} : Hist w c st [] st
  | cons {n st o r st' os st''} : exec w c n st o = some (r, st') → Hist w c st' os st'' →
      Hist w c st (o :: os) st''

/-- The operation assigns or deletes attribute `x`. -/
def Touches (x : String) : Op V → Prop
  | .get _ => False
  | .set nm _ => nm = x
  | .del nm => nm = x

/-- No run of the program assigns or deletes `x`. -/
inductive NoTouch (x : String) : Prog V → Prop
  | ret {v} : NoTouch x (.ret v)
  | raise {e} : NoTouch x (.raise e)
  | op {o k} : ¬ Touches x o → (∀ r, NoTouch x (k r)) → NoTouch x (.op o k)

/-- A default that does not look at the record: a value, or a function without `self`. -/
inductive Simple : Prog V → Prop
  | ret {v} : Simple (.ret v)
  | raise {e} : Simple (.raise e)

/-- The iteration order of a set: some permutation of its elements. -/
def SetOrder (ord : List String → List String) : Prop := ∀ l, (ord l).Perm l

/-- The private "<not set>" sentinel stays private: it is neither passed, nor a default, nor made by a
coerce function. -/
structure Private (w : World V) (c : Cls V) (kw : List (String × V)) : Prop where
  passed : ∀ x ∈ kw, x.2 ≠ w.unset
  defaults : ∀ x ∈ c.props, ∀ d, x.2.default = some (.ret d) → d ≠ w.unset
  coerced : ∀ x ∈ c.props, ∀ v u, (x.2.coerce v = .ok u ∨ x.2.coerce v = .subtype u) → u ≠ w.unset

/-- Defaults used by the constructor do not look at the record. -/
def SimpleDefaults (c : Cls V) : Prop :=
  ∀ x ∈ c.props, x.2.kind.isLazy = false → ∀ prog, x.2.default = some prog → Simple prog

/-- The first value bound to a name. -/
def lookupKw (kw : List (String × V)) (nm : String) : Option V :=
  (kw.find? (fun x => x.1 == nm)).map (·.2)

end Spec

end Normalize.Slots
