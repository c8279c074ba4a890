import Verif.Spec.Property

/-!
# Defaults that do not depend on the order of initialisation
-/

namespace Normalize.Slots.Spec

variable {V : Type} [DecidableEq V]

/-- Attributes that are settled before the first default is evaluated: they are not lazy, and they are
passed, or have no default. -/
def Settled (c : Cls V) (kw : List (String × V)) (nm : String) : Prop :=
  ∀ p, c.find nm = some p → p.kind.isLazy = false ∧ (nm ∈ kw.map (·.1) ∨ (p.default = none ∧ p.required = false))

mutual
/-- What reading the attribute gives is fixed before the first default is evaluated: it is settled, or it is lazy
and its default reads nothing but such attributes. -/
inductive Ready (c : Cls V) (kw : List (String × V)) : String → Prop
  | settled {nm} : Settled c kw nm → Ready c kw nm
  | bare {nm p} : c.find nm = some p → p.kind.isLazy = true → p.default = none → Ready c kw nm
  | lazy {nm p prog} : c.find nm = some p → p.kind.isLazy = true → p.default = some prog → ReadsReady c kw prog →
      Ready c kw nm
/-- Every run of the program does nothing to the record but read such attributes. -/
inductive ReadsReady (c : Cls V) (kw : List (String × V)) : Prog V → Prop
  | ret {v} : ReadsReady c kw (.ret v)
  | raise {e} : ReadsReady c kw (.raise e)
  | get {nm k} : Ready c kw nm → (∀ r, ReadsReady c kw (k r)) → ReadsReady c kw (.op (.get nm) k)
end

/-- The defaults that the constructor evaluates, those of attributes that are not lazy and not passed, read nothing
but attributes that are settled before, and lazy attributes that depend on nothing else. -/
def ReadyDefaults (c : Cls V) (kw : List (String × V)) : Prop :=
  ∀ x ∈ c.props, x.2.kind.isLazy = false → x.1 ∉ kw.map (·.1) → ∀ prog, x.2.default = some prog →
    ReadsReady c kw prog

/-- The constructor raises whatever the iteration order of sets is. -/
def AlwaysRaises (w : World V) (c : Cls V) (kw : List (String × V)) (n : Nat) : Prop :=
  ∀ ord, SetOrder ord → ∃ e st, construct w c n ord [] kw = some (.error e, st)

/-- The constructor stores these values whatever the iteration order of sets is. -/
def AlwaysStores (w : World V) (c : Cls V) (kw : List (String × V)) (n : Nat) (slots : String → Option V) : Prop :=
  ∀ ord, SetOrder ord → ∃ st, construct w c n ord [] kw = some (.ok (), st) ∧ st.slots = slots

end Normalize.Slots.Spec
