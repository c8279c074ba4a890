import Verif.Spec.Repr
import Verif.Model.ExcRepr

/-! What it means that `repr` of an exception can be evaluated. -/

namespace Normalize.Spec

open Normalize.Repr

/-- A value that its own `repr` gives back (see C97). -/
def EvalsBack (E : Repr.Env) (v : V) : Prop := Fits E v ∧ Throughout E (fun c s => c.kind ≠ .jdict ∧ Filled c s) v

/-- A plain argument: not a tuple, and its own `repr` gives it back. -/
def PlainArg (E : Repr.Env) (a : XArg) : Prop := ∃ v, a = .val v ∧ EvalsBack E v

/-- A tuple of such values. -/
def TupleArg (E : Repr.Env) (a : XArg) : Prop := ∃ vs, a = .tuple vs ∧ ∀ v ∈ vs, EvalsBack E v

/-- Keyword arguments that a call can be written with. -/
structure KwargsOk (E : Repr.Env) (kw : List (String × XArg)) : Prop where
  names : ∀ e ∈ kw, Spellable e.1 ∧ e.1 ≠ "self"
  once : (kw.map (·.1)).Nodup
  values : ∀ e ∈ kw, PlainArg E e.2

/-- The class can be named in source: as `exc.NAME` if it was declared in a module called `….exc`, and as `NAME`
otherwise. -/
structure InScope (inExc X : String → Option Exn.Cls) (mod : String) (c : Exn.Cls) : Prop where
  name : Spellable c.name
  within : (∃ m, mod = m ++ ".exc") → inExc c.name = some c
  outside : ¬ (∃ m, mod = m ++ ".exc") → X c.name = some c

/-- `repr(e)` is source that creates the exception `e` again: of the same class, with the same arguments and the same
text. -/
def CreatesAgain (printable : Char → Bool) (E : Repr.Env) (inExc X : String → Option Exn.Cls) (W : Exn.World XArg) (n : Nat)
    (mod : String) (o : Exn.Obj XArg) : Prop :=
  ∃ text, excText printable E mod o = some text ∧ evalExc E inExc X W n text = some (.ok o)

end Normalize.Spec
