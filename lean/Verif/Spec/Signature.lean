import Verif.Model.Signature

/-!
# Python's rule for calls
-/

namespace Normalize.Sig.Spec

/-- A call with `npos` arguments by position and the keywords `kws` binds: the positions and the keywords have
parameters to go to, none of them twice, and every parameter gets something or has a default. -/
structure Binds (p : Params) (npos : Nat) (kws : List String) : Prop where
  positions : npos ≤ p.args.length ∨ p.varargs = true
  keywords : ∀ k ∈ kws, (∃ i, p.posonly ≤ i ∧ p.args[i]? = some k) ∨ (∃ x ∈ p.kwonly, x.1 = k) ∨ p.varkw = true
  once : ∀ k ∈ kws, ∀ i, p.posonly ≤ i → p.args[i]? = some k → npos ≤ i
  given : ∀ i nm, p.args[i]? = some nm → i < npos ∨ (p.posonly ≤ i ∧ nm ∈ kws) ∨ p.args.length - p.ndef ≤ i
  givenKw : ∀ x ∈ p.kwonly, x.2 = true ∨ x.1 ∈ kws

/-- `f` can be called with `npos` arguments by position and the keywords `kws`. -/
def Takes : Callee → Nat → List String → Prop
  | .function p, npos, kws => Binds p npos kws
  | .bound p, npos, kws => Binds p (npos + 1) kws

/-- Keyword-only parameters have defaults. -/
def KwDefaults (p : Params) : Prop := ∀ x ∈ p.kwonly, x.2 = true

end Normalize.Sig.Spec
