import Verif.Model.Access

/-!
# What reading and writing through a selector means
-/

namespace Normalize

namespace Spec

/-- The selector has no wildcard. -/
def Plain (p : FS) : Prop := ∀ c ∈ p, c ≠ .none

/-- Assigning `v` at component `c` of the object `x` is allowed and leaves that part as `s` (`none`: unset,
which only a `V1Property` does). -/
inductive Stored (E : Env) : Val → Comp → Val → Option Val → Prop
  | list {xs i v} : Stored E (.list xs) (.int i) v (some v)
  | dict {xs c v} : Stored E (.dict xs) c v (some v)
  | lcoll {cls xs i v u} : E.coerceItem cls v = .ok u → Stored E (.lcoll cls xs) (.int i) v (some u)
  | dcoll {cls xs c v u} : E.coerceItem cls v = .ok u → Stored E (.dcoll cls xs) c v (some u)
  | plain {cls sl nm v} : E.attr cls nm = none → Stored E (.rcd cls sl) (.str nm) v (some v)
  | attr {cls sl nm v a s} : E.attr cls nm = some a → a.assign (alookup sl nm) v = .ok s →
      Stored E (.rcd cls sl) (.str nm) v s

/-- Components `c` and `d` name different parts of the object: different attributes or keys, or different
positions of a list. -/
def Apart : Val → Comp → Comp → Prop
  | .list xs, .int i, .int j | .lcoll _ xs, .int i, .int j =>
    ∀ k, pyIndex xs.length i = some k → pyIndex xs.length j ≠ some k
  | _, c, d => c ≠ d

/-- The object is a record or dict, whose parts do not move when one is removed. -/
def Keyed : Val → Prop
  | .list _ | .lcoll _ _ => False
  | _ => True

/-- Classes keep their promises towards auto-vivification: an object made by a value type (or item type) is
stored as it is, and has the attribute that was given to its constructor. -/
structure Honest (E : Env) : Prop where
  item : ∀ cls kw z, E.makeItem cls kw = .ok z → E.coerceItem cls z = .ok z
  attr : ∀ cls nm a f kw z, E.attr cls nm = some a → a.make = some f → f kw = .ok z →
    ∀ old s, a.assign old z = .ok s → s = some z
  itemKw : ∀ cls s v z, E.makeItem cls (some (s, v)) = .ok z → ∃ u, step E z (.str s) = .ok u
  attrKw : ∀ cls nm a f s v z, E.attr cls nm = some a → a.make = some f → f (some (s, v)) = .ok z →
    ∃ u, step E z (.str s) = .ok u

end Spec

end Normalize
