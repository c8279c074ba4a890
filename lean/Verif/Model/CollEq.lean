import Verif.Model.Identity
import Verif.Model.Coll

/-!
# Comparing a collection to a plain list or dict

Fills in the part of `Collection.__eq__` (`/repo/normalize/coll.py:119-122`) that `Verif.Model.Identity` leaves
open: the plain container is converted to the collection's class first.
-/

namespace Normalize.Ident

open Normalize.Coll

variable (S : Schema) (T : String → CT Val)

/-- The schema in which plain containers are converted by the constructor of the collection's class
(coll.py:119-124).  `n` bounds the number of conversions nested in one another, as python's recursion limit
does. -/
def closed : Nat → Schema
  | 0 => { S with mixL := fun _ _ _ => .error (.user 0), mixD := fun _ _ _ => .error (.user 0) }
  | n + 1 =>
    { S with
      mixL := fun c xs ys =>
        match listInit (K := Comp) (T c) (.seq ys) with
        | .ok zs => veq (closed n) (.lcoll c xs) (.lcoll c zs)
        | .error e => .error e
      mixD := fun c xs ys =>
        match dictInit (T c) (fun i => .int i) (.mapping ys .none) with
        | .ok zs => veq (closed n) (.dcoll c xs) (.dcoll c zs)
        | .error e => .error e }

end Normalize.Ident
