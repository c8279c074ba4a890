import Verif.Model.SelectorObj

/-!
# Field selectors as values
-/

namespace Normalize.Spec
open SelObj

/-- What an operation on values gives: a new value, a changed one, or an exception. -/
inductive SelOutcome
  | new (r : Row)
  | becomes (i : Nat) (r : Row)
  | raises (e : Exc)

/-- A new selector with these components, if they are allowed. -/
def checked (r : Row) : SelOutcome :=
  if ∃ e ∈ r, e.valid = false ∧ e.truthy = true then .raises .valueError else .new r

/-- The position that a slice bound means in a list of this length: negative numbers count from the end. -/
def boundAt (n : Nat) (i : Int) : Int := if i < 0 then i + n else i

/-- The components from `lo` up to but not including `hi`. -/
def cut (r : Row) (lo hi : Option Int) : Row :=
  (List.range r.length).filterMap (fun k : Nat =>
    if (∀ i ∈ lo, boundAt r.length i ≤ (k : Int)) ∧ (∀ i ∈ hi, (k : Int) < boundAt r.length i) then r[k]? else none)

/-- What an operation gives if selectors are values: `v i` is the value of the selector `i`. -/
def selOutcome (v : Nat → Row) : Op → SelOutcome
  | .make xs => checked xs
  | .remake i => checked (v i)
  | .addProperty i (.ok (.str s)) => .becomes i (v i ++ [.ok (.str s)])
  | .addProperty _ _ => .raises .valueError
  | .addIndex i (.ok (.int n)) => .becomes i (v i ++ [.ok (.int n)])
  | .addIndex _ _ => .raises .valueError
  | .addFullCollection i => .becomes i (v i ++ [.ok .none])
  | .extend i j => .becomes i (v i ++ v j)
  | .plus i j => match checked (v i) with
    | .new r => .new (r ++ v j)
    | x => x
  | .plusItems i xs => checked (v i ++ xs)
  | .plusComp i (.ok (.str s)) => checked (v i ++ [.ok (.str s)])
  | .plusComp i (.ok (.int n)) => checked (v i ++ [.ok (.int n)])
  | .plusComp _ _ => .raises .typeError
  | .slice i lo hi => checked (cut (v i) lo hi)
  | .copy i => .new (v i)
  | .deepcopy i => .new (v i)

/-- The values afterwards: a new one comes last, a changed one replaces the old one, all the others stay. -/
def selAct (vs : List Row) (op : Op) : List Row :=
  match selOutcome (fun i => vs.getD i []) op with
  | .new r => vs ++ [r]
  | .becomes i r => vs.set i r
  | .raises _ => vs

/-- What the operation returns: the new selector, for `extend` the one that was extended, or nothing. -/
def selReturn (vs : List Row) (op : Op) : Except Exc (Option Nat) :=
  match selOutcome (fun i => vs.getD i []) op, op with
  | .new _, _ => .ok (some vs.length)
  | .becomes i _, .extend _ _ => .ok (some i)
  | .becomes _ _, _ => .ok none
  | .raises e, _ => .error e

/-- A program on values: the values at the end, and what every step returned or raised. -/
def selActs (vs : List Row) : List Op → List Row × List (Except Exc (Option Nat))
  | [] => (vs, [])
  | op :: ops => ((selActs (selAct vs op) ops).1, selReturn vs op :: (selActs (selAct vs op) ops).2)

/-- The values of the selectors in memory. -/
def selValues (m : Mem) : List Row := (List.range m.objs.length).map m.row

/-- The operation changes a selector that exists. -/
def selTarget : Op → Option Nat
  | .addProperty i _ | .addIndex i _ | .addFullCollection i | .extend i _ => some i
  | _ => none

/-- It is not `copy.copy`. -/
def NoShallow : Op → Prop
  | .copy _ => False
  | _ => True

end Normalize.Spec
