import Verif.Model.Repr
import Verif.Model.Mfs

/-! `repr` of selectors, and what python does when that text is evaluated. -/

namespace Normalize.Repr

/-- `repr(selectors)` of the list of components. -/
def reprFS (pr : Char → Bool) (q : FS) : List Char := '[' :: join (q.map (reprKey pr)) ++ [']']

/-- `FieldSelector.__repr__` (selector.py:413-415). -/
def fsText (pr : Char → Bool) (q : FS) : List Char := "FieldSelector".toList ++ ('(' :: reprFS pr q ++ [')'])

/-- `"%r" % (tuple,)`: a tuple of one item has a comma after it. -/
def tupleText : List (List Char) → List Char
  | [t] => '(' :: t ++ [',', ')']
  | ts => '(' :: join ts ++ [')']

/-- `MultiFieldSelector.__repr__` (selector.py:771-782). -/
def mfsText (pr : Char → Bool) (h : Heads) : List Char :=
  "MultiFieldSelector".toList ++ tupleText ((Mfs.iter h).map (reprFS pr))

/-- A component of a selector. -/
def evalComp : Ex → Option Comp
  | .none => some .none
  | .int i => some (.int i)
  | .str s => some (.str s)
  | _ => none

/-- A list of components. -/
def evalComps : Ex → Option FS
  | .list es => es.mapM evalComp
  | _ => none

/-- `eval(text)` for a field selector: `FieldSelector(list)`, whose constructor takes components as they are
(selector.py:54-83). -/
def evalFS (text : List Char) : Option FS :=
  match pExpr text.length text with
  | some (.call fn [(none, e)], []) => if fn = "FieldSelector" then evalComps e else none
  | _ => none

/-- The positional argument. -/
def evalArg : Option String × Ex → Option MArg
  | (none, e) => (evalComps e).map .fs
  | _ => none

/-- `eval(text)` for a multi-field selector: `MultiFieldSelector(*lists)`; the constructor is `Mfs.init`. -/
def evalMfs (ord : List MArg → List MArg) (text : List Char) : Option (Except Exc Heads) :=
  match pExpr text.length text with
  | some (.call fn args, []) =>
    if fn = "MultiFieldSelector" then (args.mapM evalArg).map (Mfs.init ord) else none
  | _ => none

end Normalize.Repr
