import Verif.Model.Repr
import Verif.Model.Exceptions

/-!
# `repr` of an exception of the library

Models `/repo/normalize/exc.py:66-73`, and what python does when that text is evaluated.

The arguments are the values of `Model/Repr.lean`, or tuples of them.  Simplification: in evaluating, tuples are not
read.
-/

namespace Normalize.Repr

open Normalize

/-- An argument of an exception. -/
inductive XArg
  | val (v : V)
  | tuple (vs : List V)

/-- `"%r" % x` (exc.py:70): `%` takes a tuple for the sequence of the things to show, so that there is a `TypeError`
(`none`) unless there is one of them. -/
def percentR (pr : Char → Bool) (E : Env) : XArg → Option (List Char)
  | .val v => reprV pr E v
  | .tuple [v] => reprV pr E v
  | .tuple _ => none

/-- `repr` of a tuple. -/
def reprTuple (pr : Char → Bool) (E : Env) (vs : List V) : Option (List Char) :=
  match reprL pr E vs with
  | none => none
  | some [t] => some ('(' :: t ++ [',', ')'])
  | some ts => some ('(' :: join ts ++ [')'])

/-- `"%s=%r" % (k, v)` (exc.py:71). -/
def kwargText (pr : Char → Bool) (E : Env) (k : String) (a : XArg) : Option (List Char) :=
  match a with
  | .val v => (reprV pr E v).map (fun t => k.toList ++ '=' :: t)
  | .tuple vs => (reprTuple pr E vs).map (fun t => k.toList ++ '=' :: t)

/-- The texts of the positional arguments (exc.py:70). -/
def posTexts (pr : Char → Bool) (E : Env) : List XArg → Option (List (List Char))
  | [] => some []
  | a :: as =>
    match percentR pr E a, posTexts pr E as with
    | some t, some ts => some (t :: ts)
    | _, _ => none

/-- The texts of the keyword arguments (exc.py:71). -/
def kwTexts (pr : Char → Bool) (E : Env) : List (String × XArg) → Option (List (List Char))
  | [] => some []
  | (k, a) :: as =>
    match kwargText pr E k a, kwTexts pr E as with
    | some t, some ts => some (t :: ts)
    | _, _ => none

/-- `repr(e)` (exc.py:66-73), for an exception whose class was declared in the module `mod`; `none` for an
exception. -/
def excText (pr : Char → Bool) (E : Env) (mod : String) (o : Exn.Obj XArg) : Option (List Char) :=
  match posTexts pr E o.args, kwTexts pr E o.kwargs with
  | some ps, some ks =>
    some ((if ".exc".toList.isSuffixOf mod.toList then "exc.".toList else []) ++
      (o.cls.name.toList ++ ('(' :: join (ps ++ ks) ++ [')'])))
  | _, _ => none

/-- `cls(*args, **kwargs)` for the arguments of a call in source; `none` for a positional argument after a keyword, a
keyword given twice, or `self=` (exc.py:34). -/
def callExc (W : Exn.World XArg) (n : Nat) (c : Exn.Cls) (args : List (Option String × V)) :
    Option (Except (Exn.Raised XArg) (Exn.Obj XArg)) :=
  let pos := args.takeWhile (·.1.isNone)
  let kws := args.dropWhile (·.1.isNone)
  if kws.all (·.1.isSome) && (kws.filterMap (·.1)).Nodup && !("self" ∈ kws.filterMap (·.1)) then
    some (Exn.init W n c (pos.map (fun e => .val e.2))
      (kws.filterMap (fun e => e.1.map (fun nm => (nm, XArg.val e.2)))))
  else none

/-- A call of an exception class. -/
def evalCall (E : Env) (X : String → Option Exn.Cls) (W : Exn.World XArg) (n : Nat) (text : List Char) :
    Option (Except (Exn.Raised XArg) (Exn.Obj XArg)) :=
  match pExpr text.length text with
  | some (.call nm args, []) =>
    match X nm, evalA E args with
    | some c, some vs => callExc W n c vs
    | _, _ => none
  | _ => none

/-- `eval(text)`, where `exc` is the module with the exception classes `inExc` and the classes `X` are in scope. -/
def evalExc (E : Env) (inExc X : String → Option Exn.Cls) (W : Exn.World XArg) (n : Nat) (text : List Char) :
    Option (Except (Exn.Raised XArg) (Exn.Obj XArg)) :=
  if text.takeWhile idCont = "exc".toList ∧ (text.dropWhile idCont).head? = some '.' then
    evalCall E inExc W n (text.dropWhile idCont).tail
  else evalCall E X W n text

end Normalize.Repr
