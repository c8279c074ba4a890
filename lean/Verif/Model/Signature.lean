/-!
# Calling the functions of the user

Models `Property.func_info` and what it is used for: which arguments `default=` and `compare_as=` functions
are called with, and whether `json_data` methods are given `extraneous=`.
-/

namespace Normalize.Sig

/-- The parameters of a python function.  `args` are those that can be passed by position, the first `posonly`
of them by position only, the last `ndef` have defaults; `kwonly` come with whether they have a default. -/
structure Params where
  args : List String
  posonly : Nat := 0
  ndef : Nat := 0
  varargs : Bool := false
  kwonly : List (String × Bool) := []
  varkw : Bool := false
  deriving DecidableEq, Repr

/-- What can be called: a function, or something that calls a function with one more argument in front, which
is a method of an object, a class (`__init__`) or an object with `__call__`. -/
inductive Callee
  | function (p : Params)
  | bound (p : Params)
  deriving DecidableEq, Repr

/-- `inspect.getfullargspec` (used in property/__init__.py:160 and record/json.py:181) shows the parameter in
front in both cases. -/
def Callee.argspec : Callee → Params
  | .function p => p
  | .bound p => p

/-- `Property.func_info` (property/__init__.py:159-171): (is it a method, number of required arguments). -/
def funcInfo (f : Callee) : Bool × Nat :=
  if f.argspec.args.isEmpty then (false, 0)
  else if f.argspec.args.length - f.argspec.ndef ≠ 0 ∧ f.argspec.args.head? = some "self" then
    (true, f.argspec.args.length - f.argspec.ndef - 1)
  else (false, f.argspec.args.length - f.argspec.ndef)

/-- `Property.__init__` given a callable `default` (property/__init__.py:122-150): `default_is_method`, or
`none` for `DefaultSignatureError`.  The warning is not modelled. -/
def declareDefault (f : Callee) : Option Bool :=
  if (funcInfo f).2 ≠ 0 then
    if (funcInfo f).1 = false ∧ (funcInfo f).2 = 1 then some true
    else none
  else some (funcInfo f).1

/-- The arguments that are passed by position. -/
inductive Arg
  | record | value
  deriving DecidableEq, Repr

/-- `Property.get_default` (property/__init__.py:248-257). -/
def defaultArgs (isMethod : Bool) : List Arg := if isMethod then [.record] else []

/-- `DiffasProperty.__init__` (property/__init__.py:484-492): `compare_as_info`, or
`none` for `CompareAsSignatureError`. -/
def declareCompareAs (f : Callee) : Option (Bool × Nat) :=
  if (funcInfo f).2 > 1 then none else some (funcInfo f)

/-- `DiffOptions.normalize_object_slot` (diff.py:293-300). -/
def compareAsArgs (info : Bool × Nat) : List Arg :=
  (if info.1 then [.record] else []) ++ (if info.2 ≠ 0 then [.value] else [])

/-- `_json_data` (record/json.py:181-187): the names of the keyword arguments `json_data` is called with. -/
def jsonKeywords (f : Callee) : List String :=
  if f.argspec.args.contains "extraneous" || !f.argspec.kwonly.isEmpty then ["extraneous"] else []

end Normalize.Sig
