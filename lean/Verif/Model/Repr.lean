import Verif.Model.Val
import Mathlib.Data.List.Sort
import Mathlib.Data.String.Basic

/-! `repr` of records and collections, and what python does when that text is evaluated.

Values here are `None`, `bool`, `int`, `str`, python lists and dicts (with `None`, `int` or `str` keys), records and
collections, with extra properties on collections.  A class is known by the name it is in scope under. -/

namespace Normalize.Repr

/-- A python value.  The instance dict of a record is listed in the order of the names; the order python keeps does
not matter to anything here. -/
inductive V
  | none
  | bool (b : Bool)
  | int (i : Int)
  | str (s : String)
  | list (xs : List V)
  | dict (xs : List (Comp × V))
  | rcd (cls : String) (slots : List (String × V))
  /-- a collection: `_values` (a list or a dict) and the instance dict -/
  | coll (cls : String) (values : V) (slots : List (String × V))

/-- The instance dict. -/
abbrev Slots := List (String × V)

/-- A property as far as constructors are concerned (property/__init__.py:203-263). -/
structure PropD where
  /-- `required` -/
  required : Bool
  /-- is it a lazy property? -/
  lazy : Bool := false
  /-- is there a `valuetype`? -/
  valued : Bool
  /-- `isinstance(value, self.valuetype)` -/
  isa : V → Bool
  /-- `self.coerce(value)`; `none` for an exception -/
  coerce : V → Option V
  /-- `self.check(value)`, true when there is no `check` -/
  check : V → Bool
  /-- `get_default(obj)`: `none` when there is no default, `some none` for an exception -/
  default : Option (Slots → Option V)

/-- The base class. -/
inductive Kind
  | rcd | list | dict | jrcd | jlist | jdict
  deriving DecidableEq

/-- A class. -/
structure Cls where
  kind : Kind
  /-- `properties` -/
  props : List (String × PropD)
  /-- `isinstance(v, cls.itemtype)` -/
  itemIsa : V → Bool
  /-- `cls.coerceitem(v)` -/
  itemCoerce : V → Option V

/-- The classes that are in scope. -/
abbrev Env := String → Option Cls

/-! ## Text -/

/-- One hexadecimal digit. -/
def hexDigit (n : Nat) : Char := Nat.digitChar (n % 16)

/-- `k` hexadecimal digits. -/
def hex : Nat → Nat → List Char
  | 0, _ => []
  | k + 1, n => hex k (n / 16) ++ [hexDigit n]

/-- One character in the `repr` of a string (python's `unicode_repr`); `printable` is asked about characters that are
not ASCII. -/
def escape (printable : Char → Bool) (quote c : Char) : List Char :=
  if c = quote ∨ c = '\\' then ['\\', c]
  else if c = '\t' then ['\\', 't']
  else if c = '\n' then ['\\', 'n']
  else if c = '\r' then ['\\', 'r']
  else if c.toNat < 32 ∨ c.toNat = 127 then '\\' :: 'x' :: hex 2 c.toNat
  else if c.toNat < 127 then [c]
  else if printable c then [c]
  else if c.toNat < 256 then '\\' :: 'x' :: hex 2 c.toNat
  else if c.toNat < 65536 then '\\' :: 'u' :: hex 4 c.toNat
  else '\\' :: 'U' :: hex 8 c.toNat

/-- The quotes python uses. -/
def quoteOf (s : List Char) : Char := if '\'' ∈ s ∧ '"' ∉ s then '"' else '\''

/-- `repr(s)` of a string. -/
def reprStr (printable : Char → Bool) (s : List Char) : List Char :=
  quoteOf s :: (s.flatMap (escape printable (quoteOf s)) ++ [quoteOf s])

/-- `repr(i)` of an int. -/
def reprInt : Int → List Char
  | .ofNat n => Nat.toDigits 10 n
  | .negSucc n => '-' :: Nat.toDigits 10 (n + 1)

/-- `repr(k)` of a key. -/
def reprKey (printable : Char → Bool) : Comp → List Char
  | .none => "None".toList
  | .int i => reprInt i
  | .str s => reprStr printable s.toList

/-- `", ".join(xs)`. -/
def join : List (List Char) → List Char
  | [] => []
  | [x] => x
  | x :: y :: r => x ++ (',' :: ' ' :: join (y :: r))

/-- `text.replace(c, new, 1)`. -/
def replaceFirst (c : Char) (new : List Char) : List Char → List Char
  | [] => []
  | d :: r => if d = c then new ++ r else d :: replaceFirst c new r

/-- `text.endswith("()")`. -/
def endsEmpty (t : List Char) : Bool := "()".toList.isSuffixOf t

/-- `sorted(type(self).properties)` (record/__init__.py:112). -/
def sortedNames (c : Cls) : List String := (c.props.map (·.1)).insertionSort (· ≤ ·)

/-- The loop of `Record.__repr__` (record/__init__.py:112-116), over the texts of the values. -/
def attrTexts (names : List String) (texts : List (String × List Char)) : List (List Char) :=
  names.filterMap (fun nm => (alookup texts nm).map (fun t => nm.toList ++ '=' :: t))

/-- `Record.__repr__` (record/__init__.py:103-117). -/
def recordText (cls : String) (c : Cls) (texts : List (String × List Char)) : List Char :=
  cls.toList ++ ('(' :: join (attrTexts (sortedNames c) texts) ++ [')'])

/-- `ListCollection.__repr__`, `DictCollection.__repr__` (coll.py:283-290, 415-421), given `property_info` and the text
of the contents. -/
def collText (info contents : List Char) : List Char :=
  replaceFirst '(' ('(' :: contents ++ (if endsEmpty info then [] else [',', ' '])) info

/-- The `__repr__` the class has: `JsonRecordList.__repr__` (record/json.py:427-429) changes the text of
`ListCollection.__repr__`; `JsonRecordDict.__repr__` (record/json.py:499-501) raises `TypeError`, since
`super(JsonRecordList, self)` wants an instance of `JsonRecordList`. -/
def kindText (k : Kind) (info contents : List Char) : Option (List Char) :=
  match k with
  | .list | .dict => some (collText info contents)
  | .jlist => some (replaceFirst '[' "values=[".toList (collText info contents))
  | _ => none

mutual
/-- `repr(value)`; `none` for an exception. -/
def reprV (pr : Char → Bool) (E : Env) : V → Option (List Char)
  | .none => some "None".toList
  | .bool true => some "True".toList
  | .bool false => some "False".toList
  | .int i => some (reprInt i)
  | .str s => some (reprStr pr s.toList)
  | .list xs =>
    match reprL pr E xs with
    | none => none
    | some ts => some ('[' :: join ts ++ [']'])
  | .dict xs =>
    match reprD pr E xs with
    | none => none
    | some ts => some ('{' :: join ts ++ ['}'])
  | .rcd cls slots =>
    match E cls, reprS pr E slots with
    | some c, some ts => some (recordText cls c ts)
    | _, _ => none
  | .coll cls values slots =>
    match E cls, reprS pr E slots, reprV pr E values with
    | some c, some ts, some t => kindText c.kind (recordText cls c ts) t
    | _, _, _ => none
/-- The items of a list. -/
def reprL (pr : Char → Bool) (E : Env) : List V → Option (List (List Char))
  | [] => some []
  | x :: xs =>
    match reprV pr E x, reprL pr E xs with
    | some t, some ts => some (t :: ts)
    | _, _ => none
/-- The items of a dict. -/
def reprD (pr : Char → Bool) (E : Env) : List (Comp × V) → Option (List (List Char))
  | [] => some []
  | (k, x) :: xs =>
    match reprV pr E x, reprD pr E xs with
    | some t, some ts => some ((reprKey pr k ++ ':' :: ' ' :: t) :: ts)
    | _, _ => none
/-- The values of attributes. -/
def reprS (pr : Char → Bool) (E : Env) : List (String × V) → Option (List (String × List Char))
  | [] => some []
  | (nm, x) :: xs =>
    match reprV pr E x, reprS pr E xs with
    | some t, some ts => some ((nm, t) :: ts)
    | _, _ => none
end

/-! ## Python: parsing -/

/-- An expression of the fragment of python that is needed; the parsers below give `none` for other texts. -/
inductive Ex
  | none
  | bool (b : Bool)
  | int (i : Int)
  | str (s : String)
  | list (xs : List Ex)
  | dict (xs : List (Ex × Ex))
  | call (fn : String) (args : List (Option String × Ex))

/-- White space between tokens. -/
def isWs (c : Char) : Bool := c = ' ' || c = '\t' || c = '\n' || c = '\r'

/-- Go to the next token. -/
def skip (cs : List Char) : List Char := cs.dropWhile isWs

/-- The first character of an identifier; others than ASCII are not modelled. -/
def idStart (c : Char) : Bool := c.isAlpha || c = '_'

/-- A further character of an identifier. -/
def idCont (c : Char) : Bool := c.isAlphanum || c = '_'

/-- Python's keywords. -/
def keywords : List String :=
  ["False", "None", "True", "and", "as", "assert", "async", "await", "break", "class", "continue", "def", "del", "elif",
   "else", "except", "finally", "for", "from", "global", "if", "import", "in", "is", "lambda", "nonlocal", "not", "or",
   "pass", "raise", "return", "try", "while", "with", "yield"]

/-- The value of a hexadecimal digit. -/
def hexVal (c : Char) : Option Nat :=
  if c.isDigit then some (c.toNat - 48)
  else if 'a' ≤ c ∧ c ≤ 'f' then some (c.toNat - 87)
  else if 'A' ≤ c ∧ c ≤ 'F' then some (c.toNat - 55)
  else none

/-- `k` hexadecimal digits. -/
def pHex : Nat → Nat → List Char → Option (Nat × List Char)
  | 0, acc, cs => some (acc, cs)
  | _ + 1, _, [] => none
  | k + 1, acc, c :: cs =>
    match hexVal c with
    | none => none
    | some d => pHex k (acc * 16 + d) cs

/-- The character with a number; surrogates are not modelled. -/
def charOf (r : Option (Nat × List Char)) : Option (Char × List Char) :=
  match r with
  | none => none
  | some (n, cs) => if Nat.isValidChar n then some (Char.ofNat n, cs) else none

/-- After a backslash in a string literal.  `\a`, `\b`, `\f`, `\v`, octal numbers, `\N{…}`, a backslash before the end
of a line and unknown escapes are not modelled. -/
def pEscape : List Char → Option (Char × List Char)
  | [] => none
  | c :: cs =>
    if c = '\\' ∨ c = '\'' ∨ c = '"' then some (c, cs)
    else if c = 't' then some ('\t', cs)
    else if c = 'n' then some ('\n', cs)
    else if c = 'r' then some ('\r', cs)
    else if c = 'x' then charOf (pHex 2 0 cs)
    else if c = 'u' then charOf (pHex 4 0 cs)
    else if c = 'U' then charOf (pHex 8 0 cs)
    else none

/-- The rest of a string literal, up to the closing quote. -/
def pStr (quote : Char) : Nat → List Char → Option (List Char × List Char)
  | 0, _ => none
  | _ + 1, [] => none
  | n + 1, c :: cs =>
    if c = quote then some ([], cs)
    else if c = '\n' ∨ c = '\r' then none
    else if c = '\\' then
      match pEscape cs with
      | none => none
      | some (d, r) =>
        match pStr quote n r with
        | none => none
        | some (s, r') => some (d :: s, r')
    else
      match pStr quote n cs with
      | none => none
      | some (s, r') => some (c :: s, r')

/-- A number cannot go on like this: `12a`, `1_0`, `1.5`. -/
def afterNum : List Char → Bool
  | [] => true
  | c :: _ => !(idCont c || c = '.')

/-- A decimal number; `0`, or no zero in front. -/
def pNum (cs : List Char) : Option (Nat × List Char) :=
  if cs.takeWhile Char.isDigit = [] then none
  else if (cs.takeWhile Char.isDigit).head? = some '0' ∧ cs.takeWhile Char.isDigit ≠ ['0'] then none
  else if afterNum (cs.dropWhile Char.isDigit) then
    some (Nat.ofDigitChars 10 (cs.takeWhile Char.isDigit) 0, cs.dropWhile Char.isDigit)
  else none

/-- Elements separated by commas, up to the closing bracket. -/
def pSeq {α : Type} (elem : List Char → Option (α × List Char)) (close : Char) :
    Nat → List Char → Option (List α × List Char)
  | 0, _ => none
  | n + 1, cs =>
    if (skip cs).head? = some close then some ([], (skip cs).tail)
    else
      match elem (skip cs) with
      | none => none
      | some (a, r) =>
        if (skip r).head? = some close then some ([a], (skip r).tail)
        else if (skip r).head? = some ',' then
          match pSeq elem close n (skip r).tail with
          | none => none
          | some (as, r') => some (a :: as, r')
        else none

/-- `key: value`. -/
def pPair (elem : List Char → Option (Ex × List Char)) (cs : List Char) : Option ((Ex × Ex) × List Char) :=
  match elem cs with
  | none => none
  | some (k, r) =>
    if (skip r).head? = some ':' then
      match elem (skip (skip r).tail) with
      | none => none
      | some (v, r') => some ((k, v), r')
    else none

/-- Does the text start with `name=`? -/
def isKwarg (cs : List Char) : Bool :=
  cs.head?.any idStart && (skip (cs.dropWhile idCont)).head? = some '=' &&
    (skip (cs.dropWhile idCont)).tail.head? ≠ some '='

/-- An argument, `name=value` or `value`. -/
def pArg (elem : List Char → Option (Ex × List Char)) (cs : List Char) :
    Option ((Option String × Ex) × List Char) :=
  if isKwarg cs then
    if String.ofList (cs.takeWhile idCont) ∈ keywords then none
    else
      match elem (skip (skip (cs.dropWhile idCont)).tail) with
      | none => none
      | some (v, r) => some ((some (String.ofList (cs.takeWhile idCont)), v), r)
  else
    match elem cs with
    | none => none
    | some (v, r) => some ((none, v), r)

/-- A name, or a call of a class. -/
def pName (elem : List Char → Option (Ex × List Char)) (cs : List Char) : Option (Ex × List Char) :=
  if String.ofList (cs.takeWhile idCont) = "None" then some (.none, cs.dropWhile idCont)
  else if String.ofList (cs.takeWhile idCont) = "True" then some (.bool true, cs.dropWhile idCont)
  else if String.ofList (cs.takeWhile idCont) = "False" then some (.bool false, cs.dropWhile idCont)
  else if String.ofList (cs.takeWhile idCont) ∈ keywords then none
  else if (skip (cs.dropWhile idCont)).head? = some '(' then
    match pSeq (pArg elem) ')' cs.length (skip (cs.dropWhile idCont)).tail with
    | none => none
    | some (args, r) => some (.call (String.ofList (cs.takeWhile idCont)) args, r)
  else none

/-- An expression at the start of the text, and the rest of the text. -/
def pExpr : Nat → List Char → Option (Ex × List Char)
  | 0, _ => none
  | _ + 1, [] => none
  | n + 1, c :: cs =>
    if c = '[' then
      match pSeq (pExpr n) ']' (c :: cs).length cs with
      | none => none
      | some (xs, r) => some (.list xs, r)
    else if c = '{' then
      match pSeq (pPair (pExpr n)) '}' (c :: cs).length cs with
      | none => none
      | some (xs, r) => some (.dict xs, r)
    else if c = '\'' ∨ c = '"' then
      match pStr c (c :: cs).length cs with
      | none => none
      | some (s, r) => some (.str (String.ofList s), r)
    else if c = '-' then
      match pNum cs with
      | none => none
      | some (m, r) => some (.int (-(m : Int)), r)
    else if c.isDigit then
      match pNum (c :: cs) with
      | none => none
      | some (m, r) => some (.int m, r)
    else if idStart c then pName (pExpr n) (c :: cs)
    else none

/-! ## Python: evaluating -/

/-- `type_safe_value(value, _none_ok=True)` (property/__init__.py:203-246): `none` for an exception, `some none` for
`_none`. -/
def typeSafe (p : PropD) (v : V) : Option (Option V) :=
  match v, p.required && !p.valued with
  | .none, true => none
  | v, _ =>
    if p.valued && !p.isa v then
      match p.coerce v with
      | none => none
      | some w =>
        if p.isa w then (if p.check w then some (some w) else none)
        else
          match w, p.required with
          | .none, false => some none
          | _, _ => none
    else if p.check v then some (some v) else none

/-- `init_prop(obj, value)` (property/__init__.py:259-272). -/
def initProp (p : PropD) (nm : String) (v : V) (s : Slots) : Option Slots :=
  match typeSafe p v with
  | none => none
  | some none => if p.required then none else some s
  | some (some w) => some (aset s nm w)

/-- `init_prop(obj)`. -/
def initDefault (p : PropD) (nm : String) (s : Slots) : Option Slots :=
  match p.default with
  | none => if p.required then none else some s
  | some f =>
    match f s with
    | none => none
    | some v => initProp p nm v s

/-- The loop over the arguments (record/__init__.py:54-62). -/
def initArgs (c : Cls) : List (String × V) → Slots → Option Slots
  | [], s => some s
  | (nm, v) :: kw, s =>
    match alookup c.props nm with
    | none => none
    | some p =>
      match initProp p nm v s with
      | none => none
      | some s' => initArgs c kw s'

/-- `eager_init` (property/__init__.py:274-275, 355-356). -/
def eager (p : PropD) : Bool := !p.lazy && (p.required || p.default.isSome)

/-- The loop over the missing properties (record/__init__.py:63-67).  Python's order is that of a set. -/
def initMissing : List (String × PropD) → Slots → Option Slots
  | [], s => some s
  | (nm, p) :: r, s =>
    match initDefault p nm s with
    | none => none
    | some s' => initMissing r s'

/-- The instance dict in the order of the names. -/
def sortSlots (s : Slots) : Slots := s.insertionSort (fun a b => a.1 ≤ b.1)

/-- Is a value true? -/
def truthy : V → Bool
  | .none => false
  | .bool b => b
  | .int i => i ≠ 0
  | .str s => s ≠ ""
  | .list xs => !xs.isEmpty
  | .dict xs => !xs.isEmpty
  | .rcd _ _ => true
  | .coll _ v _ => truthy v

/-- `init_dict.items()`; only dicts whose keys are strings are modelled. -/
def initItems : V → Option (List (String × V))
  | .dict xs => xs.mapM (fun e => match e.1 with | .str s => some (s, e.2) | _ => none)
  | _ => none

/-- The instance dict after `Record.__init__(init_dict, **kwargs)` (record/__init__.py:32-67). -/
def recordInit (c : Cls) (kw : List (String × V)) : Option Slots :=
  match (alookup kw "init_dict").filter truthy with
  | some d =>
    if aerase kw "init_dict" = [] then
      match initItems d with
      | none => none
      | some items =>
        match initArgs c items [] with
        | none => none
        | some s => (initMissing (c.props.filter (fun e => eager e.2 && (alookup items e.1).isNone)) s).map sortSlots
    else none
  | none =>
    match initArgs c (aerase kw "init_dict") [] with
    | none => none
    | some s => (initMissing (c.props.filter (fun e => eager e.2 && (alookup (aerase kw "init_dict") e.1).isNone)) s).map sortSlots

/-- Is there JSON data to read? -/
def hasJson (kw : List (String × V)) : Bool :=
  match alookup kw "json_data" with
  | none | some .none => false
  | some _ => true

/-- `JsonRecord.__init__(json_data, **kwargs)` (record/json.py:283-306).  Reading JSON data is modelled in
`Model.Json`, not here. -/
def jsonInit (c : Cls) (kw : List (String × V)) : Option Slots :=
  if hasJson kw then none else recordInit c (aerase kw "json_data")

/-- `coerce_value` (coll.py:133-148). -/
def coerceItem (c : Cls) (v : V) : Option V := if c.itemIsa v then some v else c.itemCoerce v

/-- `tuples_to_coll(coll_to_tuples(values))` of a list collection (coll.py:304-337).  Of the arguments it takes, lists
and nothing are modelled. -/
def listContents (c : Cls) : Option V → Option V
  | none | some .none => some (.list [])
  | some (.list xs) => (xs.mapM (coerceItem c)).map .list
  | some _ => none

/-- The same for a dict collection (coll.py:211-240); dicts and nothing. -/
def dictContents (c : Cls) : Option V → Option V
  | none | some .none => some (.dict [])
  | some (.dict xs) => (xs.mapM (fun e => (coerceItem c e.2).map (fun w => (e.1, w)))).map .dict
  | some _ => none

/-- `Collection.__init__(values, **kwargs)` (coll.py:83-99), with the constructor that comes next in the method
resolution order. -/
def collInit (cls : String) (contents : Option V → Option V) (next : List (String × V) → Option Slots)
    (kw : List (String × V)) : Option V :=
  match contents (alookup kw "values") with
  | none => none
  | some vs => (next (aerase kw "values")).map (V.coll cls vs)

/-- The first parameter of the constructor. -/
def firstParam : Kind → String
  | .rcd => "init_dict"
  | .list | .dict => "values"
  | .jrcd | .jlist | .jdict => "json_data"

/-- `cls(**kwargs)`. -/
def construct (cls : String) (c : Cls) (kw : List (String × V)) : Option V :=
  match c.kind with
  | .rcd => (recordInit c kw).map (V.rcd cls)
  | .jrcd => (jsonInit c kw).map (V.rcd cls)
  | .list => collInit cls (listContents c) (recordInit c) kw
  | .dict => collInit cls (dictContents c) (recordInit c) kw
  | .jlist => if hasJson kw then none else collInit cls (listContents c) (jsonInit c) (aerase kw "json_data")
  | .jdict => if hasJson kw then none else collInit cls (dictContents c) (jsonInit c) (aerase kw "json_data")

/-- `cls(*args, **kwargs)`: more than one positional argument, a parameter given twice, `self=`, a keyword given twice
or a positional argument after a keyword are errors. -/
def call (cls : String) (c : Cls) (args : List (Option String × V)) : Option V :=
  match args with
  | (none, v) :: rest =>
    if rest.all (·.1.isSome) && (rest.filterMap (·.1)).Nodup && !("self" ∈ rest.filterMap (·.1)) &&
        !(firstParam c.kind ∈ rest.filterMap (·.1)) then
      construct cls c ((firstParam c.kind, v) :: rest.filterMap (fun e => e.1.map (fun nm => (nm, e.2))))
    else none
  | rest =>
    if rest.all (·.1.isSome) && (rest.filterMap (·.1)).Nodup && !("self" ∈ rest.filterMap (·.1)) then
      construct cls c (rest.filterMap (fun e => e.1.map (fun nm => (nm, e.2))))
    else none

/-- The key of a dict display; other keys are not modelled. -/
def asKey : V → Option Comp
  | .none => some .none
  | .int i => some (.int i)
  | .str s => some (.str s)
  | _ => none

mutual
/-- The value of an expression; `none` for an exception. -/
def evalE (E : Env) : Ex → Option V
  | .none => some .none
  | .bool b => some (.bool b)
  | .int i => some (.int i)
  | .str s => some (.str s)
  | .list xs => (evalL E xs).map .list
  | .dict xs => (evalD E xs []).map .dict
  | .call fn args =>
    match E fn with
    | none => none
    | some c =>
      match evalA E args with
      | none => none
      | some vs => call fn c vs
/-- Items. -/
def evalL (E : Env) : List Ex → Option (List V)
  | [] => some []
  | e :: es =>
    match evalE E e with
    | none => none
    | some v =>
      match evalL E es with
      | none => none
      | some vs => some (v :: vs)
/-- A dict display: a key that comes again replaces the value. -/
def evalD (E : Env) : List (Ex × Ex) → List (Comp × V) → Option (List (Comp × V))
  | [], d => some d
  | (k, e) :: es, d =>
    match (evalE E k).bind asKey with
    | none => none
    | some k' =>
      match evalE E e with
      | none => none
      | some v => evalD E es (aset d k' v)
/-- Arguments. -/
def evalA (E : Env) : List (Option String × Ex) → Option (List (Option String × V))
  | [] => some []
  | (nm, e) :: es =>
    match evalE E e with
    | none => none
    | some v =>
      match evalA E es with
      | none => none
      | some vs => some ((nm, v) :: vs)
end

/-- `eval(text)`. -/
def eval (E : Env) (text : List Char) : Option V :=
  match pExpr text.length text with
  | some (e, []) => evalE E e
  | _ => none

end Normalize.Repr
