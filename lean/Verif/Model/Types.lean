import Verif.Model.Json

/-!
# The ready-made property types

Models `/repo/normalize/property/types.py`, with what it uses of `Property.type_safe_value`
(property/__init__.py:202-246), `init_prop` (259-272), `JsonProperty` (property/json.py:68-98) and `to_json`
(record/json.py:192-264), and python's `isoformat`, `strptime` and `int`.

Simplifications: time zones are offsets in whole minutes; floats and decimals are opaque; there is no limit on the
number of digits that `int` and `str` convert.
-/

namespace Normalize.Types

/-! ## Values -/

/-- `datetime.date` -/
structure Date where
  year : Nat
  month : Nat
  day : Nat
  deriving DecidableEq, Repr

/-- `datetime.datetime`; the time zone is an offset in minutes, if any. -/
structure DateTime where
  date : Date
  hour : Nat
  minute : Nat
  second : Nat
  micro : Nat
  tz : Option Int
  deriving DecidableEq, Repr

/-- Python objects as far as these types tell them apart.  `dated`: anything else with a `date()` method. -/
inductive TVal
  | none
  | bool (b : Bool)
  | int (i : Int)
  | float (x : Nat)
  | decimal (x : Nat)
  | str (s : String)
  | date (d : Date)
  | datetime (t : DateTime)
  | dated (d : Date)
  | other (n : Nat)
  deriving DecidableEq, Repr

/-- Exceptions: those of parsing, those python raises in conversions, the two of `type_safe_value`, and a missing
attribute. -/
inductive TErr
  | valueError
  | typeError
  | cannotParse
  | coerceError
  | valueCoercionError
  | attributeError
  deriving DecidableEq, Repr

/-- What is left open of python. -/
structure Py where
  /-- decimal digits (of all scripts) and their values -/
  digit : Char → Option Nat
  /-- white space -/
  space : Char → Bool
  /-- `float(...)` -/
  float : TVal → Except TErr Nat
  /-- `int(...)` of a float or decimal -/
  trunc : TVal → Except TErr Int
  /-- `str(...)` of anything that is no string -/
  str : TVal → String
  /-- `dateutil.parser.parse`, if it is installed -/
  dateutil : Option (String → Except TErr DateTime)

variable (py : Py)

/-! ## Dates -/

/-- Is it a leap year? -/
def leap (y : Nat) : Bool := y % 4 == 0 && (y % 100 != 0 || y % 400 == 0)

/-- The number of days of a month. -/
def daysIn (y m : Nat) : Nat :=
  if m = 2 then (if leap y then 29 else 28)
  else if m = 4 ∨ m = 6 ∨ m = 9 ∨ m = 11 then 30
  else 31

/-- `datetime.date(y, m, d)` raises `ValueError` unless this. -/
def goodDate (d : Date) : Bool :=
  1 ≤ d.year && d.year ≤ 9999 && 1 ≤ d.month && d.month ≤ 12 && 1 ≤ d.day && d.day ≤ daysIn d.year d.month

/-- `datetime.datetime(...)` raises `ValueError` unless this. -/
def goodTime (t : DateTime) : Bool :=
  goodDate t.date && t.hour < 24 && t.minute < 60 && t.second < 60 && t.micro < 1000000 &&
    match t.tz with
    | none => true
    | some o => o.natAbs < 1440

/-- A decimal digit. -/
def dig (n : Nat) : Char := Char.ofNat (48 + n)

/-- `"%02d"` of a number below 100. -/
def pad2 (n : Nat) : List Char := [dig (n / 10), dig (n % 10)]

/-- `"%04d"` of a number below 10000. -/
def pad4 (n : Nat) : List Char := pad2 (n / 100) ++ pad2 (n % 100)

/-- `"%06d"` of a number below 1000000. -/
def pad6 (n : Nat) : List Char := pad2 (n / 10000) ++ pad4 (n % 10000)

/-- `date.isoformat()` -/
def isoDate (d : Date) : List Char := pad4 d.year ++ '-' :: pad2 d.month ++ '-' :: pad2 d.day

/-- The end of `datetime.isoformat()`: the offset. -/
def isoZone : Option Int → List Char
  | none => []
  | some o => (if o < 0 then '-' else '+') :: pad2 (o.natAbs / 60) ++ ':' :: pad2 (o.natAbs % 60)

/-- `datetime.isoformat()` -/
def isoTime (t : DateTime) : List Char :=
  isoDate t.date ++ 'T' :: pad2 t.hour ++ ':' :: pad2 t.minute ++ ':' :: pad2 t.second ++
    (if t.micro = 0 then [] else '.' :: pad6 t.micro) ++ isoZone t.tz

/-! ## `strptime` -/

/-- The directives that the formats use. -/
inductive Dir
  | Y | y | m | d | H | M | S
  | lit (c : Char)
  deriving DecidableEq, Repr

/-- Two characters, by their classes; the value of two digits. -/
def two (p q : Char → Option Nat) : List Char → List (Nat × List Char)
  | a :: b :: rest =>
    match p a, q b with
    | some x, some y => [(10 * x + y, rest)]
    | _, _ => []
  | _ => []

/-- One character. -/
def one (p : Char → Option Nat) : List Char → List (Nat × List Char)
  | a :: rest =>
    match p a with
    | some x => [(x, rest)]
    | none => []
  | _ => []

/-- A range of ASCII digits. -/
def range (lo hi : Nat) (c : Char) : Option Nat :=
  if 48 + lo ≤ c.toNat ∧ c.toNat ≤ 48 + hi then some (c.toNat - 48) else none

/-- `\d\d\d\d` -/
def four (p : Char → Option Nat) (s : List Char) : List (Nat × List Char) :=
  (two p p s).flatMap (fun a => (two p p a.2).map (fun b => (100 * a.1 + b.1, b.2)))

/-- The ways a directive can match at the start, in the order of the alternatives of its regular expression in
python's `_strptime.TimeRE`.  The expression ignores case. -/
def alts : Dir → List Char → List (Nat × List Char)
  | .Y, s => four py.digit s
  | .y, s => two py.digit py.digit s
  -- 1[0-2]|0[1-9]|[1-9]
  | .m, s => two (range 1 1) (range 0 2) s ++ two (range 0 0) (range 1 9) s ++ one (range 1 9) s
  -- 3[0-1]|[1-2]\d|0[1-9]|[1-9]| [1-9]
  | .d, s => two (range 3 3) (range 0 1) s ++ two (range 1 2) py.digit s ++ two (range 0 0) (range 1 9) s ++
      one (range 1 9) s ++ two (fun c => if c = ' ' then some 0 else none) (range 1 9) s
  -- 2[0-3]|[0-1]\d|\d
  | .H, s => two (range 2 2) (range 0 3) s ++ two (range 0 1) py.digit s ++ one py.digit s
  -- [0-5]\d|\d
  | .M, s => two (range 0 5) py.digit s ++ one py.digit s
  -- 6[0-1]|[0-5]\d|\d
  | .S, s => two (range 6 6) (range 0 1) s ++ two (range 0 5) py.digit s ++ one py.digit s
  | .lit c, s => one (fun x => if x = c ∨ (c = 'Z' ∧ x = 'z') then some 0 else none) s

/-- The first alternative from which all the rest can be matched. -/
def firstOf {α β : Type} (f : α → Option β) : List α → Option β
  | [] => none
  | a :: l =>
    match f a with
    | some b => some b
    | none => firstOf f l

/-- The match of a format, with backtracking: the values of the directives and what is left. -/
def run : List Dir → List Char → Option (List Nat × List Char)
  | [], s => some ([], s)
  | d :: ds, s => firstOf (fun a => (run ds a.2).map (fun b => (a.1 :: b.1, b.2))) (alts py d s)

/-- Years of two digits: POSIX. -/
def century (y : Nat) : Nat := if y ≤ 68 then 2000 + y else 1900 + y

/-- The fields that the values give. -/
def fields : List Dir → List Nat → DateTime → DateTime
  | d :: ds, v :: vs, t =>
    match d with
    | .Y => fields ds vs { t with date := { t.date with year := v } }
    | .y => fields ds vs { t with date := { t.date with year := century v } }
    | .m => fields ds vs { t with date := { t.date with month := v } }
    | .d => fields ds vs { t with date := { t.date with day := v } }
    | .H => fields ds vs { t with hour := v }
    | .M => fields ds vs { t with minute := v }
    | .S => fields ds vs { t with second := v }
    | .lit _ => fields ds vs t
  | _, _, t => t

/-- 1900-01-01 -/
def epoch : DateTime := ⟨⟨1900, 1, 1⟩, 0, 0, 0, 0, none⟩

/-- `datetime.datetime.strptime(text, format)` -/
def strptime (f : List Dir) (s : List Char) : Except TErr DateTime :=
  match run py f s with
  | none => .error .valueError
  | some (vs, rest) =>
    if rest = [] then
      if goodTime (fields f vs epoch) then .ok (fields f vs epoch) else .error .valueError
    else .error .valueError

/-! ## types.py -/

/-- The formats by length (types.py:30-37). -/
def formats : Nat → Option (List Dir)
  | 6 => some [.y, .m, .d]
  | 8 => some [.Y, .m, .d]
  | 13 => some [.Y, .m, .d, .H, .lit ':', .M]
  | 14 => some [.Y, .m, .d, .H, .lit ':', .M, .lit 'Z']
  | 16 => some [.Y, .m, .d, .H, .lit ':', .M, .lit ':', .S]
  | 17 => some [.Y, .m, .d, .H, .lit ':', .M, .lit ':', .S, .lit 'Z']
  | _ => none

/-- The three `replace` (types.py:40-41). -/
def stripped (s : List Char) : List Char := s.filter (fun c => c ≠ '-' && c ≠ 'T' && c ≠ ' ')

/-- The parser that is used without `dateutil` (types.py:39-50). -/
def fallback (s : List Char) : Except TErr DateTime :=
  match formats (stripped s).length with
  | some f => strptime py f (stripped s)
  | none => .error .cannotParse

/-- `parse_datetime` (types.py:27-50) -/
def parseDatetime (s : String) : Except TErr DateTime :=
  match py.dateutil with
  | some f => f s
  | none => fallback py s.toList

/-- `isinstance(v, date)`, the subtype (types.py:142-146): no datetimes, which are dates to python. -/
def isDate : TVal → Bool
  | .date _ => true
  | _ => false

/-- `coerce_datetime` (types.py:107-116).  `timetuple` of a date is that of its midnight. -/
def coerceDatetime : TVal → Except TErr DateTime
  | .date d => .ok ⟨d, 0, 0, 0, 0, none⟩
  | .str s => parseDatetime py s
  | _ => .error .valueError

/-- `coerce_date` (types.py:119-125) -/
def coerceDate : TVal → Except TErr Date
  | .datetime t => .ok t.date
  | .dated d => .ok d
  | v =>
    match coerceDatetime py v with
    | .ok t => .ok t.date
    | .error e => .error e

/-- The digits of `int(text)`: underscores between digits are ignored. -/
def digits (prev : Bool) (acc : Nat) : List Char → Option Nat
  | [] => if prev then some acc else none
  | c :: cs =>
    if c = '_' then (if prev then digits false acc cs else none)
    else
      match py.digit c with
      | some k => digits true (10 * acc + k) cs
      | none => none

/-- The sign and the digits. -/
def signed : List Char → Option Int
  | '-' :: cs => (digits py false 0 cs).map (fun n => -(n : Int))
  | '+' :: cs => (digits py false 0 cs).map (fun n => (n : Int))
  | cs => (digits py false 0 cs).map (fun n => (n : Int))

/-- Without the white space at either end. -/
def trim (s : List Char) : List Char := ((s.dropWhile py.space).reverse.dropWhile py.space).reverse

/-- `int(...)` -/
def toInt : TVal → Except TErr Int
  | .int i => .ok i
  | .bool b => .ok (if b then 1 else 0)
  | .float x => py.trunc (.float x)
  | .decimal x => py.trunc (.decimal x)
  | .str s =>
    match signed py (trim py s.toList) with
    | some i => .ok i
    | none => .error .valueError
  | _ => .error .typeError

/-- `coerce_number` (types.py:128-135): only `ValueError` is caught. -/
def coerceNumber : TVal → Except TErr TVal
  | .str s =>
    match toInt py (.str s) with
    | .ok i => .ok (.int i)
    | .error .valueError =>
      match py.float (.str s) with
      | .ok x => .ok (.float x)
      | .error e => .error e
    | .error e => .error e
  | v =>
    match py.float v with
    | .ok x => .ok (.float x)
    | .error e => .error e

/-- The types. -/
inductive Kind
  | int | long | integer | number | string | float | unicode | date | datetime
  deriving DecidableEq, Repr

/-- `isa` -/
def isa : Kind → TVal → Bool
  | .int, .int _ => true
  | .int, .bool _ => true
  | .long, .int _ => true
  | .long, .bool _ => true
  | .integer, .int _ => true
  | .integer, .bool _ => true
  | .number, .int _ => true
  | .number, .bool _ => true
  | .number, .float _ => true
  | .number, .decimal _ => true
  | .string, .str _ => true
  | .unicode, .str _ => true
  | .float, .float _ => true
  | .date, v => isDate v
  | .datetime, .datetime _ => true
  | _, _ => false

/-- `coerce`; where none is given, it is the type (property/__init__.py:159). -/
def coerce : Kind → TVal → Except TErr TVal
  | .int, v => (toInt py v).map .int
  | .long, v => (toInt py v).map .int
  | .integer, v => (toInt py v).map .int
  | .number, v => coerceNumber py v
  | .string, .str s => .ok (.str s)
  | .string, v => .ok (.str (py.str v))
  | .unicode, v => .ok v
  | .float, v => (py.float v).map .float
  | .date, v => (coerceDate py v).map .date
  | .datetime, v => (coerceDatetime py v).map .datetime

/-- `type_safe_value` (property/__init__.py:202-246) of a property that is not required and has no `check`: what the
slot will hold, if anything. -/
def typeSafe (k : Kind) (noneOk : Bool) (v : TVal) : Except TErr (Option TVal) :=
  if isa k v then .ok (some v)
  else
    match coerce py k v with
    | .error _ => .error .coerceError
    | .ok w =>
      if isa k w then .ok (some w)
      else if noneOk && w == .none then .ok none
      else .error .valueCoercionError

/-- Assignment (property/__init__.py:410-413). -/
def assign (k : Kind) (v : TVal) : Except TErr TVal :=
  match typeSafe py k false v with
  | .ok (some w) => .ok w
  | .ok none => .error .valueCoercionError
  | .error e => .error e

/-- An argument of the constructor (property/__init__.py:259-272), or a value read from JSON. -/
def init (k : Kind) (v : TVal) : Except TErr (Option TVal) := typeSafe py k true v

/-- `to_json` of the value of a property: `json_out` (types.py:152, 165), or by the type of the value
(json.py:246-264). -/
def toJson : Kind → TVal → Except TErr TVal
  | .date, .date d => .ok (.str (String.ofList (isoDate d)))
  | .date, .datetime t => .ok (.str (String.ofList (isoTime t)))
  | .date, _ => .error .attributeError
  | .datetime, .date d => .ok (.str (String.ofList (isoDate d)))
  | .datetime, .datetime t => .ok (.str (String.ofList (isoTime t)))
  | .datetime, _ => .error .attributeError
  | _, .int i => .ok (if 2 ^ 50 < i.natAbs then .str (toString i) else .int i)
  | _, .bool b => .ok (.bool b)
  | _, .str s => .ok (.str s)
  | _, .float x => .ok (.float x)
  | _, .decimal x => .ok (.decimal x)
  | _, .none => .ok .none
  | _, _ => .error .typeError

end Normalize.Types
