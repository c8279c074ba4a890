import Verif.Model.Types

/-!
# Dates, times, and texts that say them
-/

namespace Normalize.Spec

open Normalize.Types

/-- A date of the calendar, with a year of at most four digits. -/
structure RealDate (d : Date) : Prop where
  year : 1 ≤ d.year ∧ d.year ≤ 9999
  month : 1 ≤ d.month ∧ d.month ≤ 12
  day : 1 ≤ d.day
  long : d.month ∈ [1, 3, 5, 7, 8, 10, 12] → d.day ≤ 31
  short : d.month ∈ [4, 6, 9, 11] → d.day ≤ 30
  february : d.month = 2 → d.day ≤ 28 ∨ (d.day = 29 ∧ 4 ∣ d.year ∧ (100 ∣ d.year → 400 ∣ d.year))

/-- A time of the clock on a date of the calendar. -/
structure RealTime (t : DateTime) : Prop where
  date : RealDate t.date
  hour : t.hour < 24
  minute : t.minute < 60
  second : t.second < 60
  micro : t.micro < 1000000
  zone : ∀ o, t.tz = some o → -1440 < o ∧ o < 1440

/-- The digits 0 to 9. -/
def asciiDigit (c : Char) : Option Nat := if 48 ≤ c.toNat ∧ c.toNat ≤ 57 then some (c.toNat - 48) else none

/-- The characters are the digits of the number, in so many places. -/
def Num (digit : Char → Option Nat) : Nat → List Char → Nat → Prop
  | 0, cs, n => cs = [] ∧ n = 0
  | w + 1, cs, n => ∃ cs' c n' k, cs = cs' ++ [c] ∧ n = 10 * n' + k ∧ digit c = some k ∧ k < 10 ∧ Num digit w cs' n'

/-- A year, in four digits or the last two. -/
def YearText (digit : Char → Option Nat) (cs : List Char) (y : Nat) : Prop :=
  Num digit 4 cs y ∨ ∃ n, Num digit 2 cs n ∧ ((n ≤ 68 ∧ y = 2000 + n) ∨ (68 < n ∧ y = 1900 + n))

/-- A date, with or without hyphens. -/
def DateText (digit : Char → Option Nat) (Year : List Char → Nat → Prop) (cs : List Char) (d : Date) : Prop :=
  ∃ ys ms ds, Year ys d.year ∧ Num digit 2 ms d.month ∧ Num digit 2 ds d.day ∧ (cs = ys ++ ms ++ ds ∨ cs = ys ++ '-' :: ms ++ '-' :: ds)

/-- A time of day: hours and minutes, and maybe seconds and a `Z`. -/
def ClockText (digit : Char → Option Nat) (cs : List Char) (t : DateTime) : Prop :=
  ∃ hs ms ss z, cs = hs ++ ':' :: ms ++ ss ++ z ∧ Num digit 2 hs t.hour ∧ Num digit 2 ms t.minute ∧
    ((ss = [] ∧ t.second = 0) ∨ ∃ s, ss = ':' :: s ∧ Num digit 2 s t.second) ∧ z ∈ [[], ['Z'], ['z']]

/-- The text says this date and time: a date alone, or one with all digits of the year and a time of day after a `T`
or a space. -/
def Says (digit : Char → Option Nat) (s : List Char) (t : DateTime) : Prop :=
  t.micro = 0 ∧ t.tz = none ∧
    ((DateText digit (YearText digit) s t.date ∧ t.hour = 0 ∧ t.minute = 0 ∧ t.second = 0) ∨
      ∃ a sep b, s = a ++ sep :: b ∧ DateText digit (Num digit 4) a t.date ∧ (sep = 'T' ∨ sep = ' ') ∧ ClockText digit b t)

/-- The same without anything between the parts. -/
def SaysCompact (digit : Char → Option Nat) (s : List Char) (t : DateTime) : Prop :=
  t.micro = 0 ∧ t.tz = none ∧ ∃ ys ms ds c, s = ys ++ ms ++ ds ++ c ∧ YearText digit ys t.date.year ∧ Num digit 2 ms t.date.month ∧
    Num digit 2 ds t.date.day ∧ ((c = [] ∧ t.hour = 0 ∧ t.minute = 0 ∧ t.second = 0) ∨ (Num digit 4 ys t.date.year ∧ ClockText digit c t))

/-- The digits 0 to 9 are digits, and digits have values below ten. -/
structure GoodDigits (digit : Char → Option Nat) : Prop where
  ascii : ∀ c k, asciiDigit c = some k → digit c = some k
  small : ∀ c k, digit c = some k → k < 10

/-- `dateutil` is not there, or reads the ISO form of dates and times. -/
def GoodDateutil (py : Py) : Prop := ∀ f, py.dateutil = some f →
  (∀ d, RealDate d → f (String.ofList (isoDate d)) = .ok ⟨d, 0, 0, 0, 0, none⟩) ∧ ∀ t, RealTime t → f (String.ofList (isoTime t)) = .ok t

/-- Digits and minus are no white space. -/
def GoodSpace (py : Py) : Prop := py.space '-' = false ∧ ∀ c k, asciiDigit c = some k → py.space c = false

/-- The values that a property of the type is for. -/
inductive OfKind : Kind → TVal → Prop
  | int (i : Int) : OfKind .int (.int i)
  | intBool (b : Bool) : OfKind .int (.bool b)
  | long (i : Int) : OfKind .long (.int i)
  | longBool (b : Bool) : OfKind .long (.bool b)
  | integer (i : Int) : OfKind .integer (.int i)
  | integerBool (b : Bool) : OfKind .integer (.bool b)
  | numberInt (i : Int) : OfKind .number (.int i)
  | numberBool (b : Bool) : OfKind .number (.bool b)
  | numberFloat (x : Nat) : OfKind .number (.float x)
  | numberDecimal (x : Nat) : OfKind .number (.decimal x)
  | string (s : String) : OfKind .string (.str s)
  | unicode (s : String) : OfKind .unicode (.str s)
  | float (x : Nat) : OfKind .float (.float x)
  | date (d : Date) : OfKind .date (.date d)
  | datetime (t : DateTime) : OfKind .datetime (.datetime t)

end Normalize.Spec
