import Verif.Spec.Types

/-! Numbers, and texts that say whole numbers. -/

namespace Normalize.Spec

open Normalize.Types

/-- A number: a whole number divided by another. -/
structure Frac where
  num : Int
  den : Nat
  pos : 0 < den

/-- The exact values of floats and decimals; nan and the infinities have none. -/
structure NumValues where
  float : Nat → Option Frac
  decimal : Nat → Option Frac

/-- The two are the same number. -/
def SameNumber (p q : Frac) : Prop := p.num * q.den = q.num * p.den

/-- The value is this number. -/
def IsNumber (V : NumValues) : TVal → Frac → Prop
  | .int i, q => q.num = i * q.den
  | .bool b, q => q.num = (if b then 1 else 0) * q.den
  | .float x, q => ∃ p, V.float x = some p ∧ SameNumber p q
  | .decimal x, q => ∃ p, V.decimal x = some p ∧ SameNumber p q
  | _, _ => False

/-- The number without what comes after the point. -/
def DropsFraction (q : Frac) (i : Int) : Prop :=
  (0 ≤ q.num → 0 ≤ i ∧ i * q.den ≤ q.num ∧ q.num < (i + 1) * q.den) ∧
    (q.num ≤ 0 → i ≤ 0 ∧ q.num ≤ i * q.den ∧ (i - 1) * q.den < q.num)

/-- Python's `int` of floats and decimals: it drops the fraction, and refuses nan and the infinities. -/
structure GoodTrunc (py : Py) (V : NumValues) : Prop where
  float : ∀ x q, V.float x = some q → ∃ i, py.trunc (.float x) = .ok i ∧ DropsFraction q i
  decimal : ∀ x q, V.decimal x = some q → ∃ i, py.trunc (.decimal x) = .ok i ∧ DropsFraction q i
  notFloat : ∀ x, V.float x = none → ∃ e, py.trunc (.float x) = .error e
  notDecimal : ∀ x, V.decimal x = none → ∃ e, py.trunc (.decimal x) = .error e

/-- The properties of whole numbers. -/
def WholeKind (k : Kind) : Prop := k = .int ∨ k = .long ∨ k = .integer

/-- Digits, maybe with single underscores between them. -/
inductive DigitText (digit : Char → Option Nat) : List Char → Nat → Prop
  | one {c : Char} {k : Nat} : digit c = some k → DigitText digit [c] k
  | more {cs : List Char} {n : Nat} {c : Char} {k : Nat} : DigitText digit cs n → digit c = some k →
      DigitText digit (cs ++ [c]) (10 * n + k)
  | under {cs : List Char} {n : Nat} {c : Char} {k : Nat} : DigitText digit cs n → digit c = some k →
      DigitText digit (cs ++ ['_', c]) (10 * n + k)

/-- A whole number, maybe with a sign and white space around it. -/
def IntText (py : Py) (s : List Char) (i : Int) : Prop :=
  ∃ (a sign cs b : List Char) (n : Nat), s = a ++ (sign ++ cs) ++ b ∧ (∀ c ∈ a, py.space c = true) ∧ (∀ c ∈ b, py.space c = true) ∧
    DigitText py.digit cs n ∧ (((sign = [] ∨ sign = ['+']) ∧ i = n) ∨ (sign = ['-'] ∧ i = -(n : Int)))

/-- No character is two of digit, white space, sign and underscore. -/
structure PlainChars (py : Py) : Prop where
  digit : ∀ c k, py.digit c = some k → py.space c = false
  minus : py.digit '-' = none ∧ py.space '-' = false
  plus : py.digit '+' = none ∧ py.space '+' = false
  under : py.digit '_' = none

end Normalize.Spec
