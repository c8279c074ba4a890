import Verif.Model.Json
import Verif.Spec.Identity

/-!
# What JSON output should be
-/

namespace Normalize.Spec
open Json
open Ident (IProp Sub)

/-- A value that consists of JSON types only, with all integers within ±2**50. -/
inductive IsJson (J : Setup) : Val → Prop
  | none : IsJson J .none
  | bool {b} : IsJson J (.atom (.bool b))
  | str {s} : IsJson J (.str s)
  | int {i} : -(2 ^ 50) ≤ i → i ≤ 2 ^ 50 → IsJson J (.int i)
  | number {t} : J.isNumber t = true → IsJson J (.atom (.opq t))
  | list {xs} : (∀ x ∈ xs, IsJson J x) → IsJson J (.list xs)
  | dict {xs} : (∀ x ∈ xs, IsJson J x.2) → IsJson J (.dict xs)

/-- Whatever the classes' own conversions give is JSON. -/
structure GoodConverters (J : Setup) : Prop where
  out : ∀ c nm o f v j, (J.info c nm).json = some o → o.jout = some f → f v = .ok j → IsJson J j
  empty : ∀ c nm j, (J.info c nm).empty = .gives (.ok j) → IsJson J j

/-- The classes' own conversions raise nothing (or only `AttributeError`), and no property is such that asking
whether its slot is empty raises. -/
structure SafeConverters (J : Setup) : Prop where
  out : ∀ c nm o f v x, (J.info c nm).json = some o → o.jout = some f → f v = .error x → x.isAttribute = true
  empty : ∀ c nm x, (J.info c nm).empty = .gives (.error x) → x.isAttribute = true
  slot : ∀ c nm x, (J.info c nm).empty ≠ .raises x

/-- Only objects `to_json` knows about: numbers, strings, …; and the unknown keys of a `JsonRecord` are in a dict. -/
structure Writable (J : Setup) (v : Val) : Prop where
  atom : ∀ t, Sub (.atom (.opq t)) v → J.isNumber t = true
  unknown : ∀ c s u, Sub (.rcd c s) v → alookup s "unknown_json_keys" = some u →
    ∃ xs, u = .dict xs ∨ ∃ d, u = .dcoll d xs

/-- The number a decimal numeral stands for. -/
def readInt : List Char → Int
  | '-' :: ds => -(Nat.ofDigitChars 10 ds 0 : Nat)
  | ds => (Nat.ofDigitChars 10 ds 0 : Nat)

/-- The key a property is written under, if any: `none` for `json_name=None`. -/
inductive Named (J : Setup) (c : String) (p : IProp) : Option String → Prop
  | plain : (J.info c p.name).json = none → Named J c p (some p.name)
  | default {o} : (J.info c p.name).json = some o → o.jsonName = none → Named J c p (some p.name)
  | explicit {o n} : (J.info c p.name).json = some o → o.jsonName = some n → Named J c p n

/-- Converting the value of a property for output gives `r`: by `json_out` if it has one, else by converting the
value; the value of a lazy property, which is never empty, is computed. -/
inductive Converts (J : Setup) (e : Bool) (c : String) (s : List (String × Val)) (p : IProp) :
    Except Exc Val → Prop
  | own {o f v} : alookup s p.name = some v → (J.info c p.name).json = some o → o.jout = some f →
      Converts J e c s p (f v)
  | auto {o v} : alookup s p.name = some v → (J.info c p.name).json = some o → o.jout = none →
      Converts J e c s p (jsonData J e v)
  | plain {v} : alookup s p.name = some v → (J.info c p.name).json = none → Converts J e c s p (jsonData J e v)
  | computed {j} : alookup s p.name = none → (J.info c p.name).empty = .gives j → Converts J e c s p j

/-- The property is selected for output: not extraneous, or extraneous ones are asked for. -/
def Selected (e : Bool) (p : IProp) : Prop := p.extraneous = false ∨ e = true

end Normalize.Spec
