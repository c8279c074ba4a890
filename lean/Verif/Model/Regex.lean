/-!
# A backtracking regular expression matcher

The library uses python's `re` in `/repo/normalize/selector.py:507,513-530,920-957`,
`/repo/normalize/diff.py` (white space) and `/repo/normalize/record/json.py` (key conversion).  This is a
small matcher with python's semantics for the constructs those patterns use: alternatives are tried left
to right, repetition is greedy, and the first overall success wins.  `run r s` lists *all* ways `r` can
match a prefix of `s`, in the order python's matcher would try them.
-/

namespace Normalize

/-- The Unicode character classes `\w`, `\d`, `\s` and the value of a decimal digit; python takes them
from its Unicode tables, here they are a parameter. -/
structure CharClass where
  word : Char → Bool
  digit : Char → Bool
  space : Char → Bool
  digitVal : Char → Nat

/-- What is assumed of the Unicode tables. -/
structure CharClass.Lawful (cc : CharClass) : Prop where
  word_alpha : ∀ c, c.isAlpha = true → cc.word c = true
  word_underscore : cc.word '_' = true
  not_word : ∀ c ∈ ['.', '[', ']', '(', ')', '|', '\n', '\'', ' '], cc.word c = false
  digit_ascii : ∀ c, c.isDigit = true → cc.digit c = true
  digit_val : ∀ c, c.isDigit = true → cc.digitVal c = c.toNat - '0'.toNat
  not_digit : ∀ c ∈ [']', '*', '\''], cc.digit c = false

/-- The ASCII tables (`re.ASCII`), used in examples. -/
def CharClass.ascii : CharClass where
  word c := c.isAlphanum || c == '_'
  digit c := c.isDigit
  space c := c == ' ' || c == '\t' || c == '\n' || c == '\r' || c == '\x0b' || c == '\x0c'
  digitVal c := c.toNat - '0'.toNat

theorem CharClass.ascii_lawful : CharClass.ascii.Lawful where
  word_alpha c h := by simp [ascii, Char.isAlphanum, h]
  word_underscore := by decide
  not_word := by decide
  digit_ascii c h := h
  digit_val c _ := rfl
  not_digit := by decide

/-- Regular expressions. -/
inductive Re
  /-- one character of a class -/
  | chr (p : Char → Bool)
  | eps
  | seq (a b : Re)
  /-- `a|b` -/
  | alt (a b : Re)
  /-- `a*`, greedy -/
  | star (a : Re)
  /-- `(?P<n>a)` -/
  | cap (n : String) (a : Re)
  /-- `$`: at the end, or before a newline that ends the text -/
  | eol

/-- Captured groups, latest first. -/
abbrev Caps := List (String × List Char)

namespace Re

/-- one literal character -/
def lit (c : Char) : Re := chr (fun d => d == c)

/-- `a+` -/
def plus (a : Re) : Re := seq a (star a)

/-- a sequence of literal characters -/
def lits : List Char → Re
  | [] => eps
  | c :: cs => seq (lit c) (lits cs)

/-- One more round of a repetition, then the rest (an empty round is not repeated). -/
def starN (step : List Char → List (Caps × List Char)) : Nat → List Char → List (Caps × List Char)
  | 0, s => [([], s)]
  | n + 1, s =>
    ((step s).filter (fun x => decide (x.2.length < s.length))).flatMap
      (fun x => (starN step n x.2).map (fun y => (y.1 ++ x.1, y.2))) ++ [([], s)]

/-- All matches of a prefix of `s`, best first, with the text that remains. -/
def run : Re → List Char → List (Caps × List Char)
  | chr _, [] => []
  | chr p, c :: s => if p c then [([], s)] else []
  | eps, s => [([], s)]
  | seq a b, s => (run a s).flatMap (fun x => (run b x.2).map (fun y => (y.1 ++ x.1, y.2)))
  | alt a b, s => run a s ++ run b s
  | star a, s => starN (run a) s.length s
  | cap n a, s => (run a s).map (fun x => ((n, s.take (s.length - x.2.length)) :: x.1, x.2))
  | eol, s => if s = [] ∨ s = ['\n'] then [([], s)] else []

/-- `re.match(r, s)`: the preferred match at the beginning of `s`. -/
def first (r : Re) (s : List Char) : Option (Caps × List Char) := (run r s).head?

/-- `re.finditer(r, s)`, the groups of each match, for patterns that never match the empty string (an
empty match would end this scan). -/
def finditerN (r : Re) : Nat → List Char → List Caps
  | 0, _ => []
  | n + 1, s =>
    match first r s with
    | some x => if x.2.length < s.length then x.1 :: finditerN r n x.2 else []
    | none =>
      match s with
      | [] => []
      | _ :: t => finditerN r n t

def finditer (r : Re) (s : List Char) : List Caps := finditerN r (s.length + 1) s

/-- `re.sub(r, f, s)`, for patterns that never match the empty string. -/
def subN (r : Re) (f : Caps → List Char) : Nat → List Char → List Char
  | 0, s => s
  | n + 1, s =>
    match first r s with
    | some x => if x.2.length < s.length then f x.1 ++ subN r f n x.2 else s
    | none =>
      match s with
      | [] => []
      | c :: t => c :: subN r f n t

def sub (r : Re) (f : Caps → List Char) (s : List Char) : List Char := subN r f (s.length + 1) s

end Re

/-- `m.group(n)`: the text of a group, `none` if it did not take part in the match. -/
def Caps.group (g : Caps) (n : String) : Option (List Char) := (g.find? (fun x => x.1 == n)).map (·.2)

end Normalize
