import Verif.Model.Val

/-!
# Value normalisation before comparison

Models `/repo/normalize/diff.py:213-268`: `normalize_whitespace`, `normalize_unf`, `normalize_case`,
`value_is_empty`, `normalize_text`, `normalize_val`.

A text is the list of its characters.  What the unicode tables say (which characters are white space, what
`upper` and `unicodedata.normalize('NFC', …)` do) is a parameter.  Simplification: `str` is the only text
type (python 3), so the `else` branches of `normalize_whitespace` and `normalize_unf` are not modelled.
-/

namespace Normalize.Diff

/-- The text functions of python that normalisation uses. -/
structure Unicode where
  /-- `\s` with `re.UNICODE` -/
  space : Char → Bool
  /-- `str.upper` -/
  upper : List Char → List Char
  /-- `unicodedata.normalize('NFC', …)` -/
  nfc : List Char → List Char

/-- The options that control normalisation (diff.py:126-134, 194-206). -/
structure TextOpts where
  ignoreWs : Bool := true
  ignoreCase : Bool := false
  unicodeNormal : Bool := true
  ignoreEmptySlots : Bool := false
  deriving Repr

/-- `re.split(r'\s+', value)` (diff.py:216-219): the first piece is being collected in `cur` (reversed);
`inSep` while inside a separator. -/
def reSplit (sp : Char → Bool) : (inSep : Bool) → (cur : List Char) → List Char → List (List Char)
  | _, cur, [] => [cur.reverse]
  | inSep, cur, c :: cs =>
    if sp c then
      if inSep then reSplit sp true cur cs
      else cur.reverse :: reSplit sp true [] cs
    else reSplit sp false (c :: cur) cs

/-- `u" ".join(…)` -/
def joinSp : List (List Char) → List Char
  | [] => []
  | [w] => w
  | w :: ws => w ++ ' ' :: joinSp ws

/-- `normalize_whitespace` (diff.py:213-221). -/
def normalizeWs (U : Unicode) (s : List Char) : List Char :=
  joinSp ((reSplit U.space false [] s).filter (fun w => !w.isEmpty))

/-- `normalize_text` (diff.py:246-257). -/
def normalizeText (U : Unicode) (o : TextOpts) (s : List Char) : List Char :=
  let s₁ := if o.ignoreWs then normalizeWs U s else s
  let s₂ := if o.ignoreCase then U.upper s₁ else s₁
  if o.unicodeNormal then U.nfc s₂ else s₂

/-- `value_is_empty` (diff.py:239-244): false for everything but `''` and `None`. -/
def valueIsEmpty : Val → Bool
  | .atom .none => true
  | .atom (.str s) => s.toList.isEmpty
  | _ => false

/-- The text part of `normalize_val` (diff.py:264-265). -/
def scrub (U : Unicode) (o : TextOpts) : Val → Val
  | .atom (.str s) => .atom (.str (String.ofList (normalizeText U o s.toList)))
  | v => v

/-- `normalize_val` (diff.py:259-268); `none` is the `_nothing` marker. -/
def normalizeVal (U : Unicode) (o : TextOpts) : Option Val → Option Val
  | none => none
  | some v =>
    if o.ignoreEmptySlots && valueIsEmpty (scrub U o v) then none else some (scrub U o v)

end Normalize.Diff
