import Verif.Model.Json

/-!
# The keys of `AutoJsonRecord`

Models `/repo/normalize/record/json.py:519-583`.  `re.sub` with these patterns replaces the leftmost matches, each
search starting where the last match ended.
-/

namespace Normalize.Json.Auto

/-- `[a-z]` -/
def isLow (c : Char) : Bool := decide ('a' ≤ c) && decide (c ≤ 'z')

/-- `[A-Z]` -/
def isUp (c : Char) : Bool := decide ('A' ≤ c) && decide (c ≤ 'Z')

/-- `str.lower()` of an upper-case letter A-Z -/
def lower (c : Char) : Char := Char.ofNat (c.toNat + 32)

/-- `str.upper()` of a lower-case letter a-z -/
def upper (c : Char) : Char := Char.ofNat (c.toNat - 32)

-- `\d` matches all decimal digits of unicode.
variable (digit : Char → Bool)

/-- `convert_json_key_in` (json.py:544-550). -/
def keyIn : List Char → List Char
  | c :: d :: r => if (isLow c || digit c) && isUp d then c :: '_' :: lower d :: keyIn r else c :: keyIn (d :: r)
  | cs => cs

/-- `convert_json_key_out` (json.py:552-558). -/
def keyOut : List Char → List Char
  | c :: u :: d :: r =>
    if (isLow c || digit c) && u == '_' && isLow d then c :: upper d :: keyOut r else c :: keyOut (u :: d :: r)
  | cs => cs

/-- The dict comprehension of `AutoJsonRecord.json_to_initkwargs` (json.py:567-571); `up` is `auto_upgrade_any`.
Later entries with the same key replace earlier ones. -/
def keysIn (conv : String → String) (up : Val → Val) : List (String × Val) → List (String × Val) → List (String × Val)
  | [], acc => acc
  | (k, v) :: us, acc => keysIn conv up us (aset acc (conv k) (up v))

/-- The loop of `AutoJsonRecord.json_data` (json.py:579-582); `tj` is `to_json`. -/
def keysOut (conv : String → String) (tj : Val → Except Exc Val) :
    List (String × Val) → List (String × Val) → Except Exc (List (String × Val))
  | [], jd => .ok jd
  | (k, v) :: us, jd =>
    if (alookup jd (conv k)).isSome then keysOut conv tj us jd
    else
      match tj v with
      | .error e => .error e
      | .ok j => keysOut conv tj us (aset jd (conv k) j)

/-- `convert_json_key_in` on strings. -/
def convIn (k : String) : String := String.ofList (keyIn digit k.toList)

/-- `convert_json_key_out` on strings. -/
def convOut (k : String) : String := String.ofList (keyOut digit k.toList)

end Normalize.Json.Auto
