import Verif.Model.Diff
import Verif.Model.SelectorPath

/-!
# The texts of differences

Models `DiffInfo.__str__` (`/repo/normalize/diff.py:94-108`) and `Diff.__str__` (diff.py:1030-1072).  Texts are lists of
characters.  The names of the compared types are given.  Simplification: the first loop over `diffstate`
(diff.py:1052-1059), whose result is not used, is left out; it does what the second one does.
-/

namespace Normalize.Diff

/-- `diffstate[k].append(fs)` on a `defaultdict(list)` (diff.py:1037-1050). -/
def addTo (gs : List (String × List FS)) (k : String) (q : FS) : List (String × List FS) :=
  aset gs k ((alookup gs k).getD [] ++ [q])

/-- One round of the loop over the differences (diff.py:1037-1050). -/
def group (cc : CharClass) (gs : List (String × List FS)) (d : DInfo) : List (String × List FS) :=
  match d.kind with
  | .added => addTo gs "+NEW" d.other
  | .removed => addTo gs "-OLD" d.base
  | .modified =>
    if FS.path cc d.base = FS.path cc d.other then addTo gs "<>X" d.base
    else addTo (addTo gs "<->OLD" d.base) "<+>NEW" d.other
  | .noChange => addTo gs "==X" d.base
  | .moved => gs

/-- `diffstate` (diff.py:1036-1050). -/
def groups (cc : CharClass) (ds : List DInfo) : List (String × List FS) := ds.foldl (group cc) []

/-- `"{prefix}({paths})".format(prefix=k, paths=MultiFieldSelector(*v).path)` (diff.py:1065-1069). -/
def groupText (cc : CharClass) (ord : List MArg → List MArg) (g : String × List FS) : Except Exc (List Char) :=
  match Mfs.init ord (g.2.map MArg.fs) with
  | .error e => .error e
  | .ok h => .ok (g.1.toList ++ '(' :: Mfs.path cc h ++ [')'])

/-- `"; ".join(…)` (diff.py:1065) -/
def joinSemi : List (List Char) → List Char
  | [] => []
  | [w] => w
  | w :: ws => w ++ ';' :: ' ' :: joinSemi ws

/-- `what` (diff.py:1031-1035). -/
def whatText (a b : List Char) : List Char := if a ≠ b then a ++ " vs ".toList ++ b else a

/-- `Diff.__str__` (diff.py:1030-1072). -/
def diffStr (cc : CharClass) (ord : List MArg → List MArg) (a b : List Char) (ds : List DInfo) : Except Exc (List Char) :=
  match mapE (groupText cc ord) (groups cc ds) with
  | .error e => .error e
  | .ok ts => .ok ("<Diff [".toList ++ whatText a b ++ "]; ".toList ++ (toString ds.length).toList ++ " diff(s)".toList ++
      (if ts.isEmpty then [] else ": ".toList ++ joinSemi ts) ++ [ '>' ])

/-- `display_name` (diff.py:47-51). -/
def displayName : DType → String
  | .noChange => "UNCHANGED"
  | .added => "ADDED"
  | .removed => "REMOVED"
  | .modified => "MODIFIED"
  | .moved => "MOVED"

/-- `pathinfo` (diff.py:95-106). -/
def pathInfo (cc : CharClass) (d : DInfo) : Except Exc (List Char) :=
  if FS.path cc d.base ≠ FS.path cc d.other then
    if d.other.length < d.base.length then
      match FS.startsWith d.base d.other with
      | .error e => .error e
      | .ok true => .ok (FS.path cc d.base)
      | .ok false => .ok ('(' :: FS.path cc d.base ++ '/' :: FS.path cc d.other ++ [')'])
    else if d.base.length < d.other.length then
      match FS.startsWith d.other d.base with
      | .error e => .error e
      | .ok true => .ok (FS.path cc d.other)
      | .ok false => .ok ('(' :: FS.path cc d.base ++ '/' :: FS.path cc d.other ++ [')'])
    else .ok ('(' :: FS.path cc d.base ++ '/' :: FS.path cc d.other ++ [')'])
  else .ok (FS.path cc d.other)

/-- `DiffInfo.__str__` (diff.py:94-108). -/
def infoStr (cc : CharClass) (d : DInfo) : Except Exc (List Char) :=
  match pathInfo cc d with
  | .error e => .error e
  | .ok p => .ok ("<DiffInfo: ".toList ++ (displayName d.kind).toList ++ ' ' :: p ++ ['>'])

end Normalize.Diff
