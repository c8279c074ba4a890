import Verif.Model.Regex
import Verif.Model.Selector
import Verif.Model.Mfs

/-!
# The text form of selectors

Models `/repo/normalize/selector.py:483-551, 627-641, 906-973`.  Text is a list of characters.
-/

namespace Normalize

open Re

/-- `^[a-zA-Z_]\w*$` (selector.py:507). -/
def identRe (cc : CharClass) : Re :=
  seq (chr (fun c => c.isAlpha || c == '_')) (seq (star (chr cc.word)) eol)

/-- `selector.replace("\\", "\\\\").replace("'", "\\'")` (selector.py:508). -/
def escapeKey (s : List Char) : List Char :=
  (s.flatMap (fun c => if c = '\\' then ['\\', '\\'] else [c])).flatMap
    (fun c => if c = '\'' then ['\\', '\''] else [c])

/-- `"%d" % i`. -/
def fmtInt : Int → List Char
  | .ofNat n => Nat.toDigits 10 n
  | .negSucc n => '-' :: Nat.toDigits 10 (n + 1)

/-- `_fmt_selector_path` (selector.py:502-510). -/
def fmtComp (cc : CharClass) : Comp → List Char
  | .int i => '[' :: fmtInt i ++ [']']
  | .none => ['[', '*', ']']
  | .str s =>
    match first (identRe cc) s.toList with
    | none => '[' :: '\'' :: escapeKey s.toList ++ ['\'', ']']
    | some _ => '.' :: s.toList

/-- `FieldSelector.path` (selector.py:483-493). -/
def FS.path (cc : CharClass) (fs : FS) : List Char := fs.flatMap (fmtComp cc)

/-- `\.(?P<attr>\w+)` -/
def attrRe (cc : CharClass) : Re := seq (lit '.') (cap "attr" (plus (chr cc.word)))

/-- `(?:[^']+|\\')*` -/
def keyBodyRe : Re := star (alt (plus (chr (fun c => c != '\''))) (seq (lit '\\') (lit '\'')))

/-- `\[(?:(?P<idx>\d+)|(?P<wild>\*)|'(?P<key>…)')\]` -/
def brkRe (cc : CharClass) : Re :=
  seq (lit '[') (seq
    (alt (cap "idx" (plus (chr cc.digit)))
      (alt (cap "wild" (lit '*'))
        (seq (lit '\'') (seq (cap "key" keyBodyRe) (lit '\'')))))
    (lit ']'))

/-- `_PATH_TOK` (selector.py:513-521). -/
def pathTok (cc : CharClass) : Re := alt (attrRe cc) (brkRe cc)

/-- `_MFS_PATH_TOK` (selector.py:920-930). -/
def mfsPathTok (cc : CharClass) : Re :=
  alt (attrRe cc) (alt (brkRe cc) (cap "branch" (chr (fun c => c == '(' || c == ')' || c == '|'))))

/-- `re.sub(r'\\(.)', lambda m: m.group(1), text_item)` (selector.py:530, 957). -/
def unescapeKey (s : List Char) : List Char :=
  sub (seq (lit '\\') (cap "1" (chr (fun c => c != '\n')))) (fun g => (g.group "1").getD []) s

/-- `int(idx_item)` (selector.py:539, 966). -/
def parseInt (cc : CharClass) (s : List Char) : Nat := s.foldl (fun n c => 10 * n + cc.digitVal c) 0

/-- What one token appends to the selector under construction (selector.py:528-541, 955-968): at most one
component.  Empty text falls through to the index and wildcard groups. -/
def tokComp (cc : CharClass) (g : Caps) : List Comp :=
  let text := match g.group "key" with
    | some k => some (unescapeKey k)
    | none => g.group "attr"
  match text with
  | some (c :: cs) => [.str (String.ofList (c :: cs))]
  | _ =>
    match g.group "idx" with
    | some (d :: ds) => [.int (parseInt cc (d :: ds))]
    | _ =>
      match g.group "wild" with
      | some (_ :: _) => [.none]
      | _ => []

/-- `_scan_selector_path` (selector.py:524-543). -/
def scanPath (cc : CharClass) (s : List Char) : FS := (finditer (pathTok cc) s).flatMap (tokComp cc)

/-- `FieldSelector.from_path` (selector.py:495-499). -/
def FS.fromPath (cc : CharClass) (s : List Char) : FS := scanPath cc s

namespace Mfs

mutual
/-- `_fmt_mfs_path(head, tail)` (selector.py:546-551). -/
def fmtTree (cc : CharClass) (c : Comp) : MTree → List Char
  | .all => fmtComp cc c
  | .node h => fmtComp cc c ++ (if h.length = 1 then fmtHeads cc h else '(' :: fmtHeads cc h ++ [')'])
/-- the `"|".join(...)` of the heads (selector.py:639-641); for a single head this is just that head. -/
def fmtHeads (cc : CharClass) : List (Comp × MTree) → List Char
  | [] => []
  | (c, t) :: es => fmtTree cc c t ++ (if es.isEmpty then [] else '|' :: fmtHeads cc es)
end

/-- `MultiFieldSelector.path` (selector.py:627-641). -/
def path (cc : CharClass) (h : Heads) : List Char :=
  if h.length = 1 then fmtHeads cc h else '(' :: fmtHeads cc h ++ [')']

/-- State of the loop in `_scan_mfs_path` (selector.py:934-937). -/
structure ScanState where
  mfs : List FS := []
  fs : FS := []
  stack : List FS := []
  popping : Bool := false
  deriving DecidableEq

/-- One token of `_scan_mfs_path` (selector.py:938-968).  `stack[-1]` and `stack.pop()` raise
`IndexError` on an empty stack. The stack's top is the head of the list. -/
def scanTok (cc : CharClass) (st : ScanState) (g : Caps) : Except Exc ScanState :=
  match g.group "branch" with
  | some (b :: _) =>
    if b = '(' then .ok { st with stack := st.fs :: st.stack }
    else if b = '|' then
      match st.stack with
      | [] => .error .indexError
      | top :: _ =>
        .ok { st with mfs := if st.popping then st.mfs else st.mfs ++ [st.fs], fs := top }
    else
      match st.stack with
      | [] => .error .indexError
      | top :: rest =>
        .ok { mfs := if st.popping then st.mfs else st.mfs ++ [st.fs], fs := top, stack := rest,
              popping := true }
  | _ => .ok { st with popping := false, fs := st.fs ++ tokComp cc g }

/-- The loop of `_scan_mfs_path`. -/
def scanToks (cc : CharClass) : ScanState → List Caps → Except Exc ScanState
  | st, [] => .ok st
  | st, g :: gs =>
    match scanTok cc st g with
    | .error e => .error e
    | .ok st' => scanToks cc st' gs

/-- `_scan_mfs_path` (selector.py:933-973). -/
def scanMfsPath (cc : CharClass) (s : List Char) : Except Exc (List FS) :=
  match scanToks cc {} (finditer (mfsPathTok cc) s) with
  | .error e => .error e
  | .ok st => .ok (if !st.popping && !st.fs.isEmpty then st.mfs ++ [st.fs] else st.mfs)

/-- `MultiFieldSelector.from_path` (selector.py:906-911). -/
def fromPath (cc : CharClass) (ord : List MArg → List MArg) (s : List Char) : Except Exc Heads :=
  match scanMfsPath cc s with
  | .error e => .error e
  | .ok qs => init ord (qs.map MArg.fs)

end Mfs

end Normalize
