import Verif.Model.Identity

/-!
# `str()` of records

Models `Record.__str__` (`/repo/normalize/record/__init__.py:85-103`) and `ListCollection.__str__`
(`/repo/normalize/coll.py:407-413`).  What `repr` prints for the values in a key is a parameter, see `Verif.Model.Repr`;
a class is known by its `__name__`.
-/

namespace Normalize.Ident

variable (rp : Val → List Char)

mutual
/-- `repr(key)`: tuples with one member have a comma. -/
def keyText : Key → List Char
  | .raw v => rp v
  | .tup ks => '(' :: tupleText ks
/-- The text of a tuple after the opening parenthesis. -/
def tupleText : List Key → List Char
  | [] => [')']
  | k :: ks => keyText k ++ (if ks.isEmpty then [',', ')'] else moreText ks)
/-- The other members of a tuple. -/
def moreText : List Key → List Char
  | [] => [')']
  | k :: ks => ',' :: ' ' :: (keyText k ++ moreText ks)
end

/-- `pk[0] if len(pk) == 1 else pk` (record/__init__.py:100). -/
def shownKey : Key → Key
  | .tup [k] => k
  | k => k

/-- `key[:30] + "..." if len(key) > 32 else key` (record/__init__.py:102). -/
def shorten (t : List Char) : List Char := if 32 < t.length then t.take 30 ++ ['.', '.', '.'] else t

/-- `"<%s %s>"` (record/__init__.py:101-103). -/
def recordText (cls : String) (k : Key) : List Char :=
  '<' :: (cls.toList ++ ' ' :: (shorten (keyText rp (shownKey k)) ++ ['>']))

/-- `str(obj)` of a record or a collection (record/__init__.py:85-103, coll.py:407-413); other objects have their
own `__str__`, which is left out.  The number stands for python's recursion limit. -/
def strOf (S : Schema) (n : Nat) (v : Val) : Except Exc (List Char) :=
  match v with
  | .lcoll c xs => .ok ('<' :: (c.toList ++ (": ".toList ++ (Nat.toDigits 10 xs.length ++ " item(s)>".toList))))
  | .rcd c _ | .dcoll c _ =>
    match recordId S n v with
    | .error e => .error e
    | .ok k => .ok (recordText rp c k)
  | _ => .ok (rp v)

end Normalize.Ident
