import Verif.Model.Access

/-!
# What posting item fields in order should build
-/

namespace Normalize.Spec

/-- A field of item `i` of a list, and its value: the selector `[i] + path`. -/
structure Field where
  i : Nat
  path : FS
  value : Val

/-- The selector of the field, from the list. -/
def Field.selector (f : Field) : FS := .int f.i :: f.path

/-- Post several fields in order into one object, stopping at an exception. -/
def postSeq (E : Env) : List (FS × Val) → Val → Except Exc Unit × Val
  | [], x => (.ok (), x)
  | (p, v) :: r, x =>
    match post E p v x with
    | (.error e, x') => (.error e, x')
    | (.ok _, x') => postSeq E r x'

/-- A new item with one field: a direct attribute is given to the constructor, a deeper field is posted into an
item made without arguments. -/
def fresh (E : Env) (cls : String) (p : FS) (v : Val) : Except Exc Val :=
  match p with
  | [.str f] => E.makeItem cls (some (f, v))
  | [.int _] => .error .typeError
  | p =>
    match E.makeItem cls none with
    | .error e => .error e
    | .ok it => match post E p v it with
      | (.error e, _) => .error e
      | (.ok _, it') => .ok it'

/-- The item with all the fields. -/
def buildItem (E : Env) (cls : String) : List (FS × Val) → Except Exc Val
  | [] => .error .valueError
  | (p, v) :: r =>
    match fresh E cls p v with
    | .error e => .error e
    | .ok it => match postSeq E r it with
      | (.error e, _) => .error e
      | (.ok (), it') => .ok it'

/-- The fields of item `i`, in order. -/
def fieldsOf (i : Nat) (L : List Field) : List (FS × Val) :=
  (L.filter (fun f => f.i = i)).map (fun f => (f.path, f.value))

end Normalize.Spec
