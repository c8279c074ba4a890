import Verif.Model.Mfs
import Verif.Model.Access
import Mathlib.Data.List.Sort

/-!
# MultiFieldSelector.get, delete, patch

Models `/repo/normalize/selector.py:784-904`.
-/

namespace Normalize

/-- Constructors of record classes and of atoms. -/
structure Ctors where
  /-- `cls(**kwargs)` of a record class -/
  rcd : String → List (String × Val) → Except Exc Val
  /-- `type(obj)()` of an object without parts -/
  atom : Atom → Except Exc Val

namespace Mfs

/-- What `_get(·, tail)` does for each head (selector.py:784-788). -/
abbrev Getters := List (Comp × (Val → Except Exc Val))

/-- The sort key of a head; only ints are sorted. -/
def idxOf : Comp → Int
  | .int i => i
  | _ => 0

/-- `sorted(self.heads.items())` where all heads are ints (selector.py:807-810). -/
def sortHeads (gs : Getters) : Getters := gs.insertionSort (fun a b => idxOf a.1 ≤ idxOf b.1)

/-- `self._get(obj[head], tail)` (selector.py:808, 824). -/
def getPart (x : Val) (g : Comp × (Val → Except Exc Val)) : Except Exc Val :=
  match getItem x g.1 with
  | .error e => .error e
  | .ok y => g.2 y

/-- The items of a filtered list (selector.py:798-811). -/
def listVals (gs : Getters) (x : Val) (xs : List Val) : Except Exc (List Val) :=
  match alookup gs .none with
  | some g => mapE g xs
  | none => mapE (getPart x) (sortHeads gs)

/-- Item type conversion of one value, after its exception if it has one. -/
def thenCoerce (E : Env) (cls : String) (r : Except Exc Val) : Except Exc Val :=
  match r with
  | .error e => .error e
  | .ok v => E.coerceItem cls v

/-- `(k, f v)`, with the exception of `f v`. -/
def pairE (k : Comp) (r : Except Exc Val) : Except Exc (Comp × Val) :=
  match r with
  | .error e => .error e
  | .ok v => .ok (k, v)

/-- The entries of a filtered dict (selector.py:817-827); `post` is what the constructor does to each value as
the generator yields it. -/
def dictVals (gs : Getters) (x : Val) (xs : List (Comp × Val)) (post : Except Exc Val → Except Exc Val) :
    Except Exc (List (Comp × Val)) :=
  match alookup gs .none with
  | some g => mapE (fun e => pairE e.1 (post (g e.2))) xs
  | none => mapE (fun g => pairE g.1 (post (getPart x g))) (gs.filter (fun g => (alookup xs g.1).isSome))

/-- The keyword arguments for the filtered record (selector.py:838-842): `getattr(obj, head, None)`, `None`
being left out. -/
def kwVals (E : Env) (x : Val) : Getters → Except Exc (List (String × Val))
  | [] => .ok []
  | (.str nm, g) :: gs =>
    match getAttr E x (.str nm) with
    | .error .attributeError => kwVals E x gs
    | .error e => .error e
    | .ok v =>
      if v = .none then kwVals E x gs
      else
        match g v with
        | .error e => .error e
        | .ok v' =>
          match kwVals E x gs with
          | .error e => .error e
          | .ok r => .ok ((nm, v') :: r)
  | _ :: _ => .error .typeError

/-- `ctor(**kwargs)` (selector.py:843); an object without parts has no attributes, so no arguments. -/
def construct (C : Ctors) (x : Val) (kw : List (String × Val)) : Except Exc Val :=
  match x with
  | .rcd cls _ => C.rcd cls kw
  | .atom a => C.atom a
  | _ => .error .typeError

/-- `MultiFieldSelector.get` (selector.py:790-843), given the heads `h` and what each does. -/
def getWith (C : Ctors) (E : Env) (h : Heads) (gs : Getters) (x : Val) : Except Exc Val :=
  match x with
  | .list xs =>
    if hasString h then .error .typeError
    else match listVals gs x xs with
      | .error e => .error e
      | .ok vs => .ok (.list vs)
  | .lcoll cls xs =>
    if hasString h then .error .typeError
    else match listVals gs x xs with
      | .error e => .error e
      | .ok vs =>
        match mapE (E.coerceItem cls) vs with
        | .error e => .error e
        | .ok vs' => .ok (.lcoll cls vs')
  | .dict xs =>
    match dictVals gs x xs id with
    | .error e => .error e
    | .ok vs => .ok (.dict vs)
  | .dcoll cls xs =>
    match dictVals gs x xs (thenCoerce E cls) with
    | .error e => .error e
    | .ok vs => .ok (.dcoll cls vs)
  | x =>
    if hasInt h || (hasNone h && !complete h) then .error .typeError
    else if hasNone h then .ok x
    else
      match kwVals E x gs with
      | .error e => .error e
      | .ok kw => construct C x kw

mutual
/-- `_get(obj, tail)` (selector.py:784-788); `deepcopy` is the identity on trees. -/
def getT (C : Ctors) (E : Env) : MTree → Val → Except Exc Val
  | .all, x => .ok x
  | .node h, x => getWith C E h (getters C E h) x
/-- What each head does. -/
def getters (C : Ctors) (E : Env) : List (Comp × MTree) → Getters
  | [] => []
  | (c, t) :: es => (c, getT C E t) :: getters C E es
end

/-- `mfs.get(obj)`. -/
def get (C : Ctors) (E : Env) (h : Heads) (x : Val) : Except Exc Val := getWith C E h (getters C E h) x

/-- `for fs in self: fs.get(obj)` (selector.py:857-861). -/
def checkAll (E : Env) : List FS → Val → Except Exc Unit
  | [], _ => .ok ()
  | fs :: r, x =>
    match Normalize.get E fs x with
    | .error e => .error e
    | .ok _ => checkAll E r x

/-- `for fs in self: fs.delete(obj)`, passing over `FieldSelectorException` (selector.py:863-868). -/
def deleteAll (E : Env) : List FS → Val → Eff Unit
  | [], x => (.ok (), x)
  | fs :: r, x =>
    match Normalize.delete E fs x with
    | (.error e, x') => if e.isFieldSelector then deleteAll E r x' else (.error e, x')
    | (.ok (), x') => deleteAll E r x'

/-- `MultiFieldSelector.delete` (selector.py:845-868). -/
def delete (E : Env) (h : Heads) (force : Bool) (x : Val) : Eff Unit :=
  if force then deleteAll E (iter h) x
  else
    match checkAll E (iter h) x with
    | .error e => (.error e, x)
    | .ok () => deleteAll E (iter h) x

/-- The values to set, `none` standing for `_None` (selector.py:886-893). -/
def fetch (E : Env) (source : Val) : List FS → Except Exc (List (FS × Option Val))
  | [] => .ok []
  | fs :: r =>
    match Normalize.get E fs source with
    | .ok v =>
      match fetch E source r with
      | .error e => .error e
      | .ok l => .ok ((fs, some v) :: l)
    | .error e =>
      if e.isAttribute then
        match fetch E source r with
        | .error e => .error e
        | .ok l => .ok ((fs, none) :: l)
      else .error e

/-- The writes (selector.py:898-902); copying is the identity on trees. -/
def store (E : Env) : List (FS × Option Val) → Val → Eff Unit
  | [], x => (.ok (), x)
  | (fs, none) :: r, x =>
    match Normalize.delete E fs x with
    | (.error e, x') => (.error e, x')
    | (.ok (), x') => store E r x'
  | (fs, some v) :: r, x =>
    match Normalize.post E fs v x with
    | (.error e, x') => (.error e, x')
    | (.ok _, x') => store E r x'

/-- `MultiFieldSelector.patch` (selector.py:870-902): outcome and the target afterwards. -/
def patch (E : Env) (h : Heads) (target source : Val) : Eff Unit :=
  match fetch E source (iter h) with
  | .error e => (.error e, target)
  | .ok l => store E l target

end Mfs
end Normalize
