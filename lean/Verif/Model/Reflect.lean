import Verif.Model.Val

/-!
# `VisitorPattern.reflect`

Models `/repo/normalize/visitor.py:481-574` (`reflect` and its hooks `scantypes`, `propinfo`, `itemtypes`, `typeinfo`)
and what they use of `map`, `map_record`, `map_collection`, `map_prop` and `map_type_union` (591-758).

Simplifications: the name of a property is the key it is listed under (C71); the filter is any function of the place
and the property; `reflect` is given a type, as it makes no difference between a type and an instance of it.
-/

namespace Normalize.Reflect

/-- A class, by number. -/
abbrev Cls := Nat

/-- A property: its name and the types of its `isa`, if any: one type, or a tuple. -/
inductive Isa
  | none
  | one (t : Cls)
  | union (ts : List Cls)
  deriving DecidableEq, Repr

structure RProp where
  name : String
  isa : Isa
  extraneous : Bool
  deriving DecidableEq, Repr

/-- A place: names of properties and, for the items of collections, their types. -/
inductive Place
  | prop (name : String)
  | item (t : Cls)
  deriving DecidableEq, Repr

/-- The classes. -/
structure World where
  name : Cls → String
  isRecord : Cls → Bool
  isColl : Cls → Bool
  /-- all properties, in the order of the `properties` dict -/
  props : Cls → List RProp
  /-- `itemtype` of a collection: a type or a tuple of them -/
  items : Cls → Isa

/-- What is returned: dicts, lists and strings. -/
inductive Info
  | str (s : String)
  | arr (l : List Info)
  | obj (es : List (String × Info))

/-- `issubclass` of something that is no class, an itemtype that is not declared, and python's recursion limit. -/
inductive RErr
  | typeError
  | noItemtype
  | recursion
  deriving DecidableEq, Repr

/-- The options (visitor.py:34-37, 88-91). -/
structure Opts where
  extraneous : Bool
  /-- does the filter let this pass?  Always so without one. -/
  passes : List Place → String → Bool

variable (W : World) (O : Opts)

/-- `is_filtered` (visitor.py:88-91) -/
def filtered (cue : List Place) (p : RProp) : Bool :=
  (!O.extraneous && p.extraneous) || !O.passes cue p.name

/-- `propinfo` of a property (visitor.py:536-551) -/
def propInfo (p : RProp) : Info :=
  match p.isa with
  | .none => .obj [("name", .str p.name)]
  | .one t => .obj [("name", .str p.name), ("type", .str (W.name t))]
  | .union [] => .obj [("name", .str p.name)]
  | .union ts => .obj [("name", .str p.name), ("type", .arr (ts.map (fun t => .str (W.name t))))]

/-- `typeinfo` (visitor.py:562-574).  A dict of what is given for the properties. -/
def typeInfo (t : Cls) (ps : List (String × Info)) (item : Option Info) : Info :=
  .obj ([("name", .str (W.name t))] ++ (if ps = [] then [] else [("properties", .obj ps)]) ++
    match item with
    | none => []
    | some i => [("itemtype", i)])

/-- The loop over the record types of a tuple (visitor.py:711-758).  The value is the property, which is an instance of
none of them; a `TypeError` means the next, and what `map` returns is a dict, which is true. -/
def mapUnion (map : Cls → Except RErr Info) (p : RProp) : List Cls → Except RErr Info
  | [] => .ok (propInfo W p)
  | t :: ts =>
    if W.isRecord t then
      match map t with
      | .ok i => .ok i
      | .error .typeError => mapUnion map p ts
      | .error e => .error e
    else mapUnion map p ts

/-- `map_prop` (visitor.py:692-708) -/
def mapProp (map : Cls → Except RErr Info) (p : RProp) : Except RErr Info :=
  match p.isa with
  | .none => .ok (propInfo W p)
  | .one t => if W.isRecord t then map t else .ok (propInfo W p)
  | .union ts => mapUnion W map p ts

/-- `map_record` (visitor.py:642-675), and the dict that `typeinfo` makes of it. -/
def mapRecord (map : List Place → Cls → Except RErr Info) (cue : List Place) : List RProp → List (String × Info) →
    Except RErr (List (String × Info))
  | [], acc => .ok acc
  | p :: ps, acc =>
    if filtered O cue p then mapRecord map cue ps acc
    else
      match mapProp W (map (cue ++ [.prop p.name])) p with
      | .error e => .error e
      | .ok i => mapRecord map cue ps (aset acc p.name i)

/-- `map_collection` (visitor.py:678-689) and `itemtypes` (554-559).  For a tuple, `map` is given the tuple itself, and
`issubclass` refuses it. -/
def mapItems (map : List Place → Cls → Except RErr Info) (cue : List Place) (t : Cls) : Except RErr (Option Info) :=
  match W.items t with
  | .none => .error .noItemtype
  | .one it =>
    match map (cue ++ [.item it]) it with
    | .error e => .error e
    | .ok i => .ok (some i)
  | .union [] => .ok none
  | .union (_ :: _) => .error .typeError

/-- `map` (visitor.py:591-639).  The number is python's recursion limit. -/
def map : Nat → List Place → Cls → Except RErr Info
  | 0, _, _ => .error .recursion
  | n + 1, cue, t =>
    if W.isRecord t then
      match (if W.isColl t then mapItems W (map n) cue t else .ok none) with
      | .error e => .error e
      | .ok item =>
        match mapRecord W O (map n) cue (W.props t) [] with
        | .error e => .error e
        | .ok ps => .ok (typeInfo W t ps item)
    else .ok (.obj [("name", .str (W.name t))])

/-- `reflect` (visitor.py:482-506) -/
def reflect (limit : Nat) (t : Cls) : Except RErr Info :=
  if W.isRecord t then map W O limit [] t else .error .typeError

end Normalize.Reflect
