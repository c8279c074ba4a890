import Verif.Model.Json
import Verif.Model.Diff

/-!
# Visitors

Models `/repo/normalize/visitor.py`: `Visitor` (29-119), `visit` and its hooks (156-359), `cast` and its hooks
(363-478), and the common part (576-758).  `reflect` (481-574) is left out.

Simplifications: as in `Verif.Model.Json`; the generators of `map_record` and `map_collection` are lists, made before
`reduce` or `collect` is called with them (all the hooks of the library read them to the end, and nothing of the
visitor can be observed in between); `prop.__get__` reads the instance dict, or gives what an unset `V1Property`
reads as (there are no lazy properties); `mapped == ""` holds of the empty string only.
-/

namespace Normalize.Visit
open Ident (IProp Ty ItemTy CollKind)
open Json (Setup Mk)

/-- The exceptions of a visit: any exception, a `JsonConversionError`, and those of exc.py:462-495. -/
inductive VErr
  | raw (e : Exc)
  | json (fs : FS) (e : Exc)
  /-- `VisitorPropError`, with `fs` and `exception` -/
  | prop (fs : FS) (e : Exc)
  | grokRecord (fs : FS)
  | grokColl (fs : FS)
  | tooSimple (fs : FS)
  deriving DecidableEq

/-- `except TypeError` (exc.py:82, 402, 491). -/
def VErr.isType : VErr → Bool
  | .raw e => decide (e = .typeError) || e.isCoercion
  | .json _ _ => true
  | _ => false

/-- The exception of a constructor. -/
def ofJErr : Json.JErr → VErr
  | .raw e => .raw e
  | .boxed fs e => .json fs e

/-- What is visited: a value, or the exception for an empty slot (visitor.py:650-655). -/
inductive Slot
  | val (v : Val)
  | miss (e : Exc)

/-- The options (visitor.py:34-83). -/
structure Opts where
  emptySlots : Bool := false
  extraneous : Bool := false
  ignoreEmpty : Bool := false
  ignoreNone : Bool := true
  filter : Option Heads := none

/-- `visit_filter`, if true (an empty `MultiFieldSelector` is false). -/
def Opts.active (o : Opts) : Option Heads := o.filter.filter (fun h => Mfs.nonEmpty h)

/-- `is_filtered(prop)` with this `cue` (visitor.py:88-91). -/
def isFiltered (o : Opts) (cue : FS) (p : IProp) : Bool :=
  (!o.extraneous && p.extraneous) ||
    (match o.active with
     | some h => !Diff.selects h (cue ++ [.str p.name])
     | none => false)

/-- `push(what)` (visitor.py:97-98). -/
def push (cue : FS) (k : Comp) : FS := cue ++ [k]

/-- `pop(what)` (visitor.py:100-103). -/
def pop (cue : FS) (k : Comp) : Except VErr FS :=
  if k = .none ∨ cue.getLast? = some k then .ok cue.dropLast else .error (.raw .assertionError)

/-- What `unpack` returns (visitor.py:196-247, 575-588, 608-617). -/
inductive Unpacked
  /-- `StopVisiting` -/
  | stop (v : Val)
  | parts (props : Option (IProp → Except Exc Val)) (coll : Option (List (Comp × Val)))

/-- The hooks (visitor.py:34, 67-70); the `FS` is the visitor's `cue`. -/
structure Hooks where
  unpack : Slot → Ty → FS → Except VErr Unpacked
  apply : Slot → Option IProp → FS → Except VErr Val
  collect : List (Comp × Val) → Ty → FS → Except VErr Val
  reduce : Option (List (IProp × Val)) → Option Val → Ty → FS → Except VErr Val

/-- `cls.map(visitor, value, value_type)` -/
abbrev Go := Slot → Ty → FS → Except VErr Val

variable (J : Setup)

/-- `value_type.properties.values()` -/
def propsOf : Ty → List IProp
  | .cls c => (J.S.cls c).props
  | .other _ => []

/-- The result of mapping a slot or an item, unless it is ignored (visitor.py:669-674, 684-689). -/
def keep (o : Opts) (v : Val) : Option Val :=
  if v = .none ∧ o.ignoreNone = true then none
  else if v = .str "" ∧ o.ignoreEmpty = true then none
  else some v

/-- `isinstance(value, value_type)` for a record class (visitor.py:733). -/
def isMatch (s : Slot) (t : Ty) : Bool :=
  match s with
  | .val v => Json.instOf J t v
  | .miss _ => false

/-- The loops of `map_type_union` (visitor.py:737-755); the value is `mapped`. -/
def tryTypes (go : Go) (s : Slot) (cue : FS) : List Ty → Val → Except VErr Val
  | [], m => .ok m
  | t :: ts, m =>
    match go s t cue with
    | .ok v => if Json.falsy J v then tryTypes go s cue ts v else .ok v
    | .error e => if e.isType then tryTypes go s cue ts m else .error e

/-- Is it a record class? -/
def isCls : Ty → Bool
  | .cls _ => true
  | .other _ => false

/-- `map_type_union` (visitor.py:711-758). -/
def mapUnion (H : Hooks) (go : Go) (s : Slot) (p : IProp) (cue : FS) : Except VErr Val :=
  if (p.types.filter (fun t => isCls t && isMatch J s t)).isEmpty then
    match tryTypes J go s cue (p.types.filter isCls) .none with
    | .error e => .error e
    | .ok m => if Json.falsy J m then H.apply s (some p) cue else .ok m
  else tryTypes J go s cue (p.types.filter (fun t => isCls t && isMatch J s t)) .none

/-- `map_prop` (visitor.py:691-708). -/
def mapProp (H : Hooks) (go : Go) (s : Slot) (p : IProp) (cue : FS) : Except VErr Val :=
  match p.types with
  | [] =>
    match s with
    | .val v =>
      match Json.clsOf v with
      | some c => go s (.cls c) cue
      | none => H.apply s (some p) cue
    | .miss _ => H.apply s (some p) cue
  | [.cls c] => go s (.cls c) cue
  | [.other _] => H.apply s (some p) cue
  | _ => mapUnion J H go s p cue

/-- The value of a slot: `AttributeError` and `KeyError` are values, other exceptions are wrapped
(visitor.py:648-664). -/
def fetch (get : IProp → Except Exc Val) (cue : FS) (p : IProp) : Except VErr Slot :=
  match get p with
  | .ok v => .ok (.val v)
  | .error e =>
    if e.isAttribute || e.isKey then .ok (.miss e)
    else
      match pop cue (.str p.name) with
      | .error x => .error x
      | .ok cue' => .error (.prop cue' e)

/-- Is the slot mapped? (visitor.py:665-667) -/
def wanted (o : Opts) : Slot → Bool
  | .val _ => true
  | .miss _ => o.emptySlots

/-- One round of `map_record`, with the copied visitor's `cue` before and after (visitor.py:644-675). -/
def mapSlot (H : Hooks) (o : Opts) (go : Go) (get : IProp → Except Exc Val) (cue : FS) (p : IProp) :
    Except VErr (Option Val × FS) :=
  if isFiltered o cue p then .ok (none, cue)
  else
    match fetch get (push cue (.str p.name)) p with
    | .error e => .error e
    | .ok s =>
      if wanted o s then
        match mapProp J H go s p (push cue (.str p.name)) with
        | .error e => .error e
        | .ok v =>
          match pop (push cue (.str p.name)) (.str p.name) with
          | .error e => .error e
          | .ok cue' => .ok (keep o v, cue')
      else
        match pop (push cue (.str p.name)) (.str p.name) with
        | .error e => .error e
        | .ok cue' => .ok (none, cue')

/-- Put a result in front. -/
def addKept {α : Type} (a : α) (r : Option Val) (l : List (α × Val)) : List (α × Val) :=
  match r with
  | some v => (a, v) :: l
  | none => l

/-- `map_record` (visitor.py:641-675). -/
def mapRecord (H : Hooks) (o : Opts) (go : Go) (get : IProp → Except Exc Val) :
    List IProp → FS → Except VErr (List (IProp × Val))
  | [], _ => .ok []
  | p :: ps, cue =>
    match mapSlot J H o go get cue p with
    | .error e => .error e
    | .ok (r, cue') =>
      match mapRecord H o go get ps cue' with
      | .error e => .error e
      | .ok l => .ok (addKept p r l)

/-- `coll_type.itemtype`, if it is a class; `issubclass` of a tuple is a `TypeError` (visitor.py:683). -/
def itemType : Ty → Except VErr Ty
  | .cls c =>
    match (J.S.cls c).coll with
    | some (_, .one t) => .ok t
    | _ => .error (.raw .typeError)
  | .other _ => .error (.raw .attributeError)

/-- `map_collection` (visitor.py:677-689), with the copied visitor's `cue`. -/
def mapColl (o : Opts) (go : Go) (t : Ty) : List (Comp × Val) → FS → Except VErr (List (Comp × Val))
  | [], _ => .ok []
  | (k, v) :: xs, cue =>
    match itemType J t with
    | .error e => .error e
    | .ok it =>
      match go (.val v) it (push cue k) with
      | .error e => .error e
      | .ok m =>
        match pop (push cue k) k with
        | .error e => .error e
        | .ok cue' =>
          match mapColl o go t xs cue' with
          | .error e => .error e
          | .ok l => .ok (addKept k (keep o m) l)

/-- `mapped_coll` (visitor.py:619-628). -/
def collected (H : Hooks) (o : Opts) (go : Go) (coll : Option (List (Comp × Val))) (t : Ty) (cue : FS) :
    Except VErr (Option Val) :=
  match coll with
  | none => .ok none
  | some xs =>
    match mapColl J o go t xs cue with
    | .error e => .error e
    | .ok l =>
      match H.collect l t cue with
      | .error e => .error e
      | .ok v => .ok (some v)

/-- `map` (visitor.py:590-639); the number stands for python's recursion limit. -/
def map (H : Hooks) (o : Opts) : Nat → Go
  | 0 => fun _ _ _ => .error (.raw (.user 0))
  | n + 1 => fun s t cue =>
    match H.unpack s t cue with
    | .error e => .error e
    | .ok (.stop v) => .ok v
    | .ok (.parts props coll) =>
      match collected J H o (map H o n) coll t cue with
      | .error e => .error e
      | .ok mc =>
        match props, mc with
        | some get, mc =>
          match mapRecord J H o (map H o n) get (propsOf J t) cue with
          | .error e => .error e
          | .ok mp => H.reduce (some mp) mc t cue
        | none, none => H.apply s none cue
        | none, some c => H.reduce none (some c) t cue

/-! ## `visit` -/

/-- `prop.__get__(value)` (property/__init__.py:280-287); of `None` it is the property itself, `self p`. -/
def readSlot (self : IProp → Val) (s : Slot) (p : IProp) : Except Exc Val :=
  match s with
  | .val (.atom .none) => .ok (self p)
  | .val (.rcd _ sl) =>
    match alookup sl p.name, p.unset with
    | some v, _ => .ok v
    | none, some a => .ok (.atom a)
    | none, none => .error .attributeError
  | _ =>
    match p.unset with
    | some a => .ok (.atom a)
    | none => .error .attributeError

/-- The generator for a collection type (visitor.py:226-237).  Creating the `VisitorUnpackError` fails with
`AttributeError`: `colltype=` is given a string, and the message asks for its `__name__` (exc.py:491-495). -/
def unpackColl (k : CollKind) (s : Slot) : Except VErr (List (Comp × Val)) :=
  match k, s with
  | _, .val (.lcoll _ xs) => .ok (Ident.enum xs)
  | _, .val (.dcoll _ xs) => .ok xs
  | .list, .val (.list xs) => .ok (Ident.enum xs)
  | .dict, .val (.dict xs) => .ok xs
  | _, _ => .error (.raw .attributeError)

/-- `unpack` (visitor.py:195-247). -/
def unpack (self : IProp → Val) (s : Slot) (t : Ty) (_ : FS) : Except VErr Unpacked :=
  match t with
  | .other _ => .ok (.parts none none)
  | .cls c =>
    match (J.S.cls c).coll with
    | none => .ok (.parts (some (readSlot self s)) none)
    | some (k, _) =>
      match unpackColl k s with
      | .error e => .error e
      | .ok xs => .ok (.parts (some (readSlot self s)) (some xs))

/-- `apply` and `reverse` (visitor.py:249-284, 449-458). -/
def applyDefault (s : Slot) (_ : Option IProp) (_ : FS) : Except VErr Val :=
  match s with
  | .val v => .ok v
  | .miss _ => .ok .none

/-- `aggregate` (visitor.py:286-309; coll.py:212-217, 310-315); the keys for a dict are distinct. -/
def aggregate (l : List (Comp × Val)) (t : Ty) (_ : FS) : Except VErr Val :=
  match t with
  | .other _ => .error (.raw .attributeError)
  | .cls c =>
    match (J.S.cls c).coll with
    | some (.list, _) => .ok (.list (l.map (·.2)))
    | some (.dict, _) => .ok (.dict l)
    | none => .error (.raw .attributeError)

/-- `dict((k.name, v) for k, v in mapped_props)` (visitor.py:344, 473-475); names are unique. -/
def named (mp : List (IProp × Val)) : List (String × Val) := mp.map (fun x => (x.1.name, x.2))

/-- The same with keys of a dict. -/
def asDict (mp : List (String × Val)) : List (Comp × Val) := mp.map (fun x => (Comp.str x.1, x.2))

/-- `reduce` (visitor.py:311-359). -/
def reduce (o : Opts) (mp : Option (List (IProp × Val))) (mc : Option Val) (t : Ty) (cue : FS) : Except VErr Val :=
  match mc, t with
  | some a, .cls _ =>
    if (propsOf J t).all (isFiltered o cue) then .ok a
    else
      match mp with
      | none => .error (.raw .attributeError)
      | some mp =>
        match alookup (asDict (named mp)) (.str "values") with
        | some v =>
          if Json.falsy J v then .ok (.dict (aset (asDict (named mp)) (.str "values") a)) else .error (.tooSimple cue)
        | none => .ok (.dict (aset (asDict (named mp)) (.str "values") a))
  | _, _ =>
    match mp with
    | none => .ok .none
    | some mp => .ok (.dict (asDict (named mp)))

/-- The hooks of `visit` (visitor.py:183-185), with any `apply`. -/
def visitHooks (self : IProp → Val) (o : Opts) (apply : Slot → Option IProp → FS → Except VErr Val) : Hooks :=
  { unpack := unpack J self, apply := apply, collect := aggregate J, reduce := reduce J o }

/-- `visit(value)` (visitor.py:155-193). -/
def visit (n : Nat) (self : IProp → Val) (o : Opts) (apply : Slot → Option IProp → FS → Except VErr Val) (v : Val) :
    Except VErr Val :=
  match Json.clsOf v with
  | some c => map J (visitHooks J self o apply) o n (.val v) (.cls c) []
  | none => .error (.raw .typeError)

/-! ## `cast` -/

/-- `value[prop.name]` (visitor.py:442-443). -/
def readKey (xs : List (Comp × Val)) (p : IProp) : Except Exc Val :=
  match alookup xs (.str p.name) with
  | some v => .ok v
  | none => .error .keyError

/-- `coll_to_tuples` of the list or dict collection type (coll.py:219-243, 317-340).  All the keys are 0 if a mapping
is read into a list (coll.py:332-334). -/
def collTuples (k : CollKind) (v : Val) : Except VErr (List (Comp × Val)) :=
  match k, v with
  | .dict, .dict xs => .ok xs
  | .dict, .list xs => .ok (Ident.enum xs)
  | .list, .list xs => .ok (Ident.enum xs)
  | .list, .dict xs =>
    match Json.listItems J (.dict xs) with
    | .error e => .error (ofJErr e)
    | .ok ys => .ok (ys.map (fun y => (Comp.int 0, y)))
  | _, _ => .error (.raw .collectionCoerce)

/-- `isinstance(values, grok_coll_types)` (visitor.py:393); strings are sequences. -/
def isGrokColl : Val → Bool
  | .list _ | .dict _ => true
  | .atom (.str _) => true
  | _ => false

/-- `values` (visitor.py:419-426). -/
def grokValues (both : Bool) (v : Val) : Val :=
  match both, v with
  | true, .dict xs =>
    match alookup xs (.str "values") with
    | some w => w
    | none => v
  | _, _ => v

/-- The generator (visitor.py:428-438). -/
def grokColl (isRec : Bool) (k : CollKind) (v : Val) (cue : FS) : Except VErr (List (Comp × Val)) :=
  if isGrokColl (grokValues isRec v) then collTuples J k (grokValues isRec v) else .error (.grokColl cue)

/-- The getter (visitor.py:440-445); only dicts get here. -/
def grokGet (isRec : Bool) (v : Val) : Option (IProp → Except Exc Val) :=
  match isRec, v with
  | true, .dict xs => some (readKey xs)
  | _, _ => none

/-- `isinstance(value, Mapping)` (visitor.py:392) -/
def isMapping : Val → Bool
  | .dict _ => true
  | _ => false

/-- `grok` (visitor.py:395-447). -/
def grok (o : Opts) (s : Slot) (t : Ty) (cue : FS) : Except VErr Unpacked :=
  match t, s with
  | .other _, _ => .ok (.parts none none)
  | .cls c, .miss _ =>
    if (propsOf J t).any (fun p => !isFiltered o cue p) then .error (.grokRecord cue)
    else
      match (J.S.cls c).coll with
      | none => .ok (.parts none none)
      | some _ => .error (.grokColl cue)
  | .cls c, .val v =>
    if (propsOf J t).any (fun p => !isFiltered o cue p) && !isMapping v then .error (.grokRecord cue)
    else
      match (J.S.cls c).coll with
      | none => .ok (.parts (grokGet ((propsOf J t).any (fun p => !isFiltered o cue p)) v) none)
      | some (k, _) =>
        match grokColl J ((propsOf J t).any (fun p => !isFiltered o cue p)) k v cue with
        | .error e => .error e
        | .ok xs => .ok (.parts (grokGet ((propsOf J t).any (fun p => !isFiltered o cue p)) v) (some xs))

/-- An error of a constructor or coercion. -/
def lift {α : Type} : Except Json.JErr α → Except VErr α
  | .ok a => .ok a
  | .error e => .error (ofJErr e)

/-- `collect` (visitor.py:460-466; coll.py:151-159, 212-217, 310-315); the keys for a dict are distinct. -/
def collect (mk : Mk) (l : List (Comp × Val)) (t : Ty) (_ : FS) : Except VErr Val :=
  match t with
  | .other _ => .error (.raw .attributeError)
  | .cls c =>
    match (J.S.cls c).coll with
    | none => .error (.raw .attributeError)
    | some (k, it) =>
      match mapE (Json.coerceEntry J mk it) l with
      | .error e => .error (ofJErr e)
      | .ok l' =>
        match k with
        | .list => .ok (.list (l'.map (·.2)))
        | .dict => .ok (.dict l')

/-- `mapped_props`, or nothing (visitor.py:473). -/
def kwargs : Option (List (IProp × Val)) → List (String × Val)
  | none => []
  | some mp => named mp

/-- `produce` (visitor.py:468-478).  Collections take no keyword arguments besides `values`. -/
def produce (mk : Mk) (mp : Option (List (IProp × Val))) (mc : Option Val) (t : Ty) (_ : FS) : Except VErr Val :=
  match t with
  | .other n => lift (Json.callTy J mk (.other n) .none)
  | .cls c =>
    match (J.S.cls c).coll with
    | none => lift (Json.initRecord J mk c (kwargs mp))
    | some (k, it) =>
      if (kwargs mp).isEmpty then
        match k with
        | .list => lift (Json.mkList J mk c it (mc.getD .none))
        | .dict => lift (Json.mkDict J mk c it (mc.getD .none))
      else .error (.raw .propertyNotKnown)

/-- The hooks of `cast` (visitor.py:382-384), with any `reverse`. -/
def castHooks (mk : Mk) (o : Opts) (reverse : Slot → Option IProp → FS → Except VErr Val) : Hooks :=
  { unpack := grok J o, apply := reverse, collect := collect J mk, reduce := produce J mk }

/-- `cast(value_type, value)` (visitor.py:362-387); `m` is the recursion limit of the constructors. -/
def cast (m n : Nat) (o : Opts) (reverse : Slot → Option IProp → FS → Except VErr Val) (t : Ty) (v : Val) :
    Except VErr Val :=
  map J (castHooks J (Json.make J m) o reverse) o n (.val v) t []

end Normalize.Visit
