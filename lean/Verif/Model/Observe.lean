import Verif.Model.Property

/-!
# Looking at records with lazy properties

Models what `==` (record/__init__.py:116-132), `__pk__` with `hash()` and `str()` (record/__init__.py:85-103,
138-150, identity.py:24-112), `to_json` (record/json.py:193-259), `compare_record_iter` (diff.py:358-483) and `visit`
(visitor.py:240-246, 640-676) do to the records they look at: they read attributes, and reading a lazy attribute
stores its value.  `repr` (record/__init__.py:105-114) and pickling (record/__init__.py:75-78) look at the instance
dict.

Many records exist, numbered; an attribute of one may hold another.  Simplified: collections are opaque values here,
compared and converted by functions that are parameters; the filter of a diff is by property only.
-/

namespace Normalize.Observe

open Slots (World PropDef Cls State)

variable {V : Type} [DecidableEq V]

/-- Python code that works on the attributes of records. -/
inductive Code (V : Type) (α : Type)
  | done (r : Except Exc α)
  /-- `getattr(obj, name)` -/
  | get (i : Nat) (nm : String) (k : Except Exc V → Code V α)
  /-- `obj.__dict__.get(name)` -/
  | slot (i : Nat) (nm : String) (k : Option V → Code V α)
  /-- `setattr(obj, name, value)` -/
  | set (i : Nat) (nm : String) (v : V) (k : Except Exc V → Code V α)
  /-- `delattr(obj, name)` -/
  | del (i : Nat) (nm : String) (k : Except Exc V → Code V α)

/-- One piece of code after another; the second sees how the first ended. -/
def Code.andThen {α β : Type} : Code V α → (Except Exc α → Code V β) → Code V β
  | .done r, f => f r
  | .get i nm k, f => .get i nm (fun r => (k r).andThen f)
  | .slot i nm k, f => .slot i nm (fun r => (k r).andThen f)
  | .set i nm v k, f => .set i nm v (fun r => (k r).andThen f)
  | .del i nm k, f => .del i nm (fun r => (k r).andThen f)

/-- Exceptions go on. -/
def orRaise {α β : Type} (f : α → Code V β) : Except Exc α → Code V β
  | .ok a => f a
  | .error e => .done (.error e)

/-- The same, if the first does not raise. -/
def Code.thenDo {α β : Type} (c : Code V α) (f : α → Code V β) : Code V β := c.andThen (orRaise f)

/-- The classes and the options.  The field `default` of the properties is not used: `dflt` is.  -/
structure Setup (V : Type) where
  w : World V
  /-- the type of a record -/
  typ : Nat → Nat
  cls : Nat → Cls V
  /-- the default functions, given the record -/
  dflt : Nat → String → Option (Nat → Code V V)
  /-- the value is a record -/
  asRec : V → Option Nat
  extraneous : Nat → String → Bool := fun _ _ => false
  /-- `primary_key`, or all properties, sorted -/
  keyNames : Nat → List String
  /-- `json_name`; `none` for `json_name=None` -/
  jsonName : Nat → String → Option String := fun _ p => some p
  /-- `to_json` of the property, for values that are no records -/
  toJson : Nat → String → V → Except Exc V := fun _ _ v => .ok v
  /-- `v1_upgraded` -/
  upgraded : Nat → String → Bool := fun _ _ => false
  /-- `compare_as` of the property, given the record and the value -/
  compareAs : Nat → String → Option (Nat → V → Code V V) := fun _ _ => none
  /-- `normalize_val`; `none` for nothing -/
  norm : V → Option V := some
  /-- the properties, sorted, without those that are filtered -/
  diffNames : Nat → List String
  /-- `apply` -/
  apply : Nat → String → Except Exc V → Except Exc V := fun _ _ r => r
  applyEmpty : Bool := false

/-- The instance dicts of the records. -/
abbrev Heap (V : Type) := Nat → State V

/-- The instance dict of one record becomes another. -/
def upd (h : Heap V) (i : Nat) (s : State V) : Heap V := fun j => if j = i then s else h j

/-- How an operation ends; `none` if it does not (recursion of defaults without end). -/
abbrev Res (V α : Type) := Option (Except Exc α × Heap V)

variable (S : Setup V)

/-- The class of a record. -/
def Setup.clsOf (i : Nat) : Cls V := S.cls (S.typ i)

/-- Run code; `gt` reads an attribute. -/
def runCode {α : Type} (gt : Heap V → Nat → String → Res V V) : Code V α → Heap V → Res V α
  | .done r, h => some (r, h)
  | .get i nm k, h =>
    match gt h i nm with
    | none => none
    | some (r, h') => runCode gt (k r) h'
  | .slot i nm k, h => runCode gt (k ((h i).slots nm)) h
  | .set i nm v k, h =>
    runCode gt (k (Slots.setAttr S.w (S.clsOf i) (h i) nm v).1) (upd h i (Slots.setAttr S.w (S.clsOf i) (h i) nm v).2)
  | .del i nm k, h =>
    runCode gt (k (Slots.delAttr S.w (S.clsOf i) (h i) nm).1) (upd h i (Slots.delAttr S.w (S.clsOf i) (h i) nm).2)

/-- `LazyProperty.get_default` (property/__init__.py:248-257), given how to run code. -/
def defaultOf (i : Nat) (nm : String) : Code V V :=
  match S.dflt (S.typ i) nm with
  | none => .done (.ok S.w.unset)
  | some f => f i

/-- What the slot is set to (property/__init__.py:365-367). -/
def storeLazy (p : PropDef V) (i : Nat) (nm : String) : Except Exc V × Heap V → Except Exc V × Heap V
  | (.error e, h) => (.error e, h)
  | (.ok v, h) =>
    match Slots.typeSafe S.w p v false with
    | .error e => (.error e, h)
    | .ok u => (.ok u, upd h i ((h i).put nm u))

/-- What an attribute that is neither set nor lazy reads as (property/__init__.py:277-287, 458-459). -/
def notSet (p : PropDef V) : Except Exc V :=
  match p.kind with
  | .v1 => .ok (p.v1none.getD S.w.none)
  | _ => .error .attributeError

/-- `getattr(obj, name)`, see `Slots.getAttr`.  The number bounds the nesting of defaults. -/
def getAt : Nat → Heap V → Nat → String → Res V V
  | 0, _, _, _ => none
  | n + 1, h, i, nm =>
    match (h i).slots nm with
    | some v => some (.ok v, h)
    | none =>
      match (S.clsOf i).find nm with
      | none => some (.error .attributeError, h)
      | some p =>
        if p.kind.isLazy then
          match runCode S (getAt n) (defaultOf S i nm) (upd h i ((h i).log nm)) with
          | none => none
          | some q => some (storeLazy S p i nm q)
        else some (notSet S p, h)

/-- Run code. -/
def run {α : Type} (n : Nat) (c : Code V α) (h : Heap V) : Res V α := runCode S (getAt S n) c h

/-! ## Operations that look at records -/

/-- `except AttributeError` -/
def unlessSet {α : Type} : Except Exc α → Code V (Option α)
  | .ok v => .done (.ok (some v))
  | .error e => if e.isAttribute then .done (.ok none) else .done (.error e)

/-- `getattr(obj, name, <something>)` -/
def getOr (i : Nat) (nm : String) : Code V (Option V) := (Code.get i nm .done).andThen unlessSet

/-- The names of the properties of a type, in the order of `properties`. -/
def Setup.names (t : Nat) : List String := (S.cls t).props.map (·.1)

/-- `==` of two attribute values or markers. -/
def eqOpt (veq : V → V → Code V Bool) : Option V → Option V → Code V Bool
  | some a, some b => veq a b
  | none, none => .done (.ok true)
  | _, _ => .done (.ok false)

/-- The loop in `Record.__eq__` (record/__init__.py:125-132). -/
def eqProps (veq : V → V → Code V Bool) (i j : Nat) : List String → Code V Bool
  | [] => .done (.ok true)
  | p :: ps =>
    (getOr i p).thenDo fun a => (getOr j p).thenDo fun b => (eqOpt veq a b).thenDo fun same =>
      if same then eqProps veq i j ps else .done (.ok false)

/-- `a == b` (record/__init__.py:116-132).  The number stands for python's recursion limit. -/
def eqVal : Nat → V → V → Code V Bool
  | 0, _, _ => .done (.error (.user 0))
  | d + 1, a, b =>
    match S.asRec a, S.asRec b with
    | some i, some j =>
      if S.typ i = S.typ j then
        eqProps (eqVal d) i j ((S.names (S.typ i)).filter (fun p => !S.extraneous (S.typ i) p))
      else .done (.ok false)
    | _, _ => .done (.ok (S.w.eq a b))

/-- What an operation finds. -/
inductive Out (V : Type)
  | flag (b : Bool)
  | val (v : V)
  | node (xs : List (String × Out V))

/-- The loop in `record_id` (identity.py:75-112); an attribute that is not set counts as `None`. -/
def keyProps (key : V → Code V (Out V)) (i : Nat) : List String → Code V (List (String × Out V))
  | [] => .done (.ok [])
  | p :: ps =>
    (getOr i p).thenDo fun a => (key (a.getD S.w.none)).thenDo fun k => (keyProps key i ps).thenDo fun ks =>
      .done (.ok ((p, k) :: ks))

/-- `record_id` (identity.py:24-112), without a selector; what `hash()` and `str()` are made from. -/
def keyVal : Nat → V → Code V (Out V)
  | 0, _ => .done (.error (.user 0))
  | d + 1, a =>
    match S.asRec a with
    | some i => (keyProps S (keyVal d) i (S.keyNames (S.typ i))).thenDo fun ks => .done (.ok (.node ks))
    | none => .done (.ok (.val a))

/-- `prop.slot_is_empty(record)` (property/__init__.py:289-290, 371-372, 453-456); `super(V1Property, obj)` is a
`TypeError`. -/
def slotEmpty (i : Nat) (nm : String) : Code V Bool :=
  match (S.clsOf i).find nm with
  | none => .done (.ok true)
  | some p =>
    if p.kind.isLazy then .done (.ok false)
    else if p.kind = .v1 then
      if S.upgraded (S.typ i) nm then .done (.ok false) else .done (.error .typeError)
    else .slot i nm (fun v => .done (.ok v.isNone))

/-- `to_json(record, extraneous, prop)` (record/json.py:214-221). -/
def jsonProp (json : V → Code V (Out V)) (i : Nat) (p : String) : Code V (Out V) :=
  (Code.get i p .done).thenDo fun v =>
    match S.asRec v with
    | some _ => json v
    | none =>
      match S.toJson (S.typ i) p v with
      | .error e => .done (.error e)
      | .ok u => .done (.ok (.val u))

/-- A key and a value, if there is a value. -/
def addKey (k : String) (v : Option (Out V)) (xs : List (String × Out V)) : List (String × Out V) :=
  match v with
  | some v => (k, v) :: xs
  | none => xs

/-- The loop in `to_json` (record/json.py:231-243). -/
def jsonProps (json : V → Code V (Out V)) (extraneous : Bool) (i : Nat) : List String → Code V (List (String × Out V))
  | [] => .done (.ok [])
  | p :: ps =>
    if !extraneous && S.extraneous (S.typ i) p then jsonProps json extraneous i ps
    else
      (slotEmpty S i p).thenDo fun empty =>
        if empty then jsonProps json extraneous i ps
        else
          match S.jsonName (S.typ i) p with
          | none => jsonProps json extraneous i ps
          | some k =>
            ((jsonProp S json i p).andThen unlessSet).thenDo fun v =>
              (jsonProps json extraneous i ps).thenDo fun xs => .done (.ok (addKey k v xs))

/-- `to_json(record, extraneous)` (record/json.py:193-259). -/
def jsonVal (extraneous : Bool) : Nat → V → Code V (Out V)
  | 0, _ => .done (.error (.user 0))
  | d + 1, a =>
    match S.asRec a with
    | some i => (jsonProps S (jsonVal extraneous d) extraneous i (S.names (S.typ i))).thenDo fun xs => .done (.ok (.node xs))
    | none => .done (.ok (.val a))

/-- `normalize_object_slot` (diff.py:288-301). -/
def slotNorm (i : Nat) (p : String) : Option V → Code V (Option V)
  | none => .done (.ok none)
  | some v =>
    match S.compareAs (S.typ i) p with
    | none => .done (.ok (S.norm v))
    | some f => (f i v).thenDo fun u => .done (.ok (S.norm u))

/-- What is found at a property: the names say what. -/
def diffMark (p : String) (mark : String) (xs : List (String × Out V)) : List (String × Out V) :=
  (p, .node [(mark, .flag true)]) :: xs

/-- The comparison of two normalised values (diff.py:417-483), without `unchanged`, for two values of one type. -/
def diffSlot (sub : V → V → Code V (Out V)) (p : String) : Option V → Option V → Code V (List (String × Out V))
  | none, none => .done (.ok [])
  | none, some _ => .done (.ok (diffMark p "ADDED" []))
  | some _, none => .done (.ok (diffMark p "REMOVED" []))
  | some a, some b =>
    match S.asRec a, S.asRec b with
    | some i, some j =>
      if S.typ i = S.typ j then (sub a b).thenDo fun x => .done (.ok [(p, x)])
      else .done (.ok (diffMark p "MODIFIED" []))
    | _, _ => if S.w.eq a b then .done (.ok []) else .done (.ok (diffMark p "MODIFIED" []))

/-- The loop in `compare_record_iter` (diff.py:401-483). -/
def diffProps (sub : V → V → Code V (Out V)) (i j : Nat) : List String → Code V (List (String × Out V))
  | [] => .done (.ok [])
  | p :: ps =>
    (getOr i p).thenDo fun a => (slotNorm S i p a).thenDo fun a' => (getOr j p).thenDo fun b =>
      (slotNorm S j p b).thenDo fun b' => (diffSlot S sub p a' b').thenDo fun xs =>
        (diffProps sub i j ps).thenDo fun ys => .done (.ok (xs ++ ys))

/-- `compare_record_iter` (diff.py:358-483). -/
def diffVal : Nat → V → V → Code V (Out V)
  | 0, _, _ => .done (.error (.user 0))
  | d + 1, a, b =>
    match S.asRec a, S.asRec b with
    | some i, some j =>
      if S.typ i = S.typ j then
        (diffProps S (diffVal d) i j (S.diffNames (S.typ i))).thenDo fun xs => .done (.ok (.node xs))
      else .done (.error .typeError)
    | _, _ => .done (.error .typeError)

/-- `map_prop` (visitor.py:694-711), for values that are records or opaque, given a value or the exception. -/
def visitSlot (sub : V → Code V (Out V)) (i : Nat) (p : String) (r : Except Exc V) : Code V (Out V) :=
  match r with
  | .ok v =>
    match S.asRec v with
    | some _ => sub v
    | none =>
      match S.apply (S.typ i) p (.ok v) with
      | .error e => .done (.error e)
      | .ok u => .done (.ok (.val u))
  | .error e =>
    match S.apply (S.typ i) p (.error e) with
    | .error e => .done (.error e)
    | .ok u => .done (.ok (.val u))

/-- One round of `map_record` (visitor.py:642-676): an exception that says the attribute is not set is handed to
`apply`, or ignored; others go on (wrapped in a `VisitorPropError`). -/
def visitProp (sub : V → Code V (Out V)) (i : Nat) (p : String) (r : Except Exc V) : Code V (Option (Out V)) :=
  match r with
  | .ok v => (visitSlot S sub i p (.ok v)).thenDo fun x => .done (.ok (some x))
  | .error e =>
    if e.isAttribute || e.isKey then
      if S.applyEmpty then (visitSlot S sub i p (.error e)).thenDo fun x => .done (.ok (some x))
      else .done (.ok none)
    else .done (.error e)

/-- `map_record` (visitor.py:640-676). -/
def visitProps (sub : V → Code V (Out V)) (i : Nat) : List String → Code V (List (String × Out V))
  | [] => .done (.ok [])
  | p :: ps =>
    if S.extraneous (S.typ i) p then visitProps sub i ps
    else
      ((Code.get i p .done).andThen (visitProp S sub i p)).thenDo fun v =>
        (visitProps sub i ps).thenDo fun xs => .done (.ok (addKey p v xs))

/-- `visit` (visitor.py:640-676). -/
def visitVal : Nat → V → Code V (Out V)
  | 0, _ => .done (.error (.user 0))
  | d + 1, a =>
    match S.asRec a with
    | some i => (visitProps S (visitVal d) i (S.names (S.typ i))).thenDo fun xs => .done (.ok (.node xs))
    | none => .done (.ok (.val a))

/-- The operations. -/
inductive Look (V : Type)
  /-- `getattr(obj, name)` -/
  | attr (i : Nat) (nm : String)
  /-- `a == b` -/
  | eq (a b : V)
  /-- `hash(a)`, `str(a)`, `a.__pk__` -/
  | key (a : V)
  /-- `to_json(a)` -/
  | json (extraneous : Bool) (a : V)
  /-- `a.diff(b)` -/
  | diff (a b : V)
  /-- `visit(a)` -/
  | visit (a : V)

/-- What they do; the number stands for python's recursion limit. -/
def Look.code (d : Nat) : Look V → Code V (Out V)
  | .attr i nm => (Code.get i nm .done).thenDo fun v => .done (.ok (.val v))
  | .eq a b => (eqVal S d a b).thenDo fun x => .done (.ok (.flag x))
  | .key a => keyVal S d a
  | .json x a => jsonVal S x d a
  | .diff a b => diffVal S d a b
  | .visit a => visitVal S d a

/-- `repr(record)` and `__getstate__` (record/__init__.py:75-78, 105-114): the names and values in the instance
dict, here in the order of the properties. -/
def shown (h : Heap V) (i : Nat) : List (String × Option V) :=
  (S.names (S.typ i)).map (fun p => (p, (h i).slots p))

end Normalize.Observe
