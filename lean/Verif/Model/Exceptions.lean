import Verif.Model.Exc
import Verif.Model.Access
import Verif.Model.Util

/-!
# Exceptions as objects

Models `/repo/normalize/exc.py:27-495`: how an exception is created, its message, attributes, items and copies, the
classes and their messages, and all the places in the library where one is raised.

`V` is the type of python objects; what they do when they are shown or an attribute is read is a parameter.

Simplifications: format strings with format specs, `[...]` lookups, nested fields or `!a` end with `ValueError`.
-/

namespace Normalize.Exn

/-- A python exception that is none of the library's. -/
inductive PyErr (V : Type)
  | index
  /-- `KeyError`, with its `args` -/
  | key (args : List V)
  | attribute
  | value
  | recursion
  | other (n : Nat)
  deriving DecidableEq

/-- What python objects do when they are shown, or an attribute is read. -/
structure World (V : Type) where
  ofStr : String → V
  /-- `format(v, "")` -/
  str : V → Except (PyErr V) String
  repr : V → Except (PyErr V) String
  attr : V → String → Except (PyErr V) V
  /-- `repr` of a tuple -/
  reprTuple : List V → Except (PyErr V) String
  /-- `repr` of a list of strings -/
  reprKeys : List String → String

/-! ## str.format -/

/-- A part of a format string: text, the text between two braces, or something that is no format string from there
on. -/
inductive Piece
  | lit (s : List Char)
  | field (s : List Char)
  | bad
  deriving DecidableEq, Repr

/-- How `str.format` splits a format string (`message.format`, exc.py:38): doubled braces are braces; the first
argument is the field that is being read, the second the text, both backwards. -/
def scan : Option (List Char) → List Char → List Char → List Piece
  | none, acc, '{' :: '{' :: cs => scan none ('{' :: acc) cs
  | none, acc, '}' :: '}' :: cs => scan none ('}' :: acc) cs
  | none, acc, '}' :: _ => [.lit acc.reverse, .bad]
  | none, acc, '{' :: cs => .lit acc.reverse :: scan (some []) [] cs
  | none, acc, c :: cs => scan none (c :: acc) cs
  | none, acc, [] => [.lit acc.reverse]
  | some f, _, '}' :: cs => .field f.reverse :: scan none [] cs
  | some f, _, c :: cs => if c = '{' ∨ c = '[' ∨ c = ':' then [.bad] else scan (some (c :: f)) [] cs
  | some _, _, [] => [.bad]

/-- Split at a character. -/
def splitAt' (d : Char) : List Char → List (List Char)
  | [] => [[]]
  | c :: cs =>
    if c = d then [] :: splitAt' d cs
    else
      match splitAt' d cs with
      | [] => [[c]]
      | w :: ws => (c :: w) :: ws

/-- How the fields without name are numbered so far. -/
inductive Numbering
  | unset
  | auto (next : Nat)
  | manual
  deriving DecidableEq, Repr

/-- A decimal number. -/
def digits (cs : List Char) : Option Nat :=
  if cs ≠ [] ∧ cs.all Char.isDigit = true then some (cs.foldl (fun n c => 10 * n + (c.toNat - 48)) 0) else none

/-- `args[n]` -/
def positional {V : Type} (args : List V) (n : Nat) : Except (PyErr V) V :=
  match args[n]? with
  | some v => .ok v
  | none => .error .index

/-- The argument a field names: by number, or by keyword. -/
def argument {V : Type} (W : World V) (args : List V) (kw : List (String × V)) (num : Numbering)
    (name : List Char) : Except (PyErr V) V × Numbering :=
  if name = [] then
    match num with
    | .unset => (positional args 0, .auto 1)
    | .auto n => (positional args n, .auto (n + 1))
    | .manual => (.error .value, num)
  else
    match digits name with
    | some n =>
      match num with
      | .auto _ => (.error .value, num)
      | _ => (positional args n, .manual)
    | none =>
      match alookup kw (String.ofList name) with
      | some v => (.ok v, num)
      | none => (.error (.key [W.ofStr (String.ofList name)]), num)

/-- `.attr` after the name of a field. -/
def follow {V : Type} (W : World V) (v : V) : List (List Char) → Except (PyErr V) V
  | [] => .ok v
  | a :: as =>
    if a = [] then .error .value
    else
      match W.attr v (String.ofList a) with
      | .error e => .error e
      | .ok w => follow W w as

/-- `!r` or `!s` -/
def convert {V : Type} (W : World V) (v : V) : List (List Char) → Except (PyErr V) String
  | [] => W.str v
  | [['r']] => W.repr v
  | [['s']] => W.str v
  | _ => .error .value

/-- The text of a field. -/
def fieldText {V : Type} (W : World V) (args : List V) (kw : List (String × V)) (num : Numbering)
    (f : List Char) : Except (PyErr V) String × Numbering :=
  match splitAt' '!' f with
  | [] => (.error .value, num)
  | name :: conv =>
    match splitAt' '.' name with
    | [] => (.error .value, num)
    | arg :: attrs =>
      ((argument W args kw num arg).1.bind (fun v => (follow W v attrs).bind (fun w => convert W w conv)),
        (argument W args kw num arg).2)

/-- The text of all the pieces, up to the first error. -/
def render {V : Type} (W : World V) (args : List V) (kw : List (String × V)) :
    Numbering → List Piece → Except (PyErr V) String
  | _, [] => .ok ""
  | _, .bad :: _ => .error .value
  | num, .lit s :: ps =>
    match render W args kw num ps with
    | .error e => .error e
    | .ok t => .ok (String.ofList s ++ t)
  | num, .field f :: ps =>
    match (fieldText W args kw num f).1 with
    | .error e => .error e
    | .ok s =>
      match render W args kw (fieldText W args kw num f).2 ps with
      | .error e => .error e
      | .ok t => .ok (s ++ t)

/-- `message.format(*args, **kwargs)` (exc.py:38). -/
def format {V : Type} (W : World V) (message : String) (args : List V) (kw : List (String × V)) :
    Except (PyErr V) String :=
  render W args kw .unset (scan none [] message.toList)

/-! ## Creating exceptions -/

/-- An exception class of the library: its name and its `message`. -/
structure Cls where
  name : String
  message : String
  deriving DecidableEq, Repr

/-- An exception object (exc.py:34-38): `args`, `kwargs` and `formatted`. -/
structure Obj (V : Type) where
  cls : Cls
  args : List V
  kwargs : List (String × V)
  formatted : String

/-- What is raised: an exception of the library, or another one. -/
inductive Raised (V : Type)
  | obj (o : Obj V)
  | py (e : PyErr V)

/-- `PositionalExceptionFormatError` (exc.py:329-333). -/
def positionalError : Cls :=
  ⟨"PositionalExceptionFormatError", "{typename} expects a positional format string; passed: {received}"⟩

/-- `KeywordExceptionFormatError` (exc.py:272-275). -/
def keywordError : Cls :=
  ⟨"KeywordExceptionFormatError", "{typename} raised without passing {missing}; saw only: {passed}"⟩

/-- `raise cls(…)` -/
def raising {V : Type} : Except (Raised V) (Obj V) → Except (Raised V) (Obj V)
  | .ok o => .error (.obj o)
  | .error r => .error r

/-- `StringFormatException.__init__` (exc.py:34-49); the number stands for python's recursion limit. -/
def init {V : Type} (W : World V) : Nat → Cls → List V → List (String × V) → Except (Raised V) (Obj V)
  | 0, _, _, _ => .error (.py .recursion)
  | n + 1, c, args, kw =>
    match format W c.message args kw with
    | .ok s => .ok ⟨c, args, kw, s⟩
    | .error .index =>
      match W.reprTuple args with
      | .error e => .error (.py e)
      | .ok r => raising (init W n positionalError [] [("typename", W.ofStr c.name), ("received", W.ofStr r)])
    | .error (.key []) => .error (.py .index)
    | .error (.key (a :: _)) =>
      raising (init W n keywordError []
        [("typename", W.ofStr c.name), ("missing", a), ("passed", W.ofStr (W.reprKeys (kw.map (·.1))))])
    | .error e => .error (.py e)

/-- `str(e)` (exc.py:51-52). -/
def Obj.str {V : Type} (o : Obj V) : String := o.formatted

/-- `e[i]` (exc.py:63-64), for an index that is not negative. -/
def Obj.item {V : Type} (o : Obj V) (i : Nat) : Except (PyErr V) V := positional o.args i

/-- Copying and unpickling (`BaseException.__reduce__`): the class is called with `args`, and then the instance dict
(`kwargs` and `formatted`) is copied. -/
def copy {V : Type} (W : World V) (n : Nat) (o : Obj V) : Except (Raised V) (Obj V) :=
  match init W n o.cls o.args [] with
  | .error r => .error r
  | .ok o' => .ok { o' with kwargs := o.kwargs, formatted := o.formatted }

/-! ## The classes of the library -/

/-- A class statement of exc.py. -/
structure ClsDef where
  name : String
  bases : List String
  message : Option String
  deriving DecidableEq, Repr

/-- The classes of exc.py, in the order of the file: name, direct bases, `message` if the class sets one. -/
def classTable : List ClsDef := [
  -- exc.py:27
  ⟨"NormalizeError", ["Exception"], none⟩,
  -- exc.py:31
  ⟨"StringFormatException", ["NormalizeError"], some "(uncustomized exception!)"⟩,
  -- exc.py:78
  ⟨"AttributeValueError", ["StringFormatException", "ValueError"], none⟩,
  -- exc.py:82
  ⟨"CoercionError", ["StringFormatException", "TypeError"], none⟩,
  -- exc.py:86
  ⟨"EmptyAttributeError", ["StringFormatException"], none⟩,
  -- exc.py:90
  ⟨"FeatureNotImplementedException", ["StringFormatException"], none⟩,
  -- exc.py:94
  ⟨"FieldSelectorException", ["StringFormatException"], none⟩,
  -- exc.py:98
  ⟨"PropertyDefinitionError", ["StringFormatException"], none⟩,
  -- exc.py:102
  ⟨"PropertyTypeDefinitionError", ["StringFormatException"], none⟩,
  -- exc.py:106
  ⟨"RecordDefinitionError", ["StringFormatException"], none⟩,
  -- exc.py:110
  ⟨"StringFormatExceptionError", ["StringFormatException"], none⟩,
  -- exc.py:114
  ⟨"SubclassError", ["StringFormatException"], none⟩,
  -- exc.py:118
  ⟨"TypeDefinitionError", ["StringFormatException", "TypeError"], none⟩,
  -- exc.py:122
  ⟨"UsageException", ["StringFormatException"], none⟩,
  -- exc.py:126
  ⟨"VisitorException", ["StringFormatException"], none⟩,
  -- exc.py:131
  ⟨"AmbiguousConstruction", ["UsageException"], some "only init_dict or kwargs may be specified"⟩,
  -- exc.py:135
  ⟨"BadAssignment", ["EmptyAttributeError", "TypeError"], some "Can't assign to the empty placeholder for ({typenames})"⟩,
  -- exc.py:141
  ⟨"CastTypeError", ["UsageException", "TypeError"], some "Cannot cast to {badtype}; not a record type"⟩,
  -- exc.py:145
  ⟨"CoerceError", ["CoercionError"], some "coerce to {valuetype} for {prop.fullname} failed with value {passed!r}: {func} raised: {exc}"⟩,
  -- exc.py:152
  ⟨"CoerceWithoutType", ["PropertyDefinitionError"], some "In order to coerce types, the intended type must be known; pass isa=TYPE or isa=(TYPE, TYPE, ...) to Property()"⟩,
  -- exc.py:159
  ⟨"CollectionCoerceError", ["CoercionError"], some "Cannot interpret {passed!r} as a {colltype.__name__} constructor"⟩,
  -- exc.py:166
  ⟨"CollectionItemCoerceError", ["CoercionError"], some "coerce to {itemtype.__name__} for insertion to {colltype.__name__} failed for value {passed!r}: {exc}"⟩,
  -- exc.py:173
  ⟨"CollectionDefinitionError", ["SubclassError"], some "{property} must be defined in a {coll} subclass"⟩,
  -- exc.py:177
  ⟨"CollectionItemTypeUnsupported", ["FeatureNotImplementedException"], some "Collections with type union itemtype are not supported"⟩,
  -- exc.py:183
  ⟨"CollectionDiffUnsupported", ["FeatureNotImplementedException"], some "Custom collections with simple item type {item_type_name} are not supported for diff"⟩,
  -- exc.py:190
  ⟨"CollRequiredError", ["PropertyDefinitionError"], some "coll is required; specify coll type or use a sub-class like ListProperty"⟩,
  -- exc.py:197
  ⟨"CollTypeMismatch", ["PropertyDefinitionError"], some "collection property 'isa' must match collection type"⟩,
  -- exc.py:203
  ⟨"CompareAsSignatureError", ["PropertyDefinitionError"], some "compare_as functions may take 0 or 1 arguments; {module}.{func} wants {nargs}"⟩,
  -- exc.py:210
  ⟨"DefaultSignatureError", ["PropertyDefinitionError"], some "default functions must have no required arguments (except 'self'); {module}.{func} wants {nargs}"⟩,
  -- exc.py:217
  ⟨"DictOfWhat", ["PropertyDefinitionError"], some "Dict Properties must have a defined item type; pass of= or dict_of= to the declaration"⟩,
  -- exc.py:224
  ⟨"DictPropertyMustDeriveDictCollection", ["PropertyDefinitionError"], some "Dict Property collections must derive DictCollection, and {got} doesn't"⟩,
  -- exc.py:231
  ⟨"DiffOptionsException", ["UsageException"], some "pass options= or DiffOptions constructor arguments; not both"⟩,
  -- exc.py:235
  ⟨"EmptyDefinitionMissing", ["PropertyDefinitionError"], some "'{classname}()' threw {exc_type_name}; define an empty value or function and pass with empty=, or disable empty pseudo-attribute using empty_attr=None; assuming empty=None"⟩,
  -- exc.py:243
  ⟨"EmptySignatureError", ["PropertyDefinitionError"], some "empty functions must have no required arguments (except 'self'); {module}.{func} wants {nargs}"⟩,
  -- exc.py:250
  ⟨"FieldSelectorAttributeError", ["FieldSelectorException", "AttributeError"], some "Could not find property specified by name: {name}"⟩,
  -- exc.py:254
  ⟨"FieldSelectorKeyError", ["FieldSelectorException", "KeyError"], some "Could not find Record specified by index: {key}"⟩,
  -- exc.py:258
  ⟨"IdentityCrisis", ["FeatureNotImplementedException"], some "Can't obtain anything hashable from {val_type_name} instance {val_repr}"⟩,
  -- exc.py:265
  ⟨"KeyHashError", ["StringFormatException"], some "PK for {prop} returned an unhashable value; try setting a primary key in type {typename}"⟩,
  -- exc.py:272
  ⟨"KeywordExceptionFormatError", ["StringFormatExceptionError"], some "{typename} raised without passing {missing}; saw only: {passed}"⟩,
  -- exc.py:278
  ⟨"LazyIsFalse", ["PropertyDefinitionError"], some "To make an eager property, do not pass lazy= to Property()"⟩,
  -- exc.py:282
  ⟨"ListOfWhat", ["PropertyDefinitionError"], some "List Properties must have a defined item type; pass of= or list_of= to the declaration"⟩,
  -- exc.py:289
  ⟨"ListPropertyMustDeriveListCollection", ["PropertyDefinitionError"], some "List Property collections must derive ListCollection, and {got} doesn't"⟩,
  -- exc.py:296
  ⟨"MultipleInheritanceClash", ["SubclassError"], some "Property {prop.name} defined by multiple base classes of {typename}"⟩,
  -- exc.py:303
  ⟨"NotCallable", ["EmptyAttributeError", "TypeError"], some "No types in ({typenames}) support invoking"⟩,
  -- exc.py:309
  ⟨"NotSubscriptable", ["EmptyAttributeError", "TypeError"], some "No types in ({typenames}) support subscripting"⟩,
  -- exc.py:315
  ⟨"NoSuchAttribute", ["EmptyAttributeError", "AttributeError"], some "No types in ({typenames}) have attribute '{attribute}'"⟩,
  -- exc.py:321
  ⟨"PositionalArgumentsProhibited", ["PropertyDefinitionError"], some "Positional arguments to Property constructors will only end in tears.  Convert to keyword argument form."⟩,
  -- exc.py:328
  ⟨"PositionalExceptionFormatError", ["StringFormatExceptionError"], some "{typename} expects a positional format string; passed: {received}"⟩,
  -- exc.py:335
  ⟨"PropertiesNotKnown", ["RecordDefinitionError"], some "{proplist} cannot be interpreted as a sequence of Properties in this class (string names or Property objects); first bad value: {badprop}"⟩,
  -- exc.py:343
  ⟨"PropertyArgumentNotKnown", ["PropertyDefinitionError", "TypeError"], some "No such keyword argument '{badkwarg}' of {proptypename} or any loaded subclass' constructor"⟩,
  -- exc.py:350
  ⟨"PropertyNotKnown", ["UsageException"], some "unknown property {propname} in {typename}"⟩,
  -- exc.py:354
  ⟨"PropertyNotUnique", ["PropertyTypeDefinitionError"], some "Duplicate ListProperties of the same class name defined in the same module.  Both end up being called {key} in my global map.  I'm sorry Dave, I'm afraid I can't let you do that."⟩,
  -- exc.py:362
  ⟨"PropertyRequired", ["AttributeValueError"], some "attribute {prop.fullname} is required"⟩,
  -- exc.py:366
  ⟨"PropertyTypeClash", ["StringFormatException"], some "Both {oldtype} and {newtype} purport to provide the mix of traits: {traitlist} (perhaps a module import error is causing module initialization to happen multiple times?)"⟩,
  -- exc.py:374
  ⟨"PropertyTypeMismatch", ["PropertyDefinitionError"], some "Can't create {selected} property using {base} constructor"⟩,
  -- exc.py:378
  ⟨"PropertyTypeMixNotFound", ["StringFormatException"], some "Failed to find a Property type which provides traits {traitlist}"⟩,
  -- exc.py:384
  ⟨"PropertyTypeMixinNotPossible", ["PropertyTypeMixNotFound"], some "Can't mix together a Property type for traits {traitlist}; none of the types which provide those traits provide: {missing}"⟩,
  -- exc.py:391
  ⟨"PropertyTypeMixinFailure", ["PropertyTypeMixNotFound"], some "Failed to find a Property type which provides traits {traitlist}; but I did make these types: {newtypelist}"⟩,
  -- exc.py:398
  ⟨"ReadOnlyAttributeError", ["StringFormatException", "AttributeError"], some "{attrname} is read-only"⟩,
  -- exc.py:402
  ⟨"JsonConversionError", ["CoercionError"], some "Json conversion failed at {error_fs.path}; {sub_exception}"⟩,
  -- exc.py:408
  ⟨"JsonCollectionCoerceError", ["CoercionError"], some "Cannot interpret {passed!r} as a {colltype.__name__} collection; {colltype.json_coll_name} expected"⟩,
  -- exc.py:415
  ⟨"JsonRecordCoerceError", ["CoercionError"], some "Cannot interpret {passed!r} as a {recordtype.__name__} constructor"⟩,
  -- exc.py:422
  ⟨"ReservedPropertyName", ["RecordDefinitionError"], some "Attribute {attrname} is reserved"⟩,
  -- exc.py:426
  ⟨"SubtypeCoerceError", ["CoercionError"], some "value {passed!r} coerces to {coerced!r} but this is not a valid {subtype.__name__}"⟩,
  -- exc.py:433
  ⟨"SubtypeOfWhat", ["TypeDefinitionError"], some "cannot create a subtype of non-type object {of}"⟩,
  -- exc.py:437
  ⟨"SubtypeNoCoerceFunc", ["CoercionError"], some "value {passed!r} does not pass subtype constraint {subtype.__name__} of {subtype_of.__name__}, and no coerce method defined"⟩,
  -- exc.py:445
  ⟨"ValueCheckError", ["AttributeValueError"], some "value {passed!r} failed value check for {prop.fullname}"⟩,
  -- exc.py:449
  ⟨"ValueCoercionError", ["CoercionError"], some "Coerce function on {prop.fullname} returned a bad coerced value {coerced!r} from input {passed!r}"⟩,
  -- exc.py:456
  ⟨"VisitorOptionsException", ["UsageException"], some "pass options= or Visitor.Options constructor arguments; not both"⟩,
  -- exc.py:462
  ⟨"VisitorPropError", ["VisitorException"], some "failed to get '{prop_name}' from {record_type_name} instance at {fs}; {exception}"⟩,
  -- exc.py:469
  ⟨"VisitorGrokRecordError", ["VisitorException"], some "{val} found where I'm expecting to unpack a {record_type_name} record at {field_selector}"⟩,
  -- exc.py:476
  ⟨"VisitorGrokCollectionError", ["VisitorGrokRecordError"], some "{val} found where I'm expecting to unpack a {record_type_name} collection at {field_selector}"⟩,
  -- exc.py:483
  ⟨"VisitorTooSimple", ["VisitorException"], some "{visitor} mapped over a Collection ({value_type_name}) with properties but the default reduce method clashed with a property; override reduce in your VisitorPattern class to resolve."⟩,
  -- exc.py:491
  ⟨"VisitorUnpackError", ["VisitorException", "TypeError"], some "Can't unpack collection at {context.field_selector}; expected {colltype.__name__}, got {passed!r}"⟩]

/-- The sorts of objects that are passed when an exception is raised. -/
inductive Kind
  /-- a string -/
  | text
  /-- a class -/
  | cls
  /-- a JSON collection class (record/json.py:361, 434) -/
  | jsonColl
  /-- a tuple of classes -/
  | tuple
  /-- a `Property` -/
  | prop
  /-- a `FieldSelector` -/
  | selector
  /-- a `Visitor` -/
  | visitor
  /-- any object -/
  | any
  deriving DecidableEq, Repr

/-- A place where an exception is raised: the class, where it is, and what is passed, by position and by
keyword. -/
structure Site where
  cls : String
  file : String
  line : Nat
  args : List Kind
  kwargs : List (String × Kind)
  deriving DecidableEq, Repr

/-- The places where the library raises one of its own exceptions, and what it passes there. -/
def librarySites : List Site := [
  ⟨"CollectionDefinitionError", "coll.py", 66, [], [("property", .text), ("coll", .text)]⟩,
  ⟨"CollectionDefinitionError", "coll.py", 77, [], [("property", .text), ("coll", .text)]⟩,
  ⟨"CollectionItemCoerceError", "coll.py", 144, [], [("itemtype", .cls), ("colltype", .cls), ("passed", .any), ("exc", .any)]⟩,
  ⟨"CollectionItemCoerceError", "coll.py", 144, [], [("itemtype", .tuple), ("colltype", .cls), ("passed", .any), ("exc", .any)]⟩,
  ⟨"CollectionDefinitionError", "coll.py", 168, [], [("property", .text), ("coll", .text)]⟩,
  ⟨"CollectionDefinitionError", "coll.py", 177, [], [("property", .text), ("coll", .text)]⟩,
  ⟨"CollectionDefinitionError", "coll.py", 186, [], [("property", .text), ("coll", .text)]⟩,
  ⟨"CollectionCoerceError", "coll.py", 220, [], [("passed", .any), ("colltype", .cls)]⟩,
  ⟨"CollectionCoerceError", "coll.py", 317, [], [("passed", .any), ("colltype", .cls)]⟩,
  ⟨"CollectionCoerceError", "coll.py", 337, [], [("passed", .any), ("colltype", .cls)]⟩,
  ⟨"PropertyNotUnique", "coll.py", 493, [], [("key", .any)]⟩,
  ⟨"CollectionItemTypeUnsupported", "diff.py", 622, [], []⟩,
  ⟨"CollectionDiffUnsupported", "diff.py", 630, [], [("coll_type", .cls), ("item_type", .cls), ("item_type_name", .text)]⟩,
  ⟨"DiffOptionsException", "diff.py", 999, [], []⟩,
  ⟨"NoSuchAttribute", "empty.py", 73, [], [("typenames", .text), ("attribute", .text)]⟩,
  ⟨"BadAssignment", "empty.py", 92, [], [("typenames", .text)]⟩,
  ⟨"BadAssignment", "empty.py", 95, [], [("typenames", .text)]⟩,
  ⟨"NotCallable", "empty.py", 103, [], [("typenames", .text)]⟩,
  ⟨"NotSubscriptable", "empty.py", 120, [], [("typenames", .text)]⟩,
  ⟨"IdentityCrisis", "identity.py", 40, [], [("val", .any), ("val_repr", .text), ("val_type", .cls), ("val_type_name", .text)]⟩,
  ⟨"KeyHashError", "identity.py", 104, [], [("prop", .text), ("typename", .text)]⟩,
  ⟨"DefaultSignatureError", "property/__init__.py", 144, [], [("func", .any), ("module", .any), ("nargs", .any)]⟩,
  ⟨"CoerceWithoutType", "property/__init__.py", 155, [], []⟩,
  ⟨"PropertyRequired", "property/__init__.py", 204, [], [("prop", .prop)]⟩,
  ⟨"CoerceError", "property/__init__.py", 213, [], [("prop", .prop), ("passed", .any), ("exc", .any), ("func", .any), ("valuetype", .text)]⟩,
  ⟨"ValueCoercionError", "property/__init__.py", 234, [], [("prop", .prop), ("passed", .any), ("coerced", .any)]⟩,
  ⟨"ValueCheckError", "property/__init__.py", 242, [], [("prop", .prop), ("passed", .any)]⟩,
  ⟨"PropertyRequired", "property/__init__.py", 270, [], [("prop", .prop)]⟩,
  ⟨"LazyIsFalse", "property/__init__.py", 347, [], []⟩,
  ⟨"ReadOnlyAttributeError", "property/__init__.py", 382, [], [("attrname", .text)]⟩,
  ⟨"ReadOnlyAttributeError", "property/__init__.py", 386, [], [("attrname", .text)]⟩,
  ⟨"PropertyRequired", "property/__init__.py", 419, [], [("prop", .prop)]⟩,
  ⟨"NoneMutable", "property/__init__.py", 442, [], [("passed", .any)]⟩,
  ⟨"CompareAsSignatureError", "property/__init__.py", 488, [], [("func", .any), ("module", .any), ("nargs", .any)]⟩,
  ⟨"CollRequiredError", "property/coll.py", 50, [], []⟩,
  ⟨"CollTypeMismatch", "property/coll.py", 54, [], []⟩,
  ⟨"ListOfWhat", "property/coll.py", 78, [], []⟩,
  ⟨"ListPropertyMustDeriveListCollection", "property/coll.py", 81, [], [("got", .text)]⟩,
  ⟨"DictOfWhat", "property/coll.py", 98, [], []⟩,
  ⟨"DictPropertyMustDeriveDictCollection", "property/coll.py", 101, [], [("got", .text)]⟩,
  ⟨"PositionalArgumentsProhibited", "property/meta.py", 54, [], []⟩,
  ⟨"AmbiguousPropertyTraitArg", "property/meta.py", 72, [], [("trait_arg", .text), ("could_be", .text), ("matched_traits", .any)]⟩,
  ⟨"PropertyArgumentNotKnown", "property/meta.py", 80, [], [("badkwarg", .text), ("badkwarg_value", .any), ("proptypename", .text), ("proptype", .cls)]⟩,
  ⟨"PropertyTypeMismatch", "property/meta.py", 108, [], [("selected", .text), ("base", .text)]⟩,
  ⟨"PropertyTypeMixinNotPossible", "property/meta.py", 156, [], [("traitlist", .text), ("missing", .text)]⟩,
  ⟨"PropertyTypeMixinFailure", "property/meta.py", 211, [], [("traitlist", .text), ("newtypelist", .text)]⟩,
  ⟨"PropertyTypeClash", "property/meta.py", 252, [], [("newtype", .text), ("oldtype", .text), ("traitlist", .text)]⟩,
  ⟨"AmbiguousConstruction", "record/__init__.py", 51, [], []⟩,
  ⟨"PropertyNotKnown", "record/__init__.py", 57, [], [("propname", .any), ("recordtype", .cls), ("typename", .text)]⟩,
  ⟨"JsonConversionError", "record/json.py", 58, [], [("error_fs", .selector), ("sub_exception", .any)]⟩,
  ⟨"JsonRecordCoerceError", "record/json.py", 81, [], [("passed", .any), ("recordtype", .cls)]⟩,
  ⟨"CastTypeError", "record/json.py", 159, [], [("badtype", .any)]⟩,
  ⟨"CollectionDefinitionError", "record/json.py", 385, [], [("coll", .text), ("property", .text)]⟩,
  ⟨"JsonCollectionCoerceError", "record/json.py", 394, [], [("passed", .any), ("colltype", .jsonColl)]⟩,
  ⟨"CollectionDefinitionError", "record/json.py", 458, [], [("coll", .text), ("property", .text)]⟩,
  ⟨"JsonCollectionCoerceError", "record/json.py", 467, [], [("passed", .any), ("colltype", .jsonColl)]⟩,
  ⟨"MultipleInheritanceClash", "record/meta.py", 41, [], [("prop", .prop), ("typename", .text)]⟩,
  ⟨"ReservedPropertyName", "record/meta.py", 55, [], [("attrname", .text)]⟩,
  ⟨"PropertiesNotKnown", "record/meta.py", 76, [], [("badprop", .text), ("proplist", .text)]⟩,
  ⟨"FieldSelectorKeyError", "selector.py", 164, [], [("key", .any)]⟩,
  ⟨"FieldSelectorAttributeError", "selector.py", 167, [], [("name", .text)]⟩,
  ⟨"FieldSelectorException", "selector.py", 202, [Kind.text], []⟩,
  ⟨"FieldSelectorException", "selector.py", 210, [Kind.text], []⟩,
  ⟨"FieldSelectorException", "selector.py", 225, [Kind.text], []⟩,
  ⟨"FieldSelectorException", "selector.py", 233, [Kind.text], []⟩,
  ⟨"FieldSelectorException", "selector.py", 290, [Kind.text], []⟩,
  ⟨"FieldSelectorKeyError", "selector.py", 341, [], [("key", .any)]⟩,
  ⟨"FieldSelectorAttributeError", "selector.py", 344, [], [("name", .text)]⟩,
  ⟨"SubtypeOfWhat", "subtype.py", 43, [], [("of", .any)]⟩,
  ⟨"SubtypeCoerceError", "subtype.py", 61, [], [("subtype", .cls), ("subtype_of", .cls), ("passed", .any), ("coerced", .any)]⟩,
  ⟨"SubtypeNoCoerceFunc", "subtype.py", 69, [], [("passed", .any), ("subtype", .cls), ("subtype_of", .cls)]⟩,
  ⟨"VisitorUnpackError", "visitor.py", 233, [], [("passed", .any), ("colltype", .text), ("context", .visitor)]⟩,
  ⟨"VisitorTooSimple", "visitor.py", 351, [], [("fs", .selector), ("value_type_name", .text), ("visitor", .text)]⟩,
  ⟨"VisitorGrokRecordError", "visitor.py", 416, [], [("val", .text), ("record_type", .cls), ("record_type_name", .text), ("field_selector", .selector)]⟩,
  ⟨"VisitorGrokCollectionError", "visitor.py", 434, [], [("val", .text), ("record_type", .cls), ("record_type_name", .text), ("field_selector", .selector)]⟩,
  ⟨"VisitorPropError", "visitor.py", 657, [], [("exception", .any), ("prop", .prop), ("prop_name", .text), ("record_type_name", .text), ("fs", .selector)]⟩]

/-- The bases of python's own exceptions. -/
def builtinBases (c : String) : List String :=
  if c = "KeyError" ∨ c = "IndexError" then ["LookupError"]
  else if c = "RecursionError" then ["RuntimeError"]
  else if c = "Exception" then ["BaseException"]
  else if c = "BaseException" then []
  else ["Exception"]

/-- The direct bases of a class. -/
def basesOf (c : String) : List String :=
  match classTable.find? (fun d => d.name == c) with
  | some d => d.bases
  | none => builtinBases c

/-- The class and all its bases; no class is further than `n` from `BaseException`. -/
def ancestors : Nat → String → List String
  | 0, _ => []
  | n + 1, c => c :: (basesOf c).flatMap (ancestors n)

/-- `issubclass(c, d)`, for `except d` clauses. -/
def isSubclass (c d : String) : Bool := (ancestors 8 c).contains d

/-- `message` of a class, its own or that of its first base that has one. -/
def messageOf : Nat → String → Option String
  | 0, _ => none
  | n + 1, c =>
    match classTable.find? (fun d => d.name == c) with
    | none => none
    | some d => d.message.orElse (fun _ => d.bases.findSome? (messageOf n))

/-- `exc.NAME`: the class of that name in exc.py, if there is one. -/
def findCls (c : String) : Option Cls :=
  (messageOf 8 c).map (fun m => ⟨c, m⟩)

/-- `exc.NAME(*args, **kwargs)`; if the module has no such name, an `AttributeError`. -/
def create {V : Type} (W : World V) (n : Nat) (c : String) (args : List V) (kw : List (String × V)) :
    Except (Raised V) (Obj V) :=
  match findCls c with
  | none => .error (.py .attribute)
  | some c => init W n c args kw

/-- What an attribute read gives: the value of a keyword argument, an attribute that all the exceptions of the class
have, or `AttributeError`. -/
inductive Got (V : Type)
  | value (v : V)
  | own
  | missing

/-- The attributes that all exceptions of a class have, so that `__getattr__` is not called for them (exc.py:31-74);
python's `AttributeError` has `name` and `obj` since 3.10, and all exceptions have `add_note` since 3.11. -/
def ownAttrs (since310 : Bool) (c : String) : List String :=
  ["args", "kwargs", "formatted", "message", "with_traceback"] ++
    (if since310 then "add_note" :: (if isSubclass c "AttributeError" then ["name", "obj"] else []) else [])

/-- `e.attrname` (exc.py:54-61). -/
def Obj.get {V : Type} (since310 : Bool) (o : Obj V) (a : String) : Got V :=
  if (ownAttrs since310 o.cls.name).contains a then .own
  else
    match alookup o.kwargs a with
    | some v => .value v
    | none => .missing

end Normalize.Exn
