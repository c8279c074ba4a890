import Verif.Model.Exceptions
import Mathlib.Data.List.Forall2

/-!
# Specification: exceptions as objects (C102)

Messages are given by their parts; what they say is defined on the parts, not on the text of the format string.
-/

namespace Normalize.Spec

open Normalize.Exn

/-- How a field is shown: as it is, with `!s` or with `!r`. -/
inductive HowShown
  | plain
  | s
  | r
  deriving DecidableEq, Repr

/-- A part of a message. -/
inductive MsgPart
  /-- just text -/
  | text (s : String)
  /-- the keyword argument of that name, then attributes of it -/
  | named (name : String) (attrs : List String) (shows : HowShown)
  /-- the next positional argument, then attributes of it -/
  | next (attrs : List String) (shows : HowShown)
  deriving DecidableEq, Repr

/-- A name that can stand in a field. -/
def GoodName (s : String) : Prop :=
  s.toList ≠ [] ∧ ∀ c : Char, c ∈ s.toList → c ∉ ['{', '}', '[', ':', '.', '!']

/-- The parts of a message that the format string can hold. -/
def MsgPart.Good : MsgPart → Prop
  | .text _ => True
  | .named k as _ => GoodName k ∧ (∃ c : Char, c ∈ k.toList ∧ c.isDigit = false) ∧ ∀ a : String, a ∈ as → GoodName a
  | .next as _ => ∀ a : String, a ∈ as → GoodName a

/-- Text in a format string: braces are doubled. -/
def escaped : List Char → List Char
  | [] => []
  | c :: cs => if c = '{' ∨ c = '}' then c :: c :: escaped cs else c :: escaped cs

/-- `.a.b.c` -/
def dotSource : List String → List Char
  | [] => []
  | a :: as => '.' :: (a.toList ++ dotSource as)

/-- `!s`, `!r` or nothing -/
def HowShown.source : HowShown → List Char
  | .plain => []
  | .s => ['!', 's']
  | .r => ['!', 'r']

/-- How the parts are written in a format string. -/
def msgSource : List MsgPart → List Char
  | [] => []
  | .text s :: ps => escaped s.toList ++ msgSource ps
  | .named k as c :: ps => '{' :: (k.toList ++ dotSource as ++ c.source) ++ '}' :: msgSource ps
  | .next as c :: ps => '{' :: (dotSource as ++ c.source) ++ '}' :: msgSource ps

/-- An attribute of an attribute of … an object. -/
def attrChain {V : Type} (W : World V) : V → List String → Except (PyErr V) V
  | v, [] => .ok v
  | v, a :: as =>
    match W.attr v a with
    | .error e => .error e
    | .ok w => attrChain W w as

/-- An object shown one way or another. -/
def HowShown.apply {V : Type} (W : World V) (v : V) : HowShown → Except (PyErr V) String
  | .plain => W.str v
  | .s => W.str v
  | .r => W.repr v

/-- What a field shows, given the object it starts with. -/
def fieldShows {V : Type} (W : World V) (v : V) (as : List String) (c : HowShown) : Except (PyErr V) String :=
  match attrChain W v as with
  | .error e => .error e
  | .ok w => c.apply W w

/-- First one text, then the other. -/
def andThen {V : Type} (a b : Except (PyErr V) String) : Except (PyErr V) String :=
  match a with
  | .error e => .error e
  | .ok s =>
    match b with
    | .error e => .error e
    | .ok t => .ok (s ++ t)

/-- What a message says: its parts one after the other, up to the first that fails; a missing keyword argument is a
`KeyError` with its name, a missing positional one an `IndexError`.  The number counts the positional ones so far. -/
def msgText {V : Type} (W : World V) (args : List V) (kw : List (String × V)) :
    Nat → List MsgPart → Except (PyErr V) String
  | _, [] => .ok ""
  | n, .text s :: ps => andThen (.ok s) (msgText W args kw n ps)
  | n, .named k as c :: ps =>
    match kw.find? (fun p => p.1 == k) with
    | none => .error (.key [W.ofStr k])
    | some p => andThen (fieldShows W p.2 as c) (msgText W args kw n ps)
  | n, .next as c :: ps =>
    match args[n]? with
    | none => .error .index
    | some v => andThen (fieldShows W v as c) (msgText W args kw (n + 1) ps)

/-- Strings are shown as they are. -/
def PlainStrings {V : Type} (W : World V) : Prop := ∀ s : String, W.str (W.ofStr s) = .ok s

/-! ## What is passed at a raise statement -/

/-- `str` and `repr` of the object do not raise. -/
def Showable {V : Type} (W : World V) (v : V) : Prop :=
  (∃ s : String, W.str v = .ok s) ∧ ∃ s : String, W.repr v = .ok s

/-- The object has the attribute, and the attribute can be shown. -/
def ShowsAttr {V : Type} (W : World V) (v : V) (a : String) : Prop := ∃ w : V, W.attr v a = .ok w ∧ Showable W w

/-- Reading the attribute raises `AttributeError`. -/
def LacksAttr {V : Type} (W : World V) (v : V) (a : String) : Prop := W.attr v a = .error .attribute

/-- What is known of an object of some sort. -/
def IsA {V : Type} (W : World V) : Kind → V → Prop
  | .text, v => Showable W v ∧ LacksAttr W v "__name__"
  | .cls, v => Showable W v ∧ ShowsAttr W v "__name__"
  | .jsonColl, v => Showable W v ∧ ShowsAttr W v "__name__" ∧ ShowsAttr W v "json_coll_name"
  | .tuple, v => Showable W v ∧ LacksAttr W v "__name__"
  | .prop, v => Showable W v ∧ ShowsAttr W v "name" ∧ ShowsAttr W v "fullname"
  | .selector, v => Showable W v ∧ ShowsAttr W v "path"
  | .visitor, v => Showable W v ∧ ShowsAttr W v "field_selector"
  | .any, v => Showable W v

/-- The arguments are of the sorts that the raise statement passes. -/
def Passes {V : Type} (W : World V) (s : Site) (args : List V) (kw : List (String × V)) : Prop :=
  List.Forall₂ (fun (k : Kind) (v : V) => IsA W k v) s.args args ∧
    List.Forall₂ (fun (k : String × Kind) (p : String × V) => p.1 = k.1 ∧ IsA W k.2 p.2) s.kwargs kw

/-- The raise statement raises what it says: an exception of the class that it names, with the arguments given. -/
def RaisesIt {V : Type} (W : World V) (s : Site) (args : List V) (kw : List (String × V)) : Prop :=
  ∀ n : Nat, ∃ o : Obj V, create W (n + 1) s.cls args kw = .ok o ∧ o.cls.name = s.cls ∧ o.args = args ∧ o.kwargs = kw

/-- The raise statements that do not. -/
def BrokenSite (s : Site) : Prop :=
  (s.cls = "VisitorUnpackError" ∧ s.file = "visitor.py" ∧ s.line = 233) ∨
  (s.cls = "CollectionItemCoerceError" ∧ s.file = "coll.py" ∧ s.line = 144 ∧ ("itemtype", Kind.tuple) ∈ s.kwargs) ∨
  (s.cls = "AmbiguousPropertyTraitArg" ∧ s.file = "property/meta.py" ∧ s.line = 72) ∨
  (s.cls = "NoneMutable" ∧ s.file = "property/__init__.py" ∧ s.line = 442)

instance (s : Site) : Decidable (BrokenSite s) := by unfold BrokenSite; infer_instance

/-! ## Classes -/

/-- `issubclass`: the class itself, or a base of it that is a subclass. -/
inductive Derives : String → String → Prop
  | refl (c : String) : Derives c c
  | step {c b d : String} : b ∈ basesOf c → Derives b d → Derives c d

/-- The class of exc.py, or python's, that an exception of the other models stands for. -/
def excName : Exc → Option String
  | .fsAttribute _ => some "FieldSelectorAttributeError"
  | .fsKey _ => some "FieldSelectorKeyError"
  | .fsException => some "FieldSelectorException"
  | .attributeError => some "AttributeError"
  | .keyError => some "KeyError"
  | .indexError => some "IndexError"
  | .typeError => some "TypeError"
  | .valueError => some "ValueError"
  | .assertionError => some "AssertionError"
  | .propertyRequired => some "PropertyRequired"
  | .valueCheck => some "ValueCheckError"
  | .coerceError => some "CoerceError"
  | .valueCoercion => some "ValueCoercionError"
  | .readOnly => some "ReadOnlyAttributeError"
  | .propertyNotKnown => some "PropertyNotKnown"
  | .ambiguousConstruction => some "AmbiguousConstruction"
  | .collectionCoerce => some "CollectionCoerceError"
  | .collectionItemCoerce => some "CollectionItemCoerceError"
  | .subtypeCoerce => some "SubtypeCoerceError"
  | .subtypeNoCoerce => some "SubtypeNoCoerceFunc"
  | .jsonCoerce => some "JsonConversionError"
  | .keyHash => some "KeyHashError"
  | .identityCrisis => some "IdentityCrisis"
  | .propertyNotUnique => some "PropertyNotUnique"
  | .inheritanceClash => some "MultipleInheritanceClash"
  | .reservedName => some "ReservedPropertyName"
  | .propertiesNotKnown => some "PropertiesNotKnown"
  | .collectionItemType => some "CollectionItemTypeUnsupported"
  | .user _ => none

end Normalize.Spec
