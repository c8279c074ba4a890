/-!
# Exceptions as values

Models `/repo/normalize/exc.py:27-495` together with the python builtin exceptions the library lets
through.  Only the class of the exception (and, for the two selector errors, the component at which the
path broke) is kept; messages are modelled in `Verif/Model/Exceptions.lean`.
-/

namespace Normalize

/-- A selector component as seen by `FieldSelector` (`/repo/normalize/selector.py:54-83`): a string
(attribute name or dict key), an int (collection index) or `None` (the whole collection).
Simplification: python's `bool`, a subclass of `int`, is not a component of its own. -/
inductive Comp
  | str (s : String)
  | int (i : Int)
  | none
  deriving DecidableEq, Repr

/-- Exception classes (`/repo/normalize/exc.py:77-495` plus python builtins).  `user n` stands for any
exception raised by user-supplied code that is none of the others. -/
inductive Exc
  /- `FieldSelectorAttributeError(FieldSelectorException, AttributeError)`, exc.py:250 -/
  | fsAttribute (name : String)
  /- `FieldSelectorKeyError(FieldSelectorException, KeyError)`, exc.py:254 -/
  | fsKey (key : Comp)
  /- bare `FieldSelectorException`, exc.py:94 -/
  | fsException
  | attributeError
  | keyError
  | indexError
  | typeError
  | valueError
  | assertionError
  /- `PropertyRequired(AttributeValueError)`, exc.py:362 -/
  | propertyRequired
  /- `ValueCheckError(AttributeValueError)`, exc.py:445 -/
  | valueCheck
  /- `CoerceError(CoercionError)`, exc.py:145 -/
  | coerceError
  /- `ValueCoercionError(CoercionError)`, exc.py:449 -/
  | valueCoercion
  /- `ReadOnlyAttributeError(StringFormatException, AttributeError)`, exc.py:398 -/
  | readOnly
  /- `PropertyNotKnown(UsageException)`, exc.py:350 -/
  | propertyNotKnown
  /- `AmbiguousConstruction(UsageException)`, exc.py:131 -/
  | ambiguousConstruction
  /- `CollectionCoerceError(CoercionError)`, exc.py:159 -/
  | collectionCoerce
  /- `CollectionItemCoerceError(CoercionError)`, exc.py:166 -/
  | collectionItemCoerce
  /- `SubtypeCoerceError(CoercionError)`, exc.py:426 -/
  | subtypeCoerce
  /- `SubtypeNoCoerceFunc(CoercionError)`, exc.py:437 -/
  | subtypeNoCoerce
  /- `JsonConversionError`, `JsonCollectionCoerceError`, `JsonRecordCoerceError`, exc.py:402-421 -/
  | jsonCoerce
  /- `KeyHashError`, exc.py:265 -/
  | keyHash
  /- `IdentityCrisis`, exc.py:258 -/
  | identityCrisis
  /- `PropertyNotUnique`, exc.py:354 -/
  | propertyNotUnique
  /- `MultipleInheritanceClash`, exc.py:296 -/
  | inheritanceClash
  /- `ReservedPropertyName`, exc.py:422 -/
  | reservedName
  /- `PropertiesNotKnown`, exc.py:335 -/
  | propertiesNotKnown
  /- `CollectionItemTypeUnsupported`, exc.py:177 -/
  | collectionItemType
  | user (n : Nat)
  deriving DecidableEq, Repr

deriving instance DecidableEq for Except

namespace Exc

/-- `except FieldSelectorException` (exc.py:94,250,254). -/
def isFieldSelector : Exc → Bool
  | fsAttribute _ | fsKey _ | fsException => true
  | _ => false

/-- `except AttributeError` (exc.py:250,315,398). -/
def isAttribute : Exc → Bool
  | fsAttribute _ | attributeError | readOnly => true
  | _ => false

/-- `except KeyError` (exc.py:254). -/
def isKey : Exc → Bool
  | fsKey _ | keyError => true
  | _ => false

/-- `except IndexError`. -/
def isIndex : Exc → Bool
  | indexError => true
  | _ => false

/-- `except LookupError` = `KeyError` or `IndexError`. -/
def isLookup (e : Exc) : Bool := e.isKey || e.isIndex

/-- `except CoercionError` (exc.py:82 and its subclasses). -/
def isCoercion : Exc → Bool
  | coerceError | valueCoercion | collectionCoerce | collectionItemCoerce | subtypeCoerce
  | subtypeNoCoerce | jsonCoerce => true
  | _ => false

end Exc

end Normalize
