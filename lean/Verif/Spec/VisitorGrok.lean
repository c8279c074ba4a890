import Verif.Spec.VisitorTrip

/-!
# Which data `cast` should refuse
-/

namespace Normalize.Spec
open Visit
open Ident (IProp Ty ItemTy CollKind)
open Json (Setup)

/-- A list or a dict. -/
def Plural (v : Val) : Prop := (∃ xs, v = .list xs) ∨ ∃ xs, v = .dict xs

/-- A text is given. -/
def IsText (v : Val) : Prop := ∃ s, v = .str s

/-- The members of a collection are given as `w`: under `"values"`, if the collection has properties that are visited
and the dict has that key, or else as the value itself. -/
inductive Contents (visited : Prop) : Val → Val → Prop
  | under {xs w} : visited → alookup xs (.str "values") = some w → Contents visited (.dict xs) w
  | whole {v} : (∀ xs, visited → v = .dict xs → alookup xs (.str "values") = none) → Contents visited v v

/-- The data at `path` cannot be a record of the class `c`: it is no dict, but there are properties to be found. -/
def NoRecord (J : Setup) (o : Opts) (sel : Option (List FS)) (path : FS) (c : String) (x : Slot) : Prop :=
  HasChosen J o sel path c ∧ ∀ xs, x ≠ .val (.dict xs)

/-- The data at `path` cannot be a collection of the class `c`: its contents are no list and no dict. -/
def NoCollection (J : Setup) (o : Opts) (sel : Option (List FS)) (path : FS) (c : String) (x : Slot) : Prop :=
  (J.S.cls c).coll ≠ none ∧ ∀ v w, x = .val v → Contents (HasChosen J o sel path c) v w → ¬ Plural w

/-- Casting `root` to `top` needs `x`, which is found at `path`, to be a `c`. -/
inductive Needs (J : Setup) (o : Opts) (sel : Option (List FS)) (top : String) (root : Val) :
    FS → Slot → String → Prop
  | root : Needs J o sel top root [] (.val root) top
  | key {path xs v c d} {p : IProp} : Needs J o sel top root path (.val (.dict xs)) c → p ∈ (J.S.cls c).props →
      Chosen o sel path p → p.types = [.cls d] → alookup xs (.str p.name) = some v →
      Needs J o sel top root (path ++ [.str p.name]) (.val v) d
  | list {path v ys c k d} {i : Nat} {y} : Needs J o sel top root path (.val v) c →
      (J.S.cls c).coll = some (k, .one (.cls d)) → Contents (HasChosen J o sel path c) v (.list ys) →
      ys[i]? = some y → Needs J o sel top root (path ++ [.int i]) (.val y) d
  | dict {path v ys c d k y} : Needs J o sel top root path (.val v) c →
      (J.S.cls c).coll = some (.dict, .one (.cls d)) → Contents (HasChosen J o sel path c) v (.dict ys) →
      (k, y) ∈ ys → Needs J o sel top root (path ++ [k]) (.val y) d

/-- The exception says that some data is no record or no collection, and there is such data at the place that it
names. -/
inductive Explains (J : Setup) (o : Opts) (sel : Option (List FS)) (root : Val) : VErr → Prop
  | record {fs x c} : Given true root fs x → NoRecord J o sel fs c x → Explains J o sel root (.grokRecord fs)
  | coll {fs x c} : Given true root fs x → NoCollection J o sel fs c x → Explains J o sel root (.grokColl fs)

/-- A `VisitorGrokRecordError` or `VisitorGrokCollectionError`. -/
def IsGrok (e : VErr) : Prop := ∃ fs, e = .grokRecord fs ∨ e = .grokColl fs

/-- What `except TypeError` catches: `TypeError` and its subclasses, the exceptions about coercion and
`JsonConversionError`. -/
inductive IsTypeError : VErr → Prop
  | plain : IsTypeError (.raw .typeError)
  | coercion {e} : e.isCoercion = true → IsTypeError (.raw e)
  | json {fs e} : IsTypeError (.json fs e)

end Normalize.Spec
