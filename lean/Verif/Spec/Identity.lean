import Verif.Model.Identity

/-!
# What equality and identity of records should satisfy

Words used by the statements in `Verif.Props.Identity`.
-/

namespace Normalize.Ident

/-- `==` of objects without parts is an equivalence (NaN is not among them). -/
structure AtomLaws (S : Schema) : Prop where
  refl : ∀ a, S.atomEq a a = true
  symm : ∀ a b, S.atomEq a b = true → S.atomEq b a = true
  trans : ∀ a b c, S.atomEq a b = true → S.atomEq b c = true → S.atomEq a c = true

/-- Python's rule for builtin objects: equal ones have equal hashes; equal ones are alike in being strings,
falsy, or `None`. -/
structure HashLaws (S : Schema) : Prop where
  hash : ∀ a b, S.atomEq a b = true → S.atomHash a = S.atomHash b
  falsy : ∀ a b, S.atomEq a b = true → S.falsy a = S.falsy b
  str : ∀ s b, S.atomEq (.str s) b = true → ∃ t, b = .str t
  str' : ∀ s b, S.atomEq b (.str s) = true → ∃ t, b = .str t
  none : ∀ b, S.atomEq .none b = true → b = .none
  none' : ∀ b, S.atomEq b .none = true → b = .none

/-- `w` is `v` or occurs somewhere inside it. -/
inductive Sub : Val → Val → Prop
  | self (v : Val) : Sub v v
  | list {w x : Val} {xs : List Val} : x ∈ xs → Sub w x → Sub w (.list xs)
  | lcoll {w x : Val} {c : String} {xs : List Val} : x ∈ xs → Sub w x → Sub w (.lcoll c xs)
  | dict {w x : Val} {k : Comp} {xs : List (Comp × Val)} : (k, x) ∈ xs → Sub w x → Sub w (.dict xs)
  | dcoll {w x : Val} {k : Comp} {c : String} {xs : List (Comp × Val)} :
      (k, x) ∈ xs → Sub w x → Sub w (.dcoll c xs)
  | rcd {w x : Val} {k : String} {c : String} {xs : List (String × Val)} :
      (k, x) ∈ xs → Sub w x → Sub w (.rcd c xs)

/-- Keys of a python dict are unique, and a record has only attributes its class declares. -/
def Proper (S : Schema) : Val → Prop
  | .dict xs | .dcoll _ xs => (xs.map (·.1)).Nodup
  | .rcd c xs => (xs.map (·.1)).Nodup ∧ ∀ x ∈ xs, ∃ p ∈ (S.cls c).props, p.name = x.1
  | _ => True

/-- A real python object: proper at every place. -/
def WF (S : Schema) (v : Val) : Prop := ∀ w, Sub w v → Proper S w

/-- Somewhere at corresponding places of `a` and `b` there are objects related by `P`. -/
inductive Faces (P : Val → Val → Prop) : Val → Val → Prop
  | here {a b : Val} : P a b → Faces P a b
  | list {x y : Val} {xs ys : List Val} (i : Nat) :
      xs[i]? = some x → ys[i]? = some y → Faces P x y → Faces P (.list xs) (.list ys)
  | lcoll {x y : Val} {c d : String} {xs ys : List Val} (i : Nat) :
      xs[i]? = some x → ys[i]? = some y → Faces P x y → Faces P (.lcoll c xs) (.lcoll d ys)
  | dict {x y : Val} {xs ys : List (Comp × Val)} (k : Comp) :
      alookup xs k = some x → alookup ys k = some y → Faces P x y → Faces P (.dict xs) (.dict ys)
  | dcoll {x y : Val} {c d : String} {xs ys : List (Comp × Val)} (k : Comp) :
      alookup xs k = some x → alookup ys k = some y → Faces P x y → Faces P (.dcoll c xs) (.dcoll d ys)
  | rcd {x y : Val} {c d : String} {xs ys : List (String × Val)} (k : String) :
      alookup xs k = some x → alookup ys k = some y → Faces P x y → Faces P (.rcd c xs) (.rcd d ys)

/-- A plain list or dict next to a typed collection: comparing them converts the former. -/
def MixedKinds : Val → Val → Prop
  | .list _, .lcoll _ _ | .lcoll _ _, .list _ | .dict _, .dcoll _ _ | .dcoll _ _, .dict _ => True
  | _, _ => False

/-- Two dicts (or dict collections) with their keys in different orders, or two collections of different
classes. -/
def ShapeDiffers : Val → Val → Prop
  | .dict xs, .dict ys => xs.map (·.1) ≠ ys.map (·.1)
  | .dcoll c xs, .dcoll d ys => c ≠ d ∨ xs.map (·.1) ≠ ys.map (·.1)
  | .lcoll c _, .lcoll d _ => c ≠ d
  | _, _ => False

/-- Comparing `a` and `b` never compares a plain container to a typed collection. -/
def Unmixed (a b : Val) : Prop := ¬ Faces MixedKinds a b

/-- Corresponding dicts have their keys in the same order, corresponding collections the same class. -/
def SameShape (a b : Val) : Prop := ¬ Faces ShapeDiffers a b

/-- Two attribute reads agree: both missing, or both present and equal. -/
def SameRead (S : Schema) : Option Val → Option Val → Prop
  | .none, .none => True
  | some x, some y => veq S x y = .ok true
  | _, _ => False

/-- The properties that make up the identity of a class: its primary key, or else the properties that are
not extraneous. -/
def Identifies (S : Schema) (c : String) (p : IProp) : Prop :=
  if (S.cls c).pk = [] then p ∈ (S.cls c).props ∧ p.extraneous = false else p ∈ (S.cls c).pk

/-- `record_id` of `v`, taken as a `t`, looks somewhere at an object of class `d` as if it was of class `c`
(the declared type of a property, an item type, or the object's own class). -/
inductive TakenAs (S : Schema) : Ty → Val → String → String → Prop
  | here {c d : String} {s : List (String × Val)} : TakenAs S (.cls c) (.rcd d s) c d
  | slot {c d e f : String} {s : List (String × Val)} {p : IProp} {w : Val} {t : Ty} :
      Identifies S c p → readAttr S (.rcd d s) p.name = some w → (t ∈ p.types ∨ t = typeOf w) →
      TakenAs S t w e f → TakenAs S (.cls c) (.rcd d s) e f
  | item {c e f : String} {v w : Val} {k : CollKind} {it : ItemTy} {xs : List (Comp × Val)} {i : Comp}
      {t : Ty} :
      (S.cls c).coll = some (k, it) → collTuples S k v = .ok xs → (i, w) ∈ xs →
      (t = itemTy it w ∨ t = typeOf w) → TakenAs S t w e f → TakenAs S (.cls c) v e f
  | self {t : Ty} {v : Val} {e f : String} : TakenAs S (typeOf v) v e f → TakenAs S t v e f

/-- No object is identified by a property that its own class declares extraneous. -/
def NoExtraneousKey (S : Schema) (t : Ty) (v : Val) : Prop :=
  ∀ c d, TakenAs S t v c d → ∀ p q, Identifies S c p → q ∈ (S.cls d).props → q.name = p.name →
    q.extraneous = false

end Normalize.Ident
