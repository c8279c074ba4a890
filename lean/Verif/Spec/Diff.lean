import Verif.Model.Diff
import Verif.Spec.Identity
import Verif.Spec.Mfs

/-!
# What a diff entry means
-/

namespace Normalize.Spec
open Normalize.Diff
open Ident (IProp Schema readAttr)

/-- Following the selector `p` from an object leads to `w`: attribute by attribute, item by item. -/
inductive Follow (S : Schema) : Val → FS → Val → Prop
  | here {v} : Follow S v [] v
  | attr {v nm w p u} : readAttr S v nm = some w → Follow S w p u → Follow S v (.str nm :: p) u
  | item {v k w p u} : getItem v k = .ok w → Follow S w p u → Follow S v (k :: p) u

/-- The keys of a dict are distinct. -/
def KeysOK : Val → Prop
  | .dict xs | .dcoll _ xs => (xs.map (·.1)).Nodup
  | _ => True

/-- Every dict inside the object has distinct keys (as python's dicts do). -/
def DictsOK (S : Schema) (v : Val) : Prop := ∀ p w, Follow S v p w → KeysOK w

/-- Normalisation does not set unset slots, and leaves records, collections, lists and dicts alone: it only
changes objects without parts.  (The default methods do so when there is no `compare_as`.) -/
structure PlainSlots {E F : Type} (H : Hooks E F) : Prop where
  unset : ∀ p obj, H.normSlot none p obj = .ok none
  keeps : ∀ v p obj w, H.normSlot (some v) p obj = .ok (some w) → comparable v = true ∨ comparable w = true → w = v

/-- Two values whose normalised forms differ: as slots of a property, or as items of a list or dict. -/
inductive Differ {E F : Type} (H : Hooks E F) (x y : Val) : Prop
  | slot {p oa ob vx vy} : H.normSlot (some x) p oa = .ok (some vx) → H.normSlot (some y) p ob = .ok (some vy) →
      H.itemsEqual vx vy = .ok false → Differ H x y
  | item {ca cb i j} : H.itemId ca x = .ok i → H.itemId cb y = .ok j → i ≠ j → Differ H x y

/-- A family of objects that comparisons do not leave: it contains the normalised values of attributes and the
members of its objects. -/
structure Closed {E F : Type} (H : Hooks E F) (T : Val → Prop) : Prop where
  slot : ∀ x p v, T x → H.normSlot (readAttr H.S x p.name) p (some x) = .ok (some v) → T v
  unset : ∀ p v, H.normSlot none p none = .ok (some v) → T v
  member : ∀ x xs k v, T x → tuplesOf (some x) = .ok xs → (k, v) ∈ xs → T v

/-- The members of collections of records have tuples as identities. -/
def TupIds {E F : Type} (H : Hooks E F) (T : Val → Prop) : Prop :=
  ∀ x c n kd xs k v ty s i, T x → clsOf x = some c → (H.S.cls c).coll = some (kd, .one (.cls n)) →
    tuplesOf (some x) = .ok xs → (k, v) ∈ xs → ty = none ∨ ty = some (.cls n) → H.recId ty s v = .ok i →
    i.isTup = true

/-- Records are of classes that are no collections; typed collections have the container of their class, and a
collection of records has records (or collections) as members. -/
def ItemsOK (S : Schema) : Val → Prop
  | .rcd c _ => (S.cls c).coll = none
  | .lcoll c xs => (∃ it, (S.cls c).coll = some (.list, it)) ∧
      ∀ kd n, (S.cls c).coll = some (kd, .one (.cls n)) → ∀ x ∈ xs, clsOf x ≠ none
  | .dcoll c xs => (∃ it, (S.cls c).coll = some (.dict, it)) ∧
      ∀ kd n, (S.cls c).coll = some (kd, .one (.cls n)) → ∀ x ∈ xs, clsOf x.2 ≠ none
  | _ => True

/-- A real python object: dicts have distinct keys, records have the attributes of their class, and typed
collections members of their type. -/
def Real (S : Schema) (v : Val) : Prop := Ident.WF S v ∧ ∀ w, Ident.Sub w v → ItemsOK S w

/-- The members with their labels, in order, without those whose label is not kept. -/
inductive Labels {α ι : Type} (f : α → Except Exc ι) (keep : ι → Bool) : List α → List (ι × α) → Prop
  | nil : Labels f keep [] []
  | keep {a i as l} : f a = .ok i → keep i = true → Labels f keep as l → Labels f keep (a :: as) ((i, a) :: l)
  | skip {a i as l} : f a = .ok i → keep i = false → Labels f keep as l → Labels f keep (a :: as) l

/-- The items of a simple list or dict, labelled with their normal forms (unset ones are ignored with
`ignore_empty_slots`). -/
def Items {E F : Type} (H : Hooks E F) (o : Opts) (x : Val) (l : List (Option F × (Comp × Val))) : Prop :=
  ∃ xs, tuplesOf (some x) = .ok xs ∧
    Labels (fun kv => H.itemId (some x) kv.2) (fun i => i.isSome || !o.ignoreEmptySlots) xs l

/-- The records of a collection, labelled with their identities (empty ones are ignored with
`ignore_empty_items`). -/
def Members {E F : Type} (H : Hooks E F) (o : Opts) (x : Val) (l : List (Diff.Id E × (Comp × Val))) : Prop :=
  ∃ xs, tuplesOf (some x) = .ok xs ∧
    Labels (fun kv => H.recId none none kv.2) (fun i => !(o.ignoreEmptyItems && idEmpty H i)) xs l

/-- The member with number `m` among those labelled `j`. -/
def nth {ι α : Type} [DecidableEq ι] (l : List (ι × α)) (j : ι) (m : Nat) : Option α :=
  ((l.filter (fun e => decide (e.1 = j))).map (·.2))[m]?

/-- The label of the member with key `k`. -/
def labelAt {ι : Type} (l : List (ι × (Comp × Val))) (k : Comp) : Option ι :=
  (l.find? (fun e => decide (e.2.1 = k))).map (·.1)

/-- The selector is a single key, of a member labelled `j`. -/
def pointsAt {ι : Type} [DecidableEq ι] (l : List (ι × (Comp × Val))) (j : ι) : FS → Bool
  | [k] => decide (labelAt l k = some j)
  | _ => false

/-- The entry says that a member of `base` labelled `j` is not in `other`. -/
def Lost {ι : Type} [DecidableEq ι] (la : List (ι × (Comp × Val))) (j : ι) (d : DInfo) : Bool :=
  decide (d.kind = .removed ∨ d.kind = .modified) && pointsAt la j d.base

/-- The entry says that a member of `other` labelled `j` is not in `base`. -/
def Gained {ι : Type} [DecidableEq ι] (lb : List (ι × (Comp × Val))) (j : ι) (d : DInfo) : Bool :=
  decide (d.kind = .added ∨ d.kind = .modified) && pointsAt lb j d.other

/-- The member with key `k` has no counterpart: it is the `m`-th of its label, and the other side has no `m`-th
member with that label. -/
def Leftover {ι : Type} [DecidableEq ι] (la lb : List (ι × (Comp × Val))) (k : Comp) : Prop :=
  ∃ j m v, nth la j m = some (k, v) ∧ nth lb j m = none

/-- Two identities share something: a part that is not falsy, at the same place. -/
def Shares {E F : Type} (H : Hooks E F) (i j : Diff.Id E) : Prop :=
  ∃ (xs ys : List E) (n : Nat) (e : E), i = .tup xs ∧ j = .tup ys ∧ xs[n]? = some e ∧ ys[n]? = some e ∧ H.falsyPart e = false

/-- How similar two identities are: the number of places where they have the same part, if it is not falsy, less
the number of places where they differ or only one has a part. -/
def similarity {E F : Type} [DecidableEq E] (H : Hooks E F) : Diff.Id E → Diff.Id E → Int
  | .tup xs, .tup ys =>
    ((xs.zip ys).countP (fun p => decide (p.1 = p.2 ∧ H.falsyPart p.1 = false)) : Int) -
      ((xs.zip ys).countP (fun p => decide (p.1 ≠ p.2)) + (xs.length - ys.length) + (ys.length - xs.length) : Nat)
  | _, _ => 0

/-- The entry is of this kind and has this selector in `base`. -/
def inBase (t : DType) (p : FS) (d : DInfo) : Bool := decide (d.kind = t ∧ d.base = p)

/-- The entry is of this kind and has this selector in `other`. -/
def inOther (t : DType) (p : FS) (d : DInfo) : Bool := decide (d.kind = t ∧ d.other = p)

/-- Is the property compared? (Without a filter, all but extraneous ones are.) -/
def Compared (o : Opts) (p : IProp) : Prop := o.extraneous = false → p.extraneous = false

/-- A value without content, which `ignore_empty_slots` takes for unset: a record whose compared properties are
unset or without content once normalised; a simple container whose normalised items are all unset; a
collection of records without content. -/
inductive Blank {E F : Type} (H : Hooks E F) (o : Opts) : Val → Prop
  | record {c s} (va : IProp → Option Val) :
      (∀ p ∈ (H.S.cls c).props, Compared o p →
        H.normSlot (readAttr H.S (.rcd c s) p.name) p (some (.rcd c s)) = .ok (va p)) →
      (∀ p ∈ (H.S.cls c).props, Compared o p → ∀ v, va p = some v → Blank H o v) →
      Blank H o (.rcd c s)
  | simple {x} : (∀ c, clsOf x = some c → ∃ kd t, (H.S.cls c).coll = some (kd, .one (.other t))) →
      Items H o x [] → Blank H o x
  | records {x c kd n la} : clsOf x = some c → (H.S.cls c).coll = some (kd, .one (.cls n)) →
      Members H o x la → (∀ e ∈ la, Blank H o e.2.2) → Blank H o x

/-- Two values agree: both are unset; or one is, and the other has no content and `ignore_empty_slots` is on; or
they are compared by `==` and equal; or they are records of one class whose compared properties agree once
normalised; or simple containers of one type with the same normalised items, as multisets; or collections of
records of one class with the same identities, as multisets, where members with the same identity are of one
type and agree. -/
inductive Agree {E F : Type} [DecidableEq E] (H : Hooks E F) (o : Opts) : Option Val → Option Val → Prop
  | unset : Agree H o none none
  | blankL {x} : o.ignoreEmptySlots = true → Blank H o x → Agree H o (some x) none
  | blankR {x} : o.ignoreEmptySlots = true → Blank H o x → Agree H o none (some x)
  | equal {x y} : (tagOf x = none ∨ tagOf x ≠ tagOf y) → H.itemsEqual x y = .ok true → Agree H o (some x) (some y)
  | record {c s t} (va vb : IProp → Option Val) :
      (∀ p ∈ (H.S.cls c).props, Compared o p →
        H.normSlot (readAttr H.S (.rcd c s) p.name) p (some (.rcd c s)) = .ok (va p)) →
      (∀ p ∈ (H.S.cls c).props, Compared o p →
        H.normSlot (readAttr H.S (.rcd c t) p.name) p (some (.rcd c t)) = .ok (vb p)) →
      (∀ p ∈ (H.S.cls c).props, Compared o p → Agree H o (va p) (vb p)) →
      Agree H o (some (.rcd c s)) (some (.rcd c t))
  | simple {x y la lb} : tagOf x = tagOf y →
      (∀ c, clsOf x = some c → ∃ kd t, (H.S.cls c).coll = some (kd, .one (.other t))) →
      Items H o x la → Items H o y lb → (la.map (·.1)).Perm (lb.map (·.1)) → Agree H o (some x) (some y)
  | records {x y c kd n la lb} : clsOf x = some c → clsOf y = some c →
      (H.S.cls c).coll = some (kd, .one (.cls n)) →
      Members H o x la → Members H o y lb → (la.map (·.1)).Perm (lb.map (·.1)) →
      (∀ j m u w, nth la j m = some u → nth lb j m = some w → tagOf u.2 = tagOf w.2) →
      (∀ j m u w, nth la j m = some u → nth lb j m = some w → Agree H o (some u.2) (some w.2)) →
      Agree H o (some x) (some y)

/-- One of the selectors covers the place `p`, or something inside it. -/
def Touches (qs : List FS) (p : FS) : Prop := ∃ r, ∃ q ∈ qs, Covers q (p ++ r)

/-- A container of values that are no records: a plain list or dict, or a typed collection of such values. -/
inductive SimpleContainer (S : Schema) : Val → Prop
  | list (xs) : SimpleContainer S (.list xs)
  | dict (xs) : SimpleContainer S (.dict xs)
  | lcoll {c xs k t} : (S.cls c).coll = some (k, .one (.other t)) → SimpleContainer S (.lcoll c xs)
  | dcoll {c xs k t} : (S.cls c).coll = some (k, .one (.other t)) → SimpleContainer S (.dcoll c xs)

/-- Two values (or unset slots) at the place `q` that agree as far as the selectors go: they are the same, or
records of one class that agree in every property that the selectors touch. -/
inductive SameFor (S : Schema) (qs : List FS) : FS → Option Val → Option Val → Prop
  | refl {q v} : SameFor S qs q v v
  | rcd {q c s t} : (∀ p ∈ (S.cls c).props, Touches qs (q ++ [.str p.name]) →
      SameFor S qs (q ++ [.str p.name]) (readAttr S (.rcd c s) p.name) (readAttr S (.rcd c t) p.name)) →
      SameFor S qs q (some (.rcd c s)) (some (.rcd c t))

end Normalize.Spec
