import Verif.Model.Visitor
import Verif.Spec.Diff
import Verif.Spec.JsonBack

/-!
# What a visit should show
-/

namespace Normalize.Spec
open Visit
open Ident (IProp Ty ItemTy CollKind veq WF)
open Json (Setup JInfo instOf isItem clsOf)

/-- `apply` and `reverse` functions: of a value, a property and the place. -/
abbrev Leaf := Slot → Option IProp → FS → Except VErr Val

/-- The property is visited: it is not extraneous, or those are wanted, and one of the selectors of the filter, if there
is one, covers it or something inside it. -/
def Chosen (o : Opts) (sel : Option (List FS)) (path : FS) (p : IProp) : Prop :=
  (p.extraneous = false ∨ o.extraneous = true) ∧ ∀ qs, sel = some qs → Touches qs (path ++ [.str p.name])

/-- The result is not one to be ignored. -/
def Kept (o : Opts) (w : Val) : Prop :=
  ¬ (w = .none ∧ o.ignoreNone = true) ∧ ¬ (w = .str "" ∧ o.ignoreEmpty = true)

instance (o : Opts) (w : Val) : Decidable (Kept o w) := by unfold Kept; infer_instance

/-- The instance dict holds no value for the property. -/
def NoSlot (x : Slot) (p : IProp) : Prop :=
  x ≠ .val .none ∧ ∀ c s v, x = .val (.rcd c s) → alookup s p.name ≠ some v

/-- What reading a property gives. -/
inductive Holds (self : IProp → Val) : Slot → IProp → Slot → Prop
  | set {c s p v} : alookup s p.name = some v → Holds self (.val (.rcd c s)) p (.val v)
  /-- an unset `V1Property` reads as something -/
  | v1 {x p a} : NoSlot x p → p.unset = some a → Holds self x p (.val (.atom a))
  | unset {x p} : NoSlot x p → p.unset = none → Holds self x p (.miss .attributeError)
  /-- reading a descriptor without an instance gives the property itself -/
  | none {p} : Holds self (.val .none) p (.val (self p))

/-- Empty slots are visited only on request. -/
def Present (o : Opts) : Slot → Prop
  | .val _ => True
  | .miss _ => o.emptySlots = true

/-- `ys` is `xs` with the indices. -/
def Numbered (xs : List Val) (ys : List (Comp × Val)) : Prop :=
  ∀ i : Nat, ys[i]? = (xs[i]?).map (fun x => (Comp.int i, x))

/-- The keys and members of a collection. -/
inductive MembersOf : CollKind → Slot → List (Comp × Val) → Prop
  | lcoll {k c xs ys} : Numbered xs ys → MembersOf k (.val (.lcoll c xs)) ys
  | dcoll {k c xs} : MembersOf k (.val (.dcoll c xs)) xs
  | list {xs ys} : Numbered xs ys → MembersOf .list (.val (.list xs)) ys
  | dict {xs} : MembersOf .dict (.val (.dict xs)) xs

/-- The dict has a key for exactly the properties that are visited, present and mapped to a value that is kept;
`g p` is the slot and `f p` what it is mapped to. -/
def Emits (J : Setup) (o : Opts) (sel : Option (List FS)) (path : FS) (c : String) (g : IProp → Slot) (f : IProp → Val)
    (d : List (Comp × Val)) : Prop :=
  (∀ p ∈ (J.S.cls c).props, ∀ w, alookup d (.str p.name) = some w ↔
    Chosen o sel path p ∧ Present o (g p) ∧ Kept o (f p) ∧ w = f p) ∧
  ∀ x ∈ d, ∃ p ∈ (J.S.cls c).props, x.1 = .str p.name

/-- The members that are kept, in order; `g y` is what the member `y` is mapped to. -/
def Packs (o : Opts) (k : CollKind) (xs : List (Comp × Val)) (g : Comp × Val → Val) (r : Val) : Prop :=
  match k with
  | .list => r = .list ((xs.map g).filter (fun w => Kept o w))
  | .dict => r = .dict ((xs.map (fun y => (y.1, g y))).filter (fun y => Kept o y.2))

/-- The slot holds an instance of the class. -/
def IsOf (J : Setup) (x : Slot) (c : String) : Prop := ∃ v, x = .val v ∧ instOf J (.cls c) v = true

mutual
/-- Visiting `x` as a `t` at the place `path` shows `r`. -/
inductive Shows (J : Setup) (self : IProp → Val) (o : Opts) (sel : Option (List FS)) (ap : Leaf) :
    FS → Slot → Ty → Val → Prop
  | leaf {path x n w} : ap x none path = .ok w → Shows J self o sel ap path x (.other n) w
  | record {path x c g f d} : (J.S.cls c).coll = none →
      (∀ p ∈ (J.S.cls c).props, Holds self x p (g p)) →
      (∀ p ∈ (J.S.cls c).props, Chosen o sel path p → Present o (g p) →
        ShowsSlot J self o sel ap path (g p) p (f p)) →
      Emits J o sel path c g f d → Shows J self o sel ap path x (.cls c) (.dict d)
  /-- a collection of which no property is visited -/
  | items {path x c k it t xs h r} : (J.S.cls c).coll = some (k, it) → (xs ≠ [] → it = .one t) → MembersOf k x xs →
      (∀ y ∈ xs, Shows J self o sel ap (path ++ [y.1]) (.val y.2) t (h y)) →
      (∀ p ∈ (J.S.cls c).props, ¬ Chosen o sel path p) →
      Packs o k xs h r → Shows J self o sel ap path x (.cls c) r
  /-- a collection with properties -/
  | both {path x c k it t xs h r g f d d'} : (J.S.cls c).coll = some (k, it) → (xs ≠ [] → it = .one t) →
      MembersOf k x xs →
      (∀ y ∈ xs, Shows J self o sel ap (path ++ [y.1]) (.val y.2) t (h y)) →
      (∃ p ∈ (J.S.cls c).props, Chosen o sel path p) →
      Packs o k xs h r →
      (∀ p ∈ (J.S.cls c).props, Holds self x p (g p)) →
      (∀ p ∈ (J.S.cls c).props, Chosen o sel path p → Present o (g p) →
        ShowsSlot J self o sel ap path (g p) p (f p)) →
      Emits J o sel path c g f d →
      (∀ k, alookup d' k = if k = .str "values" then some r else alookup d k) →
      Shows J self o sel ap path x (.cls c) (.dict d')
/-- Visiting the slot `x` of the property `p` of the record at `path` shows `w`. -/
inductive ShowsSlot (J : Setup) (self : IProp → Val) (o : Opts) (sel : Option (List FS)) (ap : Leaf) :
    FS → Slot → IProp → Val → Prop
  | typed {path x p c w} : p.types = [.cls c] → Shows J self o sel ap (path ++ [.str p.name]) x (.cls c) w →
      ShowsSlot J self o sel ap path x p w
  /-- a record in a slot without a type -/
  | untyped {path v p c w} : p.types = [] → clsOf v = some c →
      Shows J self o sel ap (path ++ [.str p.name]) (.val v) (.cls c) w → ShowsSlot J self o sel ap path (.val v) p w
  /-- another value -/
  | leaf {path x p w} : (p.types = [] ∧ ∀ v, x = .val v → clsOf v = none) ∨ (∃ n, p.types = [.other n]) →
      ap x (some p) (path ++ [.str p.name]) = .ok w → ShowsSlot J self o sel ap path x p w
  /-- several types: one of the record types is taken, one that matches if there is one -/
  | union {path x p c w} : 2 ≤ p.types.length → .cls c ∈ p.types →
      (IsOf J x c ∨ ∀ d, .cls d ∈ p.types → ¬ IsOf J x d) →
      Shows J self o sel ap (path ++ [.str p.name]) x (.cls c) w → ShowsSlot J self o sel ap path x p w
  /-- several types: the value is of none of the record types -/
  | unionLeaf {path x p w} : 2 ≤ p.types.length → (∀ d, .cls d ∈ p.types → ¬ IsOf J x d) →
      ap x (some p) (path ++ [.str p.name]) = .ok w → ShowsSlot J self o sel ap path x p w
  /-- several types: the visits as the types that match raise `TypeError`, and the value counts as `None` -/
  | unionLost {path x p c} : 2 ≤ p.types.length → .cls c ∈ p.types → IsOf J x c →
      ShowsSlot J self o sel ap path x p .none
end

/-- The places of a visit of `root`: `x` is found at `path` by reading properties and members. -/
inductive Visited (self : IProp → Val) (root : Val) : FS → Slot → Prop
  | root : Visited self root [] (.val root)
  | slot {path x p y} : Visited self root path x → Holds self x p y → Visited self root (path ++ [.str p.name]) y
  | item {path x k xs y} : Visited self root path x → MembersOf k x xs → y ∈ xs →
      Visited self root (path ++ [y.1]) (.val y.2)

/-- `p` is the property at `path`. -/
def Names (path : FS) (p : IProp) : Prop := path.getLast? = some (.str p.name)

/-- The places of a `cast` of the data `root`; with `z`, the members of a dict that is read into a list all
have the index 0. -/
inductive Given (z : Bool) (root : Val) : FS → Slot → Prop
  | root : Given z root [] (.val root)
  | key {path xs v} {p : IProp} : Given z root path (.val (.dict xs)) → alookup xs (.str p.name) = some v →
      Given z root (path ++ [.str p.name]) (.val v)
  | missing {path xs} {p : IProp} : Given z root path (.val (.dict xs)) → alookup xs (.str p.name) = none →
      Given z root (path ++ [.str p.name]) (.miss .keyError)
  | list {path xs} {i : Nat} {v} : Given z root path (.val (.list xs)) → xs[i]? = some v →
      Given z root (path ++ [.int i]) (.val v)
  | dict {path xs k v} : Given z root path (.val (.dict xs)) → (k, v) ∈ xs → Given z root (path ++ [k]) (.val v)
  /-- the members of a collection with properties -/
  | values {path xs ys k v} : Given z root path (.val (.dict xs)) → alookup xs (.str "values") = some (.dict ys) →
      (k, v) ∈ ys → Given z root (path ++ [k]) (.val v)
  | valuesList {path xs ys} {i : Nat} {v} : Given z root path (.val (.dict xs)) →
      alookup xs (.str "values") = some (.list ys) → ys[i]? = some v → Given z root (path ++ [.int i]) (.val v)
  | zero {path xs k v} : z = true → Given z root path (.val (.dict xs)) → (k, v) ∈ xs →
      Given z root (path ++ [.int 0]) (.val v)
  | valuesZero {path xs ys k v} : z = true → Given z root path (.val (.dict xs)) →
      alookup xs (.str "values") = some (.dict ys) → (k, v) ∈ ys → Given z root (path ++ [.int 0]) (.val v)

end Normalize.Spec
