import Verif.Model.MfsAccess

/-!
# What filtering, deleting and patching by a set of selectors means
-/

namespace Normalize.Spec

/-- A collection that accepts `v` as it is also accepts `v'` as it is (both have the same type, and
`coerce_value` looks at nothing else). -/
def Interch (E : Env) (v v' : Val) : Prop :=
  ∀ cls, E.coerceItem cls v = .ok v → E.coerceItem cls v' = .ok v'

/-- Constructors make an object of their class with exactly the given attributes (no defaults, nothing
converted), and collections accept items by their type. -/
structure Faithful (C : Ctors) (E : Env) : Prop where
  rcd : ∀ cls kw z, C.rcd cls kw = .ok z → ∃ sl, z = .rcd cls sl ∧ ∀ nm, alookup sl nm = alookup kw nm
  atom : ∀ a z, C.atom a = .ok z → ∃ b, z = .atom b ∧ Interch E (.atom a) (.atom b)
  isaRcd : ∀ cls sl sl', Interch E (.rcd cls sl) (.rcd cls sl')
  isaList : ∀ xs xs', Interch E (.list xs) (.list xs')
  isaDict : ∀ xs xs', Interch E (.dict xs) (.dict xs')
  isaLcoll : ∀ cls xs xs', Interch E (.lcoll cls xs) (.lcoll cls xs')
  isaDcoll : ∀ cls xs xs', Interch E (.dcoll cls xs) (.dcoll cls xs')

/-- No record has an attribute that is `None`, and the items of collections are of their item type. -/
inductive Clean (E : Env) : Val → Prop
  | atom {a} : Clean E (.atom a)
  | list {xs} : (∀ v ∈ xs, Clean E v) → Clean E (.list xs)
  | dict {xs} : (∀ e ∈ xs, Clean E e.2) → Clean E (.dict xs)
  | rcd {cls sl} : (∀ e ∈ sl, e.2 ≠ .none) → (∀ e ∈ sl, Clean E e.2) → Clean E (.rcd cls sl)
  | lcoll {cls xs} : (∀ v ∈ xs, E.coerceItem cls v = .ok v) → (∀ v ∈ xs, Clean E v) →
       Clean E (.lcoll cls xs)
  | dcoll {cls xs} : (∀ e ∈ xs, E.coerceItem cls e.2 = .ok e.2) → (∀ e ∈ xs, Clean E e.2) →
       Clean E (.dcoll cls xs)

/-- `y` is the part of `x` at the component; a wildcard means any item or value. -/
inductive Part (E : Env) : Val → Comp → Val → Prop
  | step {x c y} : c ≠ .none → step E x c = .ok y → Part E x c y
  | list {xs y} : y ∈ xs → Part E (.list xs) .none y
  | lcoll {cls xs y} : y ∈ xs → Part E (.lcoll cls xs) .none y
  | dict {xs k y} : (k, y) ∈ xs → Part E (.dict xs) .none y
  | dcoll {cls xs k y} : (k, y) ∈ xs → Part E (.dcoll cls xs) .none y

/-- The object is list-like. -/
def IsSeq : Val → Prop
  | .list _ | .lcoll _ _ => True
  | _ => False

/-- Where the selectors pick items of a list by index, they pick the first so many. -/
inductive FirstItems (E : Env) : Heads → Val → Prop
  | mk {h x} :
      (IsSeq x → Mfs.hasInt h = true → ∃ k : Nat, ∀ i, (∃ t, (Comp.int i, t) ∈ h) ↔ 0 ≤ i ∧ i < k) →
      (∀ c s y, (c, MTree.node s) ∈ h → Part E x c y → FirstItems E s y) → FirstItems E h x

/-- A component that is a name or a non-negative index. -/
def Direct : Comp → Prop
  | .str _ => True
  | .int i => 0 ≤ i
  | .none => False

/-- The two selectors part ways: neither lies inside the other. -/
def Diverge (f q : FS) : Prop := ∃ p c a d b, f = p ++ c :: a ∧ q = p ++ d :: b ∧ c ≠ d

/-- The last component is a name. -/
def EndsInName (f : FS) : Prop := ∃ r nm, f = r ++ [.str nm]

/-- Classes store values and constructor arguments as they are given. -/
structure Keeps (E : Env) : Prop where
  assign : ∀ cls nm a old v s, E.attr cls nm = some a → a.assign old v = .ok s → s = some v
  item : ∀ cls v u, E.coerceItem cls v = .ok u → u = v
  itemKw : ∀ cls s v z, E.makeItem cls (some (s, v)) = .ok z → step E z (.str s) = .ok v
  attrKw : ∀ cls nm a f s v z, E.attr cls nm = some a → a.make = some f → f (some (s, v)) = .ok z →
    step E z (.str s) = .ok v

end Normalize.Spec
