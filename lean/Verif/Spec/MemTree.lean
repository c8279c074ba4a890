import Verif.Spec.Mem

/-! What it means for objects in memory to look like a tree, and not to share parts. -/

namespace Normalize.Spec

open Normalize.Mem (Mem Ref Obj)

mutual
/-- The object referred to looks like the tree; `ls` lists the objects it consists of, once for each way to get
to them. -/
def Owns (m : Mem) : Val → Ref → List Nat → Prop
  | .atom a, r, ls => r = .atom a ∧ ls = []
  | .list ts, r, ls => ∃ l rs ls', r = .ptr l ∧ m[l]? = some (.list rs) ∧ OwnsL m ts rs ls' ∧ ls = l :: ls'
  | .lcoll cls ts, r, ls =>
    ∃ l rs ls', r = .ptr l ∧ m[l]? = some (.lcoll cls rs) ∧ OwnsL m ts rs ls' ∧ ls = l :: ls'
  | .dict ts, r, ls => ∃ l rs ls', r = .ptr l ∧ m[l]? = some (.dict rs) ∧ OwnsC m ts rs ls' ∧ ls = l :: ls'
  | .dcoll cls ts, r, ls =>
    ∃ l rs ls', r = .ptr l ∧ m[l]? = some (.dcoll cls rs) ∧ OwnsC m ts rs ls' ∧ ls = l :: ls'
  | .rcd cls ts, r, ls =>
    ∃ l rs ls', r = .ptr l ∧ m[l]? = some (.rcd cls rs) ∧ OwnsS m ts rs ls' ∧ ls = l :: ls'
/-- Items. -/
def OwnsL (m : Mem) : List Val → List Ref → List Nat → Prop
  | [], rs, ls => rs = [] ∧ ls = []
  | t :: ts, rs, ls => ∃ r rs' l1 l2, rs = r :: rs' ∧ Owns m t r l1 ∧ OwnsL m ts rs' l2 ∧ ls = l1 ++ l2
/-- Keys and values. -/
def OwnsC (m : Mem) : List (Comp × Val) → List (Comp × Ref) → List Nat → Prop
  | [], rs, ls => rs = [] ∧ ls = []
  | (k, t) :: ts, rs, ls =>
    ∃ r rs' l1 l2, rs = (k, r) :: rs' ∧ Owns m t r l1 ∧ OwnsC m ts rs' l2 ∧ ls = l1 ++ l2
/-- Attributes. -/
def OwnsS (m : Mem) : List (String × Val) → List (String × Ref) → List Nat → Prop
  | [], rs, ls => rs = [] ∧ ls = []
  | (k, t) :: ts, rs, ls =>
    ∃ r rs' l1 l2, rs = (k, r) :: rs' ∧ Owns m t r l1 ∧ OwnsS m ts rs' l2 ∧ ls = l1 ++ l2
end

/-- The object referred to looks like the tree. -/
def Looks (m : Mem) (t : Val) (r : Ref) : Prop := ∃ ls, Owns m t r ls

/-- The object referred to looks like the tree, and none of its parts is shared within it. -/
def Unshared (m : Mem) (t : Val) (r : Ref) : Prop := ∃ ls, Owns m t r ls ∧ ls.Nodup

/-- The same outcome: the same exception, or objects that look like the tree. -/
def Alike : Except Exc Val → Except Exc (Mem × Ref) → Prop
  | .error e, q => q = .error e
  | .ok t, q => ∃ m' r, q = .ok (m', r) ∧ Looks m' t r

/-- What a slot holds. -/
def LooksO (m : Mem) : Option Val → Option Ref → Prop
  | some t, some r => Looks m t r
  | none, none => True
  | _, _ => False

/-- The same outcome of an assignment. -/
def AlikeO : Except Exc (Option Val) → Except Exc (Mem × Option Ref) → Prop
  | .error e, q => q = .error e
  | .ok t, q => ∃ m' r, q = .ok (m', r) ∧ LooksO m' t r

/-- The classes do the same to objects in memory as to trees. -/
structure Follows (E : Normalize.Env) (F : Mem.Env) : Prop where
  attr : ∀ cls nm, (E.attr cls nm).isSome = (F.attr cls nm).isSome
  unset : ∀ cls nm a b, E.attr cls nm = some a → F.attr cls nm = some b → a.unset = b.unset
  assign : ∀ cls nm a b, E.attr cls nm = some a → F.attr cls nm = some b → ∀ m s s' t v, LooksO m s s' →
    Looks m t v → AlikeO (a.assign s t) (b.assign m s' v)
  remove : ∀ cls nm a b, E.attr cls nm = some a → F.attr cls nm = some b → ∀ m s s', LooksO m s s' →
    a.remove s = b.remove m s'
  coerceItem : ∀ cls m t v, Looks m t v → Alike (E.coerceItem cls t) (F.coerceItem cls m v)

end Normalize.Spec
