import Verif.Model.Mem

/-! What it means for objects to be part of each other, to be unchanged, and to be separate. -/

namespace Normalize.Spec

open Normalize.Mem

/-- What an object refers to: its items, values or attributes. -/
def kids : Obj → List Ref
  | .atom _ => []
  | .list xs | .lcoll _ xs => xs
  | .dict xs | .dcoll _ xs => xs.map (·.2)
  | .rcd _ sl => sl.map (·.2)

/-- The object at `l` is the one referred to, or a part of it, at any depth. -/
inductive PartOf (m : Mem) : Ref → Nat → Prop
  | self {l : Nat} : PartOf m (.ptr l) l
  | kid {l l' : Nat} {o : Obj} {k : Ref} : m[l]? = some o → k ∈ kids o → PartOf m k l' → PartOf m (.ptr l) l'

/-- The object referred to and all its parts exist. -/
def Exist (m : Mem) (r : Ref) : Prop := ∀ l, PartOf m r l → l < m.length

/-- Two objects have no part in common, and neither is part of the other. -/
def Separate (m : Mem) (r s : Ref) : Prop := ∀ l, ¬ (PartOf m r l ∧ PartOf m s l)

/-- The object referred to and all its parts are what they were. -/
def Intact (m m' : Mem) (r : Ref) : Prop := ∀ l, PartOf m r l → m'[l]? = m[l]?

/-- Nothing that existed was changed. -/
def OnlyNew (m m' : Mem) : Prop := ∀ l, l < m.length → m'[l]? = m[l]?

/-- The object referred to and all its parts exist, and did not exist before. -/
def AllNew (m m' : Mem) (r : Ref) : Prop := ∀ l, PartOf m' r l → m.length ≤ l ∧ l < m'.length

/-- A computation which was given `args` and returned `res` changed nothing, and what it returned consists of new
objects and of parts of what it was given. -/
def Makes (m : Mem) (args : List Ref) (m' : Mem) (res : List Ref) : Prop :=
  m.length ≤ m'.length ∧ OnlyNew m m' ∧
    ∀ r ∈ res, ∀ l, PartOf m' r l → (m.length ≤ l ∧ l < m'.length) ∨ ∃ a ∈ args, PartOf m a l

/-- The code of the classes (converters, checks, defaults, constructors) makes objects but changes none, and
knows of no others than those it is given. -/
structure Polite (E : Mem.Env) : Prop where
  coerceItem : ∀ cls m v m' v', Exist m v → E.coerceItem cls m v = .ok (m', v') → Makes m [v] m' [v']
  makeItem : ∀ cls m kw m' v', (∀ e ∈ kw, Exist m e.2) → E.makeItem cls m kw = .ok (m', v') →
    Makes m (kw.toList.map (·.2)) m' [v']
  assign : ∀ cls nm a m s v m' s', E.attr cls nm = some a → (∀ r ∈ s, Exist m r) → Exist m v →
    a.assign m s v = .ok (m', s') → Makes m (v :: s.toList) m' s'.toList
  make : ∀ cls nm a f m kw m' v', E.attr cls nm = some a → a.make = some f → (∀ e ∈ kw, Exist m e.2) →
    f m kw = .ok (m', v') → Makes m (kw.toList.map (·.2)) m' [v']
  rcd : ∀ cls m kw m' v', (∀ e ∈ kw, Exist m e.2) → E.rcd cls m kw = .ok (m', v') →
    Makes m (kw.map (·.2)) m' [v']

/-- A write through a selector. -/
inductive Write
  | put (p : FS) (v : Ref)
  | post (p : FS) (v : Ref)
  | delete (p : FS)

/-- The value written, if any. -/
def Write.value : Write → Ref
  | .put _ v | .post _ v => v
  | .delete _ => .atom .none

/-- The objects after a write to the record at `x`, whether or not it raised an exception. -/
def Write.after (E : Mem.Env) (x : Ref) (m : Mem) : Write → Mem
  | .put p v => (Mem.put E p v x m).2
  | .post p v => (Mem.post E p v x m).2
  | .delete p => (Mem.delete E p x m).2

/-- The objects after a number of writes to the record at `x`. -/
def writes (E : Mem.Env) (x : Ref) (m : Mem) (ws : List Write) : Mem := ws.foldl (fun m w => w.after E x m) m

/-- A function that copies: what it returns is new. -/
def Copier (f : Mem → Ref → Except Exc (Mem × Ref)) : Prop :=
  ∀ m r m' r', Exist m r → f m r = .ok (m', r') → m.length ≤ m'.length ∧ OnlyNew m m' ∧ AllNew m m' r'

end Normalize.Spec
