import Verif.Model.AutoJson

/-!
# Documents and what stands for them
-/

namespace Normalize.Spec

open Normalize.AutoJson

/-- What can be told of a part of a document without going further down. -/
inductive Shape
  | null
  | bool (b : Bool)
  | int (i : Int)
  | num (n : Nat)
  | str (s : String)
  | arr (length : Nat)
  | obj
  deriving DecidableEq, Repr

def shape : Doc → Shape
  | .null => .null
  | .bool b => .bool b
  | .int i => .int i
  | .num n => .num n
  | .str s => .str s
  | .arr xs => .arr xs.length
  | .obj _ => .obj

/-- What is at the end of a path. -/
def docAt : Doc → List Step → Option Doc
  | d, [] => some d
  | d, s :: p =>
    match stepDoc d s with
    | none => none
    | some d' => docAt d' p

/-- What is at the end of a path of attributes and indices. -/
def objAt (C : Conv) : Obj → List Step → Option Obj
  | v, [] => some v
  | v, s :: p =>
    match stepObj C v s with
    | none => none
    | some v' => objAt C v' p

/-- The documents are the same: at all paths there is the same. -/
def SameDoc (d d' : Doc) : Prop := ∀ p, (docAt d p).map shape = (docAt d' p).map shape

/-- The document has this part somewhere. -/
def Within (x d : Doc) : Prop := ∃ p, docAt d p = some x

/-- Each key occurs once in its JSON object. -/
def KeysOnce (d : Doc) : Prop := ∀ es, Within (.obj es) d → (es.map (·.1)).Nodup

/-- The part is at the end of this path, on which there are JSON objects and lists that start with one. -/
inductive ReachedAt : Doc → List Step → Doc → Prop
  | root (d : Doc) : ReachedAt d [] d
  | key {es : List (String × Doc)} {k : String} {x y : Doc} {p : List Step} :
      alookup es k = some x → ReachedAt x p y → ReachedAt (.obj es) (.key k :: p) y
  | item {x z y : Doc} {xs : List Doc} {i : Nat} {p : List Step} :
      (x :: xs)[i]? = some z → shape x = .obj → ReachedAt z p y → ReachedAt (.arr (x :: xs)) (.idx i :: p) y

/-- The document has this JSON object where it is to become a record. -/
def RecordIn (es : List (String × Doc)) (d : Doc) : Prop := ∃ p, ReachedAt d p (.obj es)

/-- The keys of a JSON object do not clash when they are converted. -/
def KeysApart (C : Conv) (d : Doc) : Prop :=
  ∀ es, RecordIn es d → ∀ k ∈ es.map (·.1), ∀ k' ∈ es.map (·.1), C.keyIn k = C.keyIn k' → k = k'

/-- No key is converted to the name of something that the class has. -/
def KeysFree (C : Conv) (d : Doc) : Prop := ∀ es, RecordIn es d → ∀ k ∈ es.map (·.1), C.clsAttr (C.keyIn k) = false

/-- The keys are those that come out when they are converted back. -/
def KeysBack (C : Conv) (d : Doc) : Prop := ∀ es, RecordIn es d → ∀ k ∈ es.map (·.1), C.keyOut (C.keyIn k) = k

/-- Lists that have a JSON object at their start have nothing else. -/
def ListsPure (d : Doc) : Prop := ∀ p x xs, ReachedAt d p (.arr (x :: xs)) → shape x = .obj → ∀ y ∈ xs, shape y = .obj

/-- No JSON object is the value of a key, unless it is empty. -/
def NoNested (d : Doc) : Prop := ∀ es k es', RecordIn es d → alookup es k = some (.obj es') → es' = []

/-- The object stands for this part of a document: it is that part, or a record with an attribute for each key and no
other, or a collection of as many records. -/
inductive Stands (C : Conv) : Obj → Doc → Prop
  | plain (d : Doc) : Stands C (.plain d) d
  | auto {us : List (String × Obj)} {es : List (String × Doc)} :
      (∀ a, (alookup us a).isSome ↔ ∃ k ∈ es.map (·.1), C.keyIn k = a) → Stands C (.auto us) (.obj es)
  | coll {ys : List Obj} {xs : List Doc} : ys.length = xs.length → Stands C (.coll ys) (.arr xs)

/-- Integers are within the range that is not written as text. -/
def IntsSmall (d : Doc) : Prop := ∀ i, Within (.int i) d → i.natAbs ≤ 2 ^ 50

/-- Going through a set: all of it, in any order. -/
def GoodOrder (C : Conv) : Prop := ∀ l, (C.ord l).Perm l

end Normalize.Spec
