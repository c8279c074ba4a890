import Verif.Spec.Observe

/-!
# What operations on records with lazy attributes should find
-/

namespace Normalize.Observe

variable {V : Type} [DecidableEq V] (S : Setup V) (h : Heap V)

/-- Reading the attribute gives this value, or says that it is not set. -/
inductive Attr (i : Nat) (nm : String) : Option V → Prop
  | set {v} : Finds S 0 h (.attr i nm) (.ok (.val v)) → Attr i nm (some v)
  | unset {e} : Finds S 0 h (.attr i nm) (.error e) → e.isAttribute = true → Attr i nm none

mutual
/-- Are the values equal?  Records are if they are of one type and their attributes are equal, but for extraneous
ones. -/
inductive EqualTo : V → V → Bool → Prop
  | plain {a b} : (S.asRec a = none ∨ S.asRec b = none) → EqualTo a b (S.w.eq a b)
  | types {a b i j} : S.asRec a = some i → S.asRec b = some j → S.typ i ≠ S.typ j → EqualTo a b false
  | same {a b i j} : S.asRec a = some i → S.asRec b = some j → S.typ i = S.typ j →
      (∀ p ∈ S.names (S.typ i), S.extraneous (S.typ i) p = false → EqualAt i j p true) → EqualTo a b true
  | differ {a b i j p} : S.asRec a = some i → S.asRec b = some j → S.typ i = S.typ j →
      p ∈ S.names (S.typ i) → S.extraneous (S.typ i) p = false → EqualAt i j p false → EqualTo a b false
/-- Do the records agree in the attribute? -/
inductive EqualAt : Nat → Nat → String → Bool → Prop
  | values {i j p a b x} : Attr S h i p (some a) → Attr S h j p (some b) → EqualTo a b x → EqualAt i j p x
  | neither {i j p} : Attr S h i p none → Attr S h j p none → EqualAt i j p true
  | left {i j p a} : Attr S h i p (some a) → Attr S h j p none → EqualAt i j p false
  | right {i j p b} : Attr S h i p none → Attr S h j p (some b) → EqualAt i j p false
end

/-- What an attribute counts as in a key. -/
inductive KeyAttr (i : Nat) (p : String) : V → Prop
  | set {v} : Attr S h i p (some v) → KeyAttr i p v
  | unset : Attr S h i p none → KeyAttr i p S.w.none

mutual
/-- The key of a value: a record's is made of the keys of the attributes that are declared as its key. -/
inductive KeyOf : V → Out V → Prop
  | plain {a} : S.asRec a = none → KeyOf a (.val a)
  | record {a i ks} : S.asRec a = some i → KeysOf i (S.keyNames (S.typ i)) ks → KeyOf a (.node ks)
/-- The keys of attributes. -/
inductive KeysOf : Nat → List String → List (String × Out V) → Prop
  | nil {i} : KeysOf i [] []
  | cons {i p ps v k ks} : KeyAttr S h i p v → KeyOf v k → KeysOf i ps ks → KeysOf i (p :: ps) ((p, k) :: ks)
end

/-- The attribute is not written: it is extraneous, or its slot is empty, or it has no JSON name, or reading it says that
it is not set. -/
inductive NotWritten (x : Bool) (i : Nat) (p : String) : Prop
  | extraneous : x = false → S.extraneous (S.typ i) p = true → NotWritten x i p
  | empty : ¬ IsLazy S i p → (h i).slots p = none → NotWritten x i p
  | nameless : S.jsonName (S.typ i) p = none → NotWritten x i p
  | unset : Attr S h i p none → NotWritten x i p
  /-- the conversion says that something is not set -/
  | silent {v e} : Attr S h i p (some v) → S.toJson (S.typ i) p v = .error e → e.isAttribute = true →
      NotWritten x i p

mutual
/-- The JSON form of a value. -/
inductive JsonOf (x : Bool) : V → Out V → Prop
  | plain {a} : S.asRec a = none → JsonOf x a (.val a)
  | record {a i xs} : S.asRec a = some i → JsonsOf x i (S.names (S.typ i)) xs → JsonOf x a (.node xs)
/-- The JSON form of attributes. -/
inductive JsonsOf (x : Bool) : Nat → List String → List (String × Out V) → Prop
  | nil {i} : JsonsOf x i [] []
  | skip {i p ps xs} : NotWritten S h x i p → JsonsOf x i ps xs → JsonsOf x i (p :: ps) xs
  /-- an `AttributeError` from inside the record in the attribute also means that it is not written -/
  | lost {i p ps xs v j d e} : Attr S h i p (some v) → S.asRec v = some j → Finds S d h (.json x v) (.error e) →
      e.isAttribute = true → JsonsOf x i ps xs → JsonsOf x i (p :: ps) xs
  | record {i p ps k v j u xs} : (x = true ∨ S.extraneous (S.typ i) p = false) → S.jsonName (S.typ i) p = some k →
      Attr S h i p (some v) → S.asRec v = some j → JsonOf x v u → JsonsOf x i ps xs →
      JsonsOf x i (p :: ps) ((k, u) :: xs)
  | value {i p ps k v u xs} : (x = true ∨ S.extraneous (S.typ i) p = false) → S.jsonName (S.typ i) p = some k →
      Attr S h i p (some v) → S.asRec v = none → S.toJson (S.typ i) p v = .ok u → JsonsOf x i ps xs →
      JsonsOf x i (p :: ps) ((k, .val u) :: xs)
end

/-- What is compared for an attribute: what `compare_as` makes of its value, or the value, normalised. -/
inductive Compared (i : Nat) (p : String) : Option V → Prop
  | unset : Attr S h i p none → Compared i p none
  | value {v} : Attr S h i p (some v) → S.compareAs (S.typ i) p = none → Compared i p (S.norm v)
  | other {v f u} : Attr S h i p (some v) → S.compareAs (S.typ i) p = some f →
      (∃ n h', run S n (f i v) h = some (.ok u, h')) → Compared i p (S.norm u)

/-- Something is reported for the attribute. -/
def Reported (p kind : String) : List (String × Out V) := [(p, .node [(kind, .flag true)])]

mutual
/-- The differences of two records. -/
inductive DiffOf : V → V → Out V → Prop
  | record {a b i j xs} : S.asRec a = some i → S.asRec b = some j → S.typ i = S.typ j →
      DiffsOf i j (S.diffNames (S.typ i)) xs → DiffOf a b (.node xs)
/-- The differences of attributes. -/
inductive DiffsOf : Nat → Nat → List String → List (String × Out V) → Prop
  | nil {i j} : DiffsOf i j [] []
  | cons {i j p ps x y xs ys} : Compared S h i p x → Compared S h j p y → DiffAt p x y xs → DiffsOf i j ps ys →
      DiffsOf i j (p :: ps) (xs ++ ys)
/-- The differences of what is compared for one attribute. -/
inductive DiffAt : String → Option V → Option V → List (String × Out V) → Prop
  | neither {p} : DiffAt p none none []
  | added {p b} : DiffAt p none (some b) (Reported p "ADDED")
  | removed {p a} : DiffAt p (some a) none (Reported p "REMOVED")
  | equal {p a b} : (S.asRec a = none ∨ S.asRec b = none) → S.w.eq a b = true → DiffAt p (some a) (some b) []
  | modified {p a b} : (S.asRec a = none ∨ S.asRec b = none) → S.w.eq a b = false →
      DiffAt p (some a) (some b) (Reported p "MODIFIED")
  | types {p a b i j} : S.asRec a = some i → S.asRec b = some j → S.typ i ≠ S.typ j →
      DiffAt p (some a) (some b) (Reported p "MODIFIED")
  | inside {p a b x} : DiffOf a b x → DiffAt p (some a) (some b) [(p, x)]
end

mutual
/-- What a visit makes of a value. -/
inductive VisitOf : V → Out V → Prop
  | plain {a} : S.asRec a = none → VisitOf a (.val a)
  | record {a i xs} : S.asRec a = some i → VisitsOf i (S.names (S.typ i)) xs → VisitOf a (.node xs)
/-- What a visit makes of attributes. -/
inductive VisitsOf : Nat → List String → List (String × Out V) → Prop
  | nil {i} : VisitsOf i [] []
  | extraneous {i p ps xs} : S.extraneous (S.typ i) p = true → VisitsOf i ps xs → VisitsOf i (p :: ps) xs
  | record {i p ps v j u xs} : S.extraneous (S.typ i) p = false → Attr S h i p (some v) → S.asRec v = some j →
      VisitOf v u → VisitsOf i ps xs → VisitsOf i (p :: ps) ((p, u) :: xs)
  | value {i p ps v u xs} : S.extraneous (S.typ i) p = false → Attr S h i p (some v) → S.asRec v = none →
      S.apply (S.typ i) p (.ok v) = .ok u → VisitsOf i ps xs → VisitsOf i (p :: ps) ((p, .val u) :: xs)
  | skipped {i p ps e xs} : S.extraneous (S.typ i) p = false → Finds S 0 h (.attr i p) (.error e) →
      (e.isAttribute = true ∨ e.isKey = true) → S.applyEmpty = false → VisitsOf i ps xs → VisitsOf i (p :: ps) xs
  | empty {i p ps e u xs} : S.extraneous (S.typ i) p = false → Finds S 0 h (.attr i p) (.error e) →
      (e.isAttribute = true ∨ e.isKey = true) → S.applyEmpty = true → S.apply (S.typ i) p (.error e) = .ok u →
      VisitsOf i ps xs → VisitsOf i (p :: ps) ((p, .val u) :: xs)
end

/-- What the operation should find. -/
inductive Expected : Look V → Out V → Prop
  | attr {i nm v} : Attr S h i nm (some v) → Expected (.attr i nm) (.val v)
  | eq {a b x} : EqualTo S h a b x → Expected (.eq a b) (.flag x)
  | key {a k} : KeyOf S h a k → Expected (.key a) k
  | json {x a u} : JsonOf S h x a u → Expected (.json x a) u
  | diff {a b u} : DiffOf S h a b u → Expected (.diff a b) u
  | visit {a u} : VisitOf S h a u → Expected (.visit a) u

/-- What an attribute reads as. -/
inductive ReadsAs (i : Nat) (nm : String) : Except Exc V → Prop
  | stored {v} : (h i).slots nm = some v → ReadsAs i nm (.ok v)
  | unknown : (h i).slots nm = none → (S.clsOf i).find nm = none → ReadsAs i nm (.error .attributeError)
  /-- a `V1Property` that is not set -/
  | v1 {p} : (h i).slots nm = none → (S.clsOf i).find nm = some p → p.kind = .v1 → p.v1none = none →
      ReadsAs i nm (.ok S.w.none)
  | v1none {p v} : (h i).slots nm = none → (S.clsOf i).find nm = some p → p.kind = .v1 → p.v1none = some v →
      ReadsAs i nm (.ok v)
  | empty {p} : (h i).slots nm = none → (S.clsOf i).find nm = some p → p.kind ≠ .v1 → p.kind.isLazy = false →
      ReadsAs i nm (.error .attributeError)
  /-- the default of a lazy property, checked -/
  | lazy {p f v} : (h i).slots nm = none → (S.clsOf i).find nm = some p → p.kind.isLazy = true →
      S.dflt (S.typ i) nm = some f → (∃ n h', run S n (f i) h = some (.ok v, h')) →
      ReadsAs i nm (Slots.typeSafe S.w p v false)
  | raises {p f e} : (h i).slots nm = none → (S.clsOf i).find nm = some p → p.kind.isLazy = true →
      S.dflt (S.typ i) nm = some f → (∃ n h', run S n (f i) h = some (.error e, h')) → ReadsAs i nm (.error e)
  | none {p} : (h i).slots nm = none → (S.clsOf i).find nm = some p → p.kind.isLazy = true →
      S.dflt (S.typ i) nm = none → ReadsAs i nm (Slots.typeSafe S.w p S.w.unset false)

/-! ## Which attributes are looked at -/

/-- The values that an operation is given. -/
def Look.given : Look V → List V
  | .attr _ _ => []
  | .eq a b | .diff a b => [a, b]
  | .key a | .json _ a | .visit a => [a]

/-- The attributes of a record of the type `t` that an operation is about. -/
def Look.about (t : Nat) (nm : String) : Look V → Prop
  | .attr _ _ => False
  | .eq _ _ | .visit _ => nm ∈ S.names t ∧ S.extraneous t nm = false
  | .key _ => nm ∈ S.keyNames t
  | .json x _ => nm ∈ S.names t ∧ (x = true ∨ S.extraneous t nm = false) ∧ S.jsonName t nm ≠ none
  | .diff _ _ => nm ∈ S.diffNames t

/-- The operation compares. -/
def Look.isDiff : Look V → Prop
  | .diff _ _ => True
  | _ => False

/-- The records that an operation looks at: those given, and those in attributes that it is about. -/
inductive Seen (o : Look V) : Nat → Prop
  | given {a i} : a ∈ o.given → S.asRec a = some i → Seen o i
  | inside {i nm v j} : Seen o i → o.about S (S.typ i) nm → Attr S h i nm (some v) → S.asRec v = some j → Seen o j
  | compared {i nm v j} : Seen o i → o.about S (S.typ i) nm → o.isDiff → Compared S h i nm (some v) →
      S.asRec v = some j → Seen o j

/-- The function may read this attribute. -/
inductive MayRead {α : Type} (j : Nat) (p : String) : Code V α → Prop
  | here {k} : MayRead j p (.get j p k)
  | get {i nm k r} : MayRead j p (k r) → MayRead j p (.get i nm k)
  | slot {i nm k v} : MayRead j p (k v) → MayRead j p (.slot i nm k)

/-- The attributes that an operation needs: those that it is about, and those that the functions it calls may read. -/
inductive Needed (o : Look V) : Nat → String → Prop
  | attr {i nm} : o = .attr i nm → Needed o i nm
  | about {i nm} : Seen S h o i → o.about S (S.typ i) nm → Needed o i nm
  | default {i nm f j p} : Needed o i nm → S.dflt (S.typ i) nm = some f → MayRead j p (f i) → Needed o j p
  | compareAs {i nm f v j p} : Seen S h o i → o.about S (S.typ i) nm → o.isDiff → S.compareAs (S.typ i) nm = some f →
      MayRead j p (f i v) → Needed o j p

end Normalize.Observe
