import Verif.Model.Access
import Verif.Model.Identity
import Mathlib.Data.List.Dedup
import Mathlib.Data.List.Sort

/-!
# Comparing records and collections

Models `/repo/normalize/diff.py:39-108, 119-211, 270-355, 358-1017`: `DiffInfo`, `DiffOptions.id_args` and
`is_filtered`, `compare_record_iter`, `collection_generator`, `_fuzzy_match`, `compare_collection_iter`,
`compare_list_iter`, `compare_dict_iter`, `_diff_iter` and `diff_iter`.

The *DiffOptions sub-class API* (`normalize_object_slot`, `normalize_item`, `items_equal`, `record_id`) is a
parameter; `Verif.Model.DiffDefault` models the default methods.

Simplifications.  A generator is run to its end: what it yields and the exception it stops with, if any.
`tuple` values are lists.  Identities and normalised items stand for their class under python's `==` and
`hash`, so that sets and dicts of them compare with `=`.  Python sets iterate in an order of their own:
`Hooks.ord`.  Collections have no properties besides their members.  Types that are no collection and no
container do not define `keys`, `items` or `__iter__`.
-/

namespace Normalize.Diff
open Ident (IProp ICls Ty ItemTy CollKind Schema readAttr)

/-- `DiffTypes` (diff.py:39-51). -/
inductive DType
  | noChange
  | added
  | removed
  | modified
  | moved
  deriving DecidableEq, Repr

/-- `DiffInfo` (diff.py:63-108). -/
structure DInfo where
  kind : DType
  base : FS
  other : FS
  deriving DecidableEq, Repr

/-- A generator run to its end: what it yielded, and the exception that stopped it. -/
structure Gen where
  out : List DInfo := []
  exc : Option Exc := none
  deriving DecidableEq, Repr

namespace Gen

/-- A generator that yields nothing. -/
def nil : Gen := {}

/-- `raise e` -/
def raise (e : Exc) : Gen := { exc := some e }

/-- `yield DiffInfo(diff_type=k, base=base, other=other)` -/
def yield (k : DType) (base other : FS) : Gen := { out := [⟨k, base, other⟩] }

/-- One generator after the other. -/
def append (g h : Gen) : Gen :=
  match g.exc with
  | some _ => g
  | none => { out := g.out ++ h.out, exc := h.exc }

instance : Append Gen := ⟨append⟩

/-- `for x in l: …` -/
def forEach {α : Type} (f : α → Gen) : List α → Gen
  | [] => nil
  | x :: xs => f x ++ forEach f xs

/-- `if b: …` -/
def when (b : Bool) (g : Gen) : Gen := if b then g else nil

/-- Use the result of something that may raise. -/
def bindE {α : Type} (r : Except Exc α) (f : α → Gen) : Gen :=
  match r with
  | .error e => raise e
  | .ok a => f a

end Gen

/-- What `record_id` returns: a tuple of parts, or an object itself. -/
inductive Id (E : Type)
  | raw (e : E)
  | tup (ks : List E)
  deriving DecidableEq, Repr

/-- The options of `DiffOptions` that are not about text (diff.py:126-131, 194-211). -/
structure Opts where
  unchanged : Bool := false
  ignoreEmptySlots : Bool := false
  ignoreEmptyItems : Bool := false
  duckType : Bool := false
  extraneous : Bool := false
  fuzzyMatch : Bool := true
  moved : Bool := false
  recurse : Bool := false
  compareFilter : Option Heads := none

/-- The classes, the DiffOptions sub-class API, and what python does with sets. -/
structure Hooks (E F : Type) where
  S : Schema
  /-- `normalize_object_slot(value, prop, obj)` (diff.py:289-301); `none` is the `_nothing` marker -/
  normSlot : Option Val → IProp → Option Val → Except Exc (Option Val)
  /-- `normalize_item(value, coll)` (diff.py:303-324), and `repr` if the result has no hash
  (diff.py:821-822) -/
  itemId : Option Val → Val → Except Exc (Option F)
  /-- `items_equal` (diff.py:208-211) -/
  itemsEqual : Val → Val → Except Exc Bool
  /-- `record_id(record, type_, selector)` (diff.py:326-331), and that the result can be hashed -/
  recId : Option Ty → Option Heads → Val → Except Exc (Id E)
  /-- `_nested_falsy` of a part of an identity (diff.py:532-536) -/
  falsyPart : E → Bool
  /-- `_nested_empty` of a part of an identity (diff.py:539-543) -/
  emptyPart : E → Bool
  /-- the order in which a python set iterates -/
  ord : (α : Type) → List α → List α

variable {E F : Type} [DecidableEq E] [DecidableEq F]

/-! ## Filters -/

/-- `self.compare_filter`, if true (an empty `MultiFieldSelector` is false). -/
def Opts.active (o : Opts) : Option Heads := o.compareFilter.filter (fun h => Mfs.nonEmpty h)

/-- `not mfs[fs]` negated: the filter selects something at `fs`. -/
def selects (h : Heads) (fs : FS) : Bool :=
  match Mfs.getPath h fs with
  | some s => Mfs.nonEmpty s
  | none => false

/-- `is_filtered` (diff.py:352-355). -/
def isFiltered (o : Opts) (p : IProp) (fs : FS) : Bool :=
  (!o.extraneous && p.extraneous) ||
    (match o.active with
     | some h => !selects h fs
     | none => false)

/-- The result of `id_args` (diff.py:333-350): keyword arguments for `record_id`, or a function of the key
(here the filter that applies to the collection). -/
inductive IdArgs
  | fixed (selector : Option (Option Heads))
  | perKey (whole coll : Heads)

/-- `mfs[any]` (selector.py:689-690, 712-724). -/
def getAny (h : Heads) : Except Exc (Option Heads) :=
  if Mfs.complete h then .ok (some h)
  else match h with
    | [] => .ok (some h)
    | [(c, _)] => .ok (Mfs.getComp h c)
    | _ => .error .assertionError

/-- `id_args` (diff.py:333-350), but for `type_`, see `idType`. -/
def idArgs (o : Opts) (fs : FS) : Except Exc IdArgs :=
  match o.active with
  | none => .ok (.fixed none)
  | some h =>
    match (if fs.isEmpty then some h else Mfs.getPath h fs) with
    | none => .error .attributeError
    | some cf =>
      if Mfs.hasNone cf then
        match getAny cf with
        | .error e => .error e
        | .ok s => .ok (.fixed (some s))
      else .ok (.perKey h cf)

/-- `type_` in the result of `id_args` (diff.py:335-336). -/
def idType (o : Opts) (t : Ty) : Option Ty := if o.duckType then some t else none

/-- `not callable(id_args) and 'selector' in id_args and not id_args['selector']` (diff.py:646-647). -/
def IdArgs.dead : IdArgs → Bool
  | .fixed (some none) => true
  | .fixed (some (some h)) => !Mfs.nonEmpty h
  | _ => false

/-- Is the item with this key looked at? (diff.py:660-662) -/
def IdArgs.looksAt (fs : FS) (k : Comp) : IdArgs → Bool
  | .perKey h _ => Mfs.containsPath h (fs ++ [k])
  | .fixed _ => true

/-- `selector` for the item with this key (diff.py:344, 349). -/
def IdArgs.selector (k : Comp) : IdArgs → Option Heads
  | .perKey _ cf => Mfs.getComp cf k
  | .fixed none => none
  | .fixed (some s) => s

/-! ## Members of collections -/

/-- `collection_generator` (diff.py:486-529). -/
def tuplesOf : Option Val → Except Exc (List (Comp × Val))
  | none => .ok []
  | some (.lcoll _ xs) | some (.list xs) => .ok (Ident.enum xs)
  | some (.dcoll _ xs) | some (.dict xs) => .ok xs
  | _ => .error .typeError

/-- An entry of `rev_keys[x]`: a member of `values[x]` (identity and occurrence number) and its key. -/
abbrev Ent (J : Type) := (J × Nat) × Comp

/-- `vals.add((pk, seen[pk])); rev_key[(pk, seen[pk])] = k; seen[pk] += 1` for each item
(diff.py:671-673, 824-826, 909-911). -/
def number {J : Type} [DecidableEq J] (seen : List J) : List (J × Comp) → List (Ent J)
  | [] => []
  | (j, k) :: r => ((j, seen.count j), k) :: number (j :: seen) r

section Sets
variable {J : Type} [DecidableEq J]

/-- `pk_seq in values[x]` -/
def member (M : List (Ent J)) (i : J × Nat) : Bool := (alookup M i).isSome

/-- `values['a'] - values['b']`, with the keys. -/
def minus (A B : List (Ent J)) : List (Ent J) := A.filter (fun e => !member B e.1)

/-- A pair of keys for a member of both sides. -/
def commonEnt (B : List (Ent J)) (e : Ent J) : Option (Comp × Comp) :=
  match alookup B e.1 with
  | some kb => some (e.2, kb)
  | none => none

/-- `values['a'] & values['b']`, with the two keys. -/
def common (A B : List (Ent J)) : List (Comp × Comp) := A.filterMap (commonEnt B)

end Sets

/-! ## Simple lists and dicts -/

/-- The diff of two members that are matched (diff.py:744-760, 836-850, 920-934). -/
def matched (o : Opts) (fa fb : FS) (k : Comp × Comp) : Gen :=
  if o.moved && decide (k.1 ≠ k.2) then .yield .moved (fa ++ [k.1]) (fb ++ [k.2])
  else .when o.unchanged (.yield .noChange (fa ++ [k.1]) (fb ++ [k.2]))

/-- The entries of one side (diff.py:812-826, 897-911). -/
def simpleBag (H : Hooks E F) (o : Opts) (a x : Option Val) : Except Exc (List (Ent (Option F))) :=
  match tuplesOf x with
  | .error e => .error e
  | .ok xs =>
    match mapE (fun kv => (H.itemId (if o.duckType then a else x) kv.2).map (fun i => (i, kv.1))) xs with
    | .error e => .error e
    | .ok ys => .ok (number [] (ys.filter (fun y => y.1.isSome || !o.ignoreEmptySlots)))

/-- The keys in both lists (`modified_idx`, diff.py:852-854, 936-938). -/
def modifiedKeys {J : Type} (removed added : List (Ent J)) : List Comp :=
  (removed.map (·.2)).dedup.filter (fun k => decide (k ∈ added.map (·.2)))

/-- The differences of two sets of entries (diff.py:828-874, 913-959). -/
def compareBags (H : Hooks E F) (o : Opts) (fa fb : FS) (A B : List (Ent (Option F))) : Gen :=
  .when (o.unchanged || o.moved) (.forEach (matched o fa fb) (H.ord _ (common A B))) ++
  .forEach (fun e => .when (!decide (e.2 ∈ modifiedKeys (minus A B) (minus B A)))
      (.yield .removed (fa ++ [e.2]) fb)) (H.ord _ (minus A B)) ++
  .forEach (fun e => .when (!decide (e.2 ∈ modifiedKeys (minus A B) (minus B A)))
      (.yield .added fa (fb ++ [e.2]))) (H.ord _ (minus B A)) ++
  .forEach (fun k => .yield .modified (fa ++ [k]) (fb ++ [k]))
    (H.ord _ (modifiedKeys (minus A B) (minus B A)))

/-- `compare_list_iter` (diff.py:792-874) and `compare_dict_iter` (diff.py:877-959): the two functions are
the same up to the names of variables. -/
def compareSimple (H : Hooks E F) (o : Opts) (a b : Option Val) (fa fb : FS) : Gen :=
  .bindE (simpleBag H o a a) (fun A => .bindE (simpleBag H o a b) (fun B => compareBags H o fa fb A B))

/-! ## Fuzzy matching -/

/-- `_nested_empty(pk)` (diff.py:539-543). -/
def idEmpty (H : Hooks E F) : Id E → Bool
  | .tup ks => ks.all H.emptyPart
  | .raw e => H.emptyPart e

/-- `match` (diff.py:563-567): the positions where the parts are the same and not falsy. -/
def matchCount (H : Hooks E F) : List E → List E → Nat
  | x :: xs, y :: ys => (if x = y ∧ H.falsyPart x = false then 1 else 0) + matchCount H xs ys
  | _, _ => 0

/-- `no_match` (diff.py:562, 568-569): the positions that differ, and the surplus. -/
def noMatchCount : List E → List E → Nat
  | x :: xs, y :: ys => (if x = y then 0 else 1) + noMatchCount xs ys
  | [], ys => ys.length
  | xs, [] => xs.length

/-- `match` and `no_match` of two identities; `len()` of something that is no tuple raises.  (Cached in
`seen`, diff.py:555-558.) -/
def score (H : Hooks E F) : Id E → Id E → Except Exc (Nat × Nat)
  | .tup xs, .tup ys => .ok (matchCount H xs ys, noMatchCount xs ys)
  | _, _ => .error .typeError

/-- An element of `scores`. -/
structure Scored (E : Type) where
  hit : Nat
  miss : Nat
  a : Ent (Id E)
  b : Ent (Id E)

/-- One round of the loop over `product(set_a, set_b)` (diff.py:552-572). -/
def scoreOne (H : Hooks E F) (p : Ent (Id E) × Ent (Id E)) : Except Exc (Scored E) :=
  match score H p.1.1.1 p.2.1.1 with
  | .error e => .error e
  | .ok s => .ok ⟨s.1, s.2, p.1, p.2⟩

/-- The sort key (diff.py:579). -/
def Scored.key (s : Scored E) : Int := (s.hit : Int) - s.miss

/-- `sorted(scores, key=…, reverse=True)` (diff.py:577-581), which is stable. -/
def rank (l : List (Scored E)) : List (Scored E) := l.insertionSort (fun x y => y.key ≤ x.key)

/-- The loop that pairs items (diff.py:574-587); `ra` and `rb` are the remaining ones. -/
def greedy : List (Scored E) → List (Ent (Id E)) → List (Ent (Id E)) → List (Ent (Id E) × Ent (Id E))
  | [], _, _ => []
  | s :: r, ra, rb =>
    if s.a ∈ ra ∧ s.b ∈ rb then
      (s.a, s.b) ::
        (if (ra.erase s.a).isEmpty || (rb.erase s.b).isEmpty then []
         else greedy r (ra.erase s.a) (rb.erase s.b))
    else if ra.isEmpty || rb.isEmpty then []
    else greedy r ra rb

/-- `_fuzzy_match` (diff.py:546-587). -/
def fuzzyMatch (H : Hooks E F) (A B : List (Ent (Id E))) : Except Exc (List (Ent (Id E) × Ent (Id E))) :=
  match mapE (scoreOne H) ((H.ord _ A).product (H.ord _ B)) with
  | .error e => .error e
  | .ok l => .ok (greedy (rank (l.filter (fun s => s.hit ≠ 0))) A B)

/-! ## Records and collections -/

/-- `_diff_iter` as the comparison functions call it. -/
abbrev Rec := Option Val → Option Val → FS → FS → Gen

/-- `propval[key]` -/
def itemAt : Option Val → Comp → Except Exc Val
  | some v, k => getItem v k
  | none, _ => .error .typeError

/-- The container types (`COMPARABLE`, diff.py:962-971) and classes. -/
inductive Tag
  | list
  | dict
  | cls (c : String)
  deriving DecidableEq

/-- `type(value)`, if it is one of `COMPARABLE`. -/
def tagOf : Val → Option Tag
  | .atom _ => none
  | .list _ => some .list
  | .dict _ => some .dict
  | .rcd c _ | .lcoll c _ | .dcoll c _ => some (.cls c)

/-- `isinstance(value, COMPARABLE)` -/
def comparable (v : Val) : Bool := (tagOf v).isSome

/-- The net difference of a value on one side only (diff.py:442-462). -/
def net (o : Opts) (fa fb : FS) (g : Gen) : Gen :=
  match g.exc with
  | some e => .raise e
  | none =>
    match ((g.out.map (·.kind)).filter (fun t => decide (t ≠ .noChange))).dedup with
    | [] => .when o.unchanged (.yield .noChange fa fb)
    | [t] => .yield t fa fb
    | _ => .raise .assertionError

/-- The comparison of two normalised slots (diff.py:416-483). -/
def compareVals (H : Hooks E F) (o : Opts) (rec : Rec) (va vb : Option Val) (fa fb : FS) : Gen :=
  match va, vb with
  | none, none => .nil
  | some x, some y =>
    if (comparable x || comparable y) && (decide (tagOf x = tagOf y) || o.duckType) then
      rec (some x) (some y) fa fb
    else
      .bindE (H.itemsEqual x y) (fun eq =>
        if eq then .when o.unchanged (.yield .noChange fa fb) else .yield .modified fa fb)
  | none, some y =>
    if comparable y && (o.duckType || o.ignoreEmptySlots) then net o fa fb (rec none (some y) fa fb)
    else .yield .added fa fb
  | some x, none =>
    if comparable x && (o.duckType || o.ignoreEmptySlots) then net o fa fb (rec (some x) none fa fb)
    else .yield .removed fa fb

/-- `getattr(obj, name, _nothing)` (diff.py:409-414). -/
def readSlot (H : Hooks E F) (x : Option Val) (nm : String) : Option Val := x.bind (fun v => readAttr H.S v nm)

/-- One round of the loop of `compare_record_iter` (diff.py:400-483). -/
def compareProp (H : Hooks E F) (o : Opts) (rec : Rec) (a b : Option Val) (fa fb : FS) (p : IProp) : Gen :=
  .when (!isFiltered o p (fa ++ [.str p.name]))
    (.bindE (H.normSlot (readSlot H a p.name) p a) (fun va =>
      .bindE (H.normSlot (readSlot H b p.name) p b) (fun vb =>
        compareVals H o rec va vb (fa ++ [.str p.name]) (fb ++ [.str p.name]))))

/-- The class of a record or collection. -/
def clsOf : Val → Option String
  | .rcd c _ | .lcoll c _ | .dcoll c _ => some c
  | _ => none

/-- `sorted(properties)` of the class of `a`, or of `b` if there is no `a` (diff.py:395-399). -/
def propsOf (H : Hooks E F) (a b : Option Val) : List IProp :=
  match (a.orElse (fun _ => b)).bind clsOf with
  | some c => (H.S.cls c).props.insertionSort (fun p q => p.name ≤ q.name)
  | none => []

/-- `not options.duck_type and type(a) != type(b)` for two values (diff.py:384-389). -/
def typeClash (o : Opts) : Option Val → Option Val → Bool
  | some x, some y => !o.duckType && !decide (tagOf x = tagOf y)
  | _, _ => false

/-- `compare_record_iter` (diff.py:358-483). -/
def compareRecord (H : Hooks E F) (o : Opts) (rec : Rec) (a b : Option Val) (fa fb : FS) : Gen :=
  if typeClash o a b then .raise .typeError
  else .forEach (compareProp H o rec a b fa fb) (propsOf H a b)

/-- The entries of one side (diff.py:651-673). -/
def collBag (H : Hooks E F) (o : Opts) (ty : Option Ty) (ia : IdArgs) (fa : FS) (x : Option Val) :
    Except Exc (List (Ent (Id E))) :=
  match tuplesOf x with
  | .error e => .error e
  | .ok xs =>
    match mapE (fun kv => (H.recId ty (ia.selector kv.1) kv.2).map (fun i => (i, kv.1)))
        (xs.filter (fun kv => ia.looksAt fa kv.1)) with
    | .error e => .error e
    | .ok ys => .ok (number [] (ys.filter (fun y => !(o.ignoreEmptyItems && idEmpty H y.1))))

/-- `isinstance(pk, tuple)` -/
def Id.isTup : Id E → Bool
  | .tup _ => true
  | .raw _ => false

/-- `compare_values` (diff.py:666-670): the first identity seen is a tuple. -/
def compareValues (A B : List (Ent (Id E))) : Bool :=
  match (A ++ B).head? with
  | some e => e.1.1.isTup
  | none => false

/-- The `recurse` branch (diff.py:675-699). -/
def compareKeys (H : Hooks E F) (rec : Rec) (a b : Option Val) (fa fb : FS) (A B : List (Ent (Id E))) : Gen :=
  .forEach (fun k => .when (a.isSome && b.isSome)
      (.bindE (itemAt a k) (fun x => .bindE (itemAt b k) (fun y =>
        rec (some x) (some y) (fa ++ [k]) (fb ++ [k])))))
    (H.ord _ ((A.map (·.2)).dedup.filter (fun k => decide (k ∈ B.map (·.2))))) ++
  .forEach (fun k => .yield .removed (fa ++ [k]) fb)
    (H.ord _ ((A.map (·.2)).dedup.filter (fun k => !decide (k ∈ B.map (·.2))))) ++
  .forEach (fun k => .yield .added fa (fb ++ [k]))
    (H.ord _ ((B.map (·.2)).dedup.filter (fun k => !decide (k ∈ A.map (·.2)))))

/-- Compare two members (diff.py:707-726, 731-742). -/
def descend (rec : Rec) (a b : Option Val) (fa fb : FS) (k : Comp × Comp) : Gen :=
  .bindE (itemAt a k.1) (fun x => .bindE (itemAt b k.2) (fun y =>
    rec (some x) (some y) (fa ++ [k.1]) (fb ++ [k.2])))

/-- Compare a member of one side with nothing (diff.py:706-726, `force_descent`). -/
def descendOne (rec : Rec) (a b : Option Val) (fa fb : FS) (e : Ent (Id E)) : Gen :=
  match a with
  | none => .bindE (itemAt b e.2) (fun y => rec none (some y) (fa ++ [e.2]) (fb ++ [e.2]))
  | some x => .bindE (itemAt (some x) e.2) (fun y => rec (some y) none (fa ++ [e.2]) (fb ++ [e.2]))

/-- `any_diffs` (diff.py:737-742). -/
def anyDiffs (g : Gen) : Bool := g.out.any (fun d => decide (d.kind ≠ .noChange))

/-- The diff of two members that are matched approximately (diff.py:729-757). -/
def fuzzyPair (o : Opts) (rec : Rec) (a b : Option Val) (fa fb : FS) (p : Ent (Id E) × Ent (Id E)) : Gen :=
  descend rec a b fa fb (p.1.2, p.2.2) ++
  (if o.moved && decide (p.1.2 ≠ p.2.2) then .yield .moved (fa ++ [p.1.2]) (fb ++ [p.2.2])
   else .when (o.unchanged && !anyDiffs (descend rec a b fa fb (p.1.2, p.2.2)))
    (.yield .noChange (fa ++ [p.1.2]) (fb ++ [p.2.2])))

/-- The pairs found by `_fuzzy_match`, if it is run (diff.py:728-729). -/
def pairsOf (H : Hooks E F) (o : Opts) (A B : List (Ent (Id E))) : Except Exc (List (Ent (Id E) × Ent (Id E))) :=
  if compareValues A B && o.fuzzyMatch then fuzzyMatch H (minus A B) (minus B A) else .ok []

/-- The comparison by identity, both sides present (diff.py:700-789). -/
def compareIds (H : Hooks E F) (o : Opts) (rec : Rec) (a b : Option Val) (fa fb : FS)
    (A B : List (Ent (Id E))) : Gen :=
  .when (compareValues A B) (.forEach (descend rec a b fa fb) (H.ord _ (common A B))) ++
  .bindE (pairsOf H o A B) (fun ps =>
    .forEach (fuzzyPair o rec a b fa fb) ps ++
    .when (o.unchanged || o.moved) (.forEach (matched o fa fb) (H.ord _ (common A B))) ++
    .forEach (fun e => .yield .removed (fa ++ [e.2]) fb)
      (H.ord _ ((minus A B).filter (fun e => !decide (e ∈ ps.map (·.1))))) ++
    .forEach (fun e => .yield .added fa (fb ++ [e.2]))
      (H.ord _ ((minus B A).filter (fun e => !decide (e ∈ ps.map (·.2))))))

/-- The comparison with one side missing (diff.py:704-726, 758-776 with `force_descent`). -/
def compareOne (H : Hooks E F) (rec : Rec) (a b : Option Val) (fa fb : FS) (A B : List (Ent (Id E))) : Gen :=
  .forEach (descendOne rec a b fa fb) (H.ord _ (minus A B ++ minus B A))

/-- `compare_collection_iter` from the identities on (diff.py:675-789). -/
def compareMembers (H : Hooks E F) (o : Opts) (rec : Rec) (a b : Option Val) (fa fb : FS)
    (A B : List (Ent (Id E))) : Gen :=
  if o.recurse then compareKeys H rec a b fa fb A B
  else if a.isNone || b.isNone then compareOne H rec a b fa fb A B
  else compareIds H o rec a b fa fb A B

/-- `compare_collection_iter` for a collection of records (diff.py:642-789). -/
def compareRecords (H : Hooks E F) (o : Opts) (rec : Rec) (it : Ty) (a b : Option Val) (fa fb : FS) : Gen :=
  .bindE (idArgs o fa) (fun ia =>
    .when (!ia.dead)
      (.bindE (collBag H o (idType o it) ia fa a) (fun A =>
        .bindE (collBag H o (idType o it) ia fa b) (fun B =>
          compareMembers H o rec a b fa fb A B))))

/-- `compare_collection_iter` (diff.py:593-789). -/
def compareColl (H : Hooks E F) (o : Opts) (rec : Rec) (c : String) (a b : Option Val) (fa fb : FS) : Gen :=
  match (H.S.cls c).coll with
  | none => .raise .attributeError
  | some (_, .tup _) => .raise .collectionItemType
  | some (_, .one (.other _)) => compareSimple H o a b fa fb
  | some (_, .one (.cls n)) => compareRecords H o rec (.cls n) a b fa fb

/-- The functions that apply to a value (`COMPARE_FUNCTIONS`, diff.py:962-971, 1001-1017). -/
def dispatch (H : Hooks E F) (o : Opts) (rec : Rec) (a b : Option Val) (fa fb : FS) : Gen :=
  match a.orElse (fun _ => b) with
  | some (.list _) | some (.dict _) => compareSimple H o a b fa fb
  | some (.rcd _ _) => compareRecord H o rec a b fa fb
  | some (.lcoll c _) | some (.dcoll c _) =>
    compareColl H o rec c a b fa fb ++ compareRecord H o rec a b fa fb
  | some (.atom _) | none => .nil

/-- `_diff_iter` (diff.py:1001-1017); the number stands for python's recursion limit. -/
def diffIter (H : Hooks E F) (o : Opts) : Nat → Rec
  | 0 => fun _ _ _ _ => .raise (.user 0)
  | n + 1 => dispatch H o (diffIter H o n)

/-- `diff_iter(base, other, options)` (diff.py:974-998). -/
def diff (H : Hooks E F) (o : Opts) (n : Nat) (a b : Val) : Gen := diffIter H o n (some a) (some b) [] []

end Normalize.Diff
