import Verif.Lemmas.Hashing
import Verif.Model.DiffDefault
import Verif.Props.DiffText

/-!
# C101: which records can be hashed

Every record whose values are of their declared types should have an identity (`__pk__`) and a hash, since
sets, dicts and the comparison of lists of records need them.
-/

namespace Normalize.Props

open Normalize.Ident Normalize.Spec

/-- C101, as a user would expect it: `hash(record)` works for every record whose values are of their declared
types. -/
def C101_statement : Prop :=
  ∀ (S : Schema), ClassesOk S → ∀ (c : String) (s : List (String × Val)), OfDeclared S (.rcd c s) →
    Hashes S (.rcd c s)

/-- A person with a name, a list of tags, and a nickname that may be a string or a list of tags. -/
def hashClasses : String → ICls
  | "Person" => { props := [{ name := "name" }, { name := "tags", types := [.cls "Tags"] },
      { name := "nick", types := [.other 1, .cls "Tags"] }, { name := "home", types := [.cls "Addr"] }] }
  | "Student" => { props := [{ name := "name" }, { name := "tags", types := [.cls "Tags"] },
      { name := "friend", types := [.cls "Student"] }, { name := "home", types := [.cls "Addr"] },
      { name := "note", extraneous := true, types := [.cls "Tags"] }] }
  | "Addr" => { props := [{ name := "id" }, { name := "street" }], pk := [{ name := "id" }] }
  | "Flat" => { props := [{ name := "id" }, { name := "street" }, { name := "floor" }], pk := [{ name := "id" }] }
  | "Tags" => { coll := some (.list, .one (.other 1)) }
  | _ => {}

/-- The classes, with builtin equality of values. -/
def hashSchema : Schema where
  cls := hashClasses
  atomEq a b := decide (a = b)
  atomHash _ := some 7
  falsy a := decide (a = .none)
  tupleHash := List.sum
  mixL _ _ _ := .ok false
  mixD _ _ _ := .ok false

/-- A property in one of the demo classes. -/
theorem hashClasses_props {P : String → IProp → Prop}
    (h : ∀ c ∈ ["Person", "Student", "Addr", "Flat"], ∀ p ∈ (hashClasses c).props, P c p) :
    ∀ c, ∀ p ∈ (hashClasses c).props, P c p := by
  intro c p hp
  by_cases hc : c ∈ ["Person", "Student", "Addr", "Flat"]
  · exact h c hc p hp
  · exfalso
    simp only [List.mem_cons, List.not_mem_nil, or_false, not_or] at hc
    obtain ⟨h1, h2, h3, h4⟩ := hc
    unfold hashClasses at hp
    split at hp <;> simp_all

theorem hashSchema_ok : ClassesOk hashSchema where
  names c := by
    show ((hashClasses c).props.map IProp.name).Nodup
    unfold hashClasses
    split <;> decide
  pk c := by
    show ∀ p ∈ (hashClasses c).pk, p ∈ (hashClasses c).props
    unfold hashClasses
    split <;> decide
  unset := by
    refine hashClasses_props (P := fun c p => ∀ a, p.unset = some a → _) ?_
    intro c hc p hp a ha
    have : ∀ c ∈ ["Person", "Student", "Addr", "Flat"], ∀ p ∈ (hashClasses c).props, p.unset = none := by
      decide
    rw [this c hc p hp] at ha
    cases ha
  none := rfl

/-- **C101 (what holds).** If no property may hold one of several types of which one is a record class, every
record whose values are of their declared types (or of classes that extend them), with members in every typed
collection that makes up an identity, can be hashed. -/
theorem C101_partial (S : Schema) (ok : ClassesOk S) (hu : NoRecordUnions S) (c : String)
    (s : List (String × Val)) (h : OfDeclared S (.rcd c s)) (hne : NoEmptyColls S (.rcd c s)) :
    Hashes S (.rcd c s) :=
  (OfDeclared.keyed ok hu h hne).raw rfl

/-- Such a record has an identity too, and so has such a collection (also one without members). -/
theorem C101_identity (S : Schema) (ok : ClassesOk S) (hu : NoRecordUnions S) (v : Val) (h : OfDeclared S v)
    (hne : NoEmptyColls S v) : HasIdentity S v := by
  have hk := OfDeclared.keyed ok hu h hne
  have : ∀ t, typeOf v = t → IsInstance S t v → HasIdentity S v := by
    intro t ht hi
    obtain ⟨k, N, hN, -⟩ := hk.item (it := .one t) hi
    exact ⟨k, N, fun n hn => by rw [recordId, ht]; exact hN n hn⟩
  cases h with
  | atom ha => exact this _ rfl trivial
  | rcd => exact this _ rfl (ExtendsClass.refl _)
  | lcoll => exact this _ rfl (ExtendsClass.refl _)
  | dcoll => exact this _ rfl (ExtendsClass.refl _)

/-- **C101 fails for empty collections**: a record with an empty typed collection in a property that makes up
its identity can never be hashed, whatever its other values (`val_pk or val` takes the empty key for a missing
one and hashes the collection itself, which has no hash). -/
theorem C101_empty (S : Schema) (d c : String) (s : List (String × Val)) (v : Val) (p : IProp)
    (hd : (S.cls d).coll = none) (hp : Identifies S d p) (ht : p.types = [.cls c])
    (hcoll : (S.cls c).coll ≠ none) (hpk : (S.cls c).pk = [])
    (hr : alookup s p.name = some v) (he : EmptyColl v) :
    ∀ n k h, recordId S n (.rcd d s) ≠ .ok k ∧ hash S n (.rcd d s) ≠ .ok h := by
  intro n k h
  have key : ∀ n k, rid S none n (.cls d) none (.rcd d s) ≠ .ok k :=
    fun n k => rid_empty hd hp hr ht rfl rfl hpk hcoll he
  refine ⟨key n k, ?_⟩
  cases n with
  | zero => simp [Ident.hash, khash]
  | succ n =>
    simp only [Ident.hash, khash]
    cases hk : rid S none n (.cls d) none (.rcd d s) with
    | error e => simp
    | ok k => exact absurd hk (key n k)

/-- **C101 fails for unions**: a record can never be hashed if a property that makes up its identity and may
hold a string or a typed collection holds a string (which is taken for a collection). -/
theorem C101_string (S : Schema) (d c t : String) (s : List (String × Val)) (p : IProp)
    (hd : (S.cls d).coll = none) (hp : Identifies S d p) (ht : .cls c ∈ p.types)
    (hcoll : (S.cls c).coll ≠ none) (hpk : (S.cls c).pk = [])
    (hr : alookup s p.name = some (.str t)) :
    ∀ n k h, recordId S n (.rcd d s) ≠ .ok k ∧ hash S n (.rcd d s) ≠ .ok h := by
  intro n k h
  have key : ∀ n k, rid S none n (.cls d) none (.rcd d s) ≠ .ok k :=
    fun n k => rid_string hd hp hr ht hpk hcoll
  refine ⟨key n k, ?_⟩
  cases n with
  | zero => simp [Ident.hash, khash]
  | succ n =>
    simp only [Ident.hash, khash]
    cases hk : rid S none n (.cls d) none (.rcd d s) with
    | error e => simp
    | ok k => exact absurd hk (key n k)

/-- A student without tags is of the declared types. -/
theorem declared_no_tags : OfDeclared hashSchema (.rcd "Student" [("tags", .lcoll "Tags" [])]) := by
  refine .rcd rfl ?_ ?_
  · intro x hx
    simp only [List.mem_singleton] at hx
    subst hx
    exact .lcoll (k := .list) (it := .one (.other 1)) rfl (by simp) (by simp)
  · intro p hp v hv
    have : p.name = "tags" ∧ v = .lcoll "Tags" [] := by
      by_cases h : p.name = "tags"
      · rw [h] at hv
        exact ⟨h, (Option.some.inj hv).symm⟩
      · simp [alookup, h] at hv
        exact absurd hv.1.symm h
    obtain ⟨hn, rfl⟩ := this
    have hp' : p ∈ (hashClasses "Student").props := hp
    have : ∀ p ∈ (hashClasses "Student").props, p.name = "tags" → p.types = [.cls "Tags"] := by decide
    exact .inr (.inr ⟨.cls "Tags", by rw [this p hp' hn]; simp, ExtendsClass.refl _⟩)

/-- C101 fails: a record with an empty list of tags. -/
theorem C101_violated : ¬ C101_statement := by
  intro h
  obtain ⟨x, N, hN⟩ := h hashSchema hashSchema_ok "Student" _ declared_no_tags
  exact (C101_empty hashSchema "Student" "Tags" _ (.lcoll "Tags" []) { name := "tags", types := [.cls "Tags"] }
    rfl (by simp [Identifies, hashSchema, hashClasses]) rfl (by decide) rfl rfl (.inl ⟨_, rfl⟩) N (.tup []) x).2 (hN N (Nat.le_refl N))

/-- A person whose nickname is a string is of the declared types. -/
theorem declared_nick : OfDeclared hashSchema (.rcd "Person" [("nick", .str "al")]) := by
  refine .rcd rfl ?_ ?_
  · intro x hx
    simp only [List.mem_singleton] at hx
    subst hx
    exact .atom rfl
  · intro p hp v hv
    have : p.name = "nick" ∧ v = .str "al" := by
      by_cases h : p.name = "nick"
      · rw [h] at hv
        exact ⟨h, (Option.some.inj hv).symm⟩
      · simp [alookup, h] at hv
        exact absurd hv.1.symm h
    obtain ⟨hn, rfl⟩ := this
    have hp' : p ∈ (hashClasses "Person").props := hp
    have : ∀ p ∈ (hashClasses "Person").props, p.name = "nick" → Ty.other 1 ∈ p.types := by decide
    exact .inr (.inr ⟨.other 1, this p hp' hn, trivial⟩)

/-- C101 fails also without empty collections. -/
theorem C101_union_violated :
    ¬ ∀ (S : Schema), ClassesOk S → ∀ (c : String) (s : List (String × Val)), OfDeclared S (.rcd c s) →
      NoEmptyColls S (.rcd c s) → Hashes S (.rcd c s) := by
  intro h
  have hne : NoEmptyColls hashSchema (.rcd "Person" [("nick", .str "al")]) := by
    intro d s hs c hc p hp w hw
    have : s = [("nick", .str "al")] := by
      cases hs with
      | self => rfl
      | rcd hm hs' =>
        simp only [List.mem_singleton, Prod.mk.injEq] at hm
        obtain ⟨-, rfl⟩ := hm
        cases hs'
    subst this
    have hw' := Normalize.Mfs.alookup_mem hw
    simp only [List.mem_singleton, Prod.mk.injEq] at hw'
    obtain ⟨-, rfl⟩ := hw'
    rintro (⟨_, h⟩ | ⟨_, h⟩) <;> cases h
  obtain ⟨x, N, hN⟩ := h hashSchema hashSchema_ok "Person" _ declared_nick hne
  exact (C101_string hashSchema "Person" "Tags" "al" _ { name := "nick", types := [.other 1, .cls "Tags"] }
    rfl (by simp [Identifies, hashSchema, hashClasses]) (by decide) (by decide) rfl rfl N (.tup []) x).2 (hN N (Nat.le_refl N))

/-- **Consequence for comparison**: with the default options, comparing a list of records in which a record
has an empty typed collection in a property that makes up its identity always raises, whatever it is compared
with (also with itself). -/
theorem C101_diff (D : Diff.Setup) (o : Diff.Opts) (n : Nat) (l d c e : String) (xs : List Val)
    (s : List (String × Val)) (v other : Val) (p : IProp)
    (hl : ∃ k, (D.S.cls l).coll = some (k, .one (.cls e)))
    (hd : (D.S.cls d).coll = none) (hp : Identifies D.S d p) (ht : p.types = [.cls c])
    (hcoll : (D.S.cls c).coll ≠ none) (hpk : (D.S.cls c).pk = [])
    (hr : alookup s p.name = some v) (he : EmptyColl v) (hx : .rcd d s ∈ xs)
    (hca : D.compareAs p = none) (htext : D.text.ignoreEmptySlots = false)
    (hf : o.compareFilter = none) (hduck : o.duckType = false) :
    (Diff.diff D.hooks o n (.lcoll l xs) other).exc ≠ none := by
  cases n with
  | zero => simp [Diff.diff, Diff.diffIter, Diff.Gen.raise]
  | succ n =>
    obtain ⟨k, hl⟩ := hl
    have hact : o.active = none := by simp [Diff.Opts.active, hf]
    have hrid : ∀ m k', rid D.S (some (Diff.slotHook D)) m (.cls d) none (.rcd d s) ≠ .ok k' := by
      intro m k'
      refine rid_empty hd hp hr ht ?_ ?_ hpk hcoll he
      · rcases he with ⟨_, rfl⟩ | ⟨_, rfl⟩ <;>
          simp [runHook, Diff.slotHook, Diff.normalizeObjectSlot, hca, Diff.normalizeVal, htext, Diff.scrub]
      · simp [runHook, Diff.slotHook, Diff.normalizeObjectSlot, hca, Diff.normalizeVal, htext, Diff.scrub,
          Val.none]
    have hrec : ∀ i, Diff.recordIdOf D none none (.rcd d s) ≠ .ok i := by
      intro i
      simp only [Diff.recordIdOf, Option.getD_none, typeOf]
      cases hk : rid D.S (some (Diff.slotHook D)) D.depth (.cls d) none (.rcd d s) with
      | error e => simp
      | ok k' => exact absurd hk (hrid _ _)
    have hbag : ∃ e', Diff.collBag D.hooks o none (.fixed none) [] (some (.lcoll l xs)) = .error e' := by
      cases hb : Diff.collBag D.hooks o none (.fixed none) [] (some (.lcoll l xs)) with
      | error e' => exact ⟨e', rfl⟩
      | ok A =>
        exfalso
        simp only [Diff.collBag, Diff.tuplesOf, Diff.IdArgs.looksAt, List.filter_true,
          Diff.IdArgs.selector] at hb
        obtain ⟨i, hi⟩ : ∃ i, (i, Val.rcd d s) ∈ enum xs := by
          obtain ⟨j, hj, hxj⟩ := List.getElem_of_mem hx
          exact ⟨.int j, List.mem_map.2 ⟨(.rcd d s, j), by simp [List.mem_zipIdx_iff_getElem?, hj, hxj], rfl⟩⟩
        split at hb
        · cases hb
        · rename_i ys hys
          obtain ⟨y, -, hy⟩ := mapE_ok_left hys _ hi
          have : D.hooks.recId none none (.rcd d s) = Diff.recordIdOf D none none (.rcd d s) := rfl
          rw [this] at hy
          cases hq : Diff.recordIdOf D none none (.rcd d s) with
          | error e' => rw [hq] at hy; cases hy
          | ok q => exact hrec q hq
    obtain ⟨e', he'⟩ := hbag
    have hS : D.hooks.S = D.S := rfl
    have hcc : Diff.compareColl D.hooks o (Diff.diffIter D.hooks o n) l (some (.lcoll l xs)) (some other) [] [] =
        .raise e' := by
      simp only [Diff.compareColl, hS, hl, Diff.compareRecords, Diff.idArgs, hact, Diff.Gen.bindE,
        Diff.IdArgs.dead, Bool.not_false, Diff.Gen.when, if_true, Diff.idType, hduck, he', Bool.false_eq_true, if_false]
    simp only [Diff.diff, Diff.diffIter, Diff.dispatch, Option.orElse, hcc]
    simp [HAppend.hAppend, Append.append, Diff.Gen.append, Diff.Gen.raise]

/-! ## The hypotheses can be met -/

/-- The classes without the one that has a union. -/
def plainSchema : Schema := { hashSchema with cls := fun c => if c = "Person" then {} else hashClasses c }

theorem plainSchema_ok : ClassesOk plainSchema where
  names c := by
    show ((if c = "Person" then ({} : ICls) else hashClasses c).props.map IProp.name).Nodup
    split
    · decide
    · exact hashSchema_ok.names c
  pk c := by
    show ∀ p ∈ (if c = "Person" then ({} : ICls) else hashClasses c).pk,
      p ∈ (if c = "Person" then ({} : ICls) else hashClasses c).props
    split
    · simp
    · exact hashSchema_ok.pk c
  unset c := by
    show ∀ p ∈ (if c = "Person" then ({} : ICls) else hashClasses c).props, _
    split
    · simp
    · exact hashSchema_ok.unset c
  none := rfl

theorem plainSchema_unions : NoRecordUnions plainSchema := by
  intro c
  show ∀ p ∈ (if c = "Person" then ({} : ICls) else hashClasses c).props, _
  split
  · simp
  · rename_i hc
    intro p hp
    refine hashClasses_props (P := fun c p => c ≠ "Person" →
      (∀ t ∈ p.types, ∃ n, t = .other n) ∨ ∃ d, p.types = [.cls d]) ?_ c p hp hc
    intro c hm p hp hc
    have key : ∀ c ∈ ["Student", "Addr", "Flat"], ∀ p ∈ (hashClasses c).props,
        p.types = [] ∨ p.types = [.cls "Tags"] ∨ p.types = [.cls "Student"] ∨ p.types = [.cls "Addr"] := by
      decide
    rcases key c (by simpa [hc] using hm) p hp with h | h | h | h
    · left; simp [h]
    · exact .inr ⟨_, h⟩
    · exact .inr ⟨_, h⟩
    · exact .inr ⟨_, h⟩

/-- A flat, which extends `Addr`. -/
def flat : Val := .rcd "Flat" [("id", .int 3), ("street", .str "Elm"), ("floor", .int 2)]

/-- A student with a tag, a home of a class that extends the declared one, and an empty extraneous list. -/
def student (fr : Val) : Val := .rcd "Student" [("name", .str "Al"), ("tags", .lcoll "Tags" [.str "x"]),
  ("friend", fr), ("home", flat), ("note", .lcoll "Tags" [])]

theorem declared_flat : OfDeclared plainSchema flat := by
  refine .rcd rfl ?_ ?_
  · intro x hx
    simp only [List.mem_cons, List.not_mem_nil, or_false] at hx
    rcases hx with rfl | rfl | rfl <;> exact .atom rfl
  · intro p hp v hv
    have hp' : p ∈ (hashClasses "Flat").props := hp
    have ht : ∀ p ∈ (hashClasses "Flat").props, p.types = [] := by decide
    refine .inr (.inl ⟨ht p hp', ?_⟩)
    have hm := Normalize.Mfs.alookup_mem hv
    simp only [List.mem_cons, Prod.mk.injEq, List.not_mem_nil, or_false] at hm
    rcases hm with ⟨-, rfl⟩ | ⟨-, rfl⟩ | ⟨-, rfl⟩ <;> rfl

theorem extends_flat : ExtendsClass plainSchema "Flat" "Addr" :=
  ⟨show ∀ p ∈ (hashClasses "Addr").props, p ∈ (hashClasses "Flat").props by decide, rfl⟩

theorem declared_student {fr : Val} (hf : OfDeclared plainSchema fr)
    (hi : fr = .none ∨ IsInstance plainSchema (.cls "Student") fr) : OfDeclared plainSchema (student fr) := by
  refine .rcd rfl ?_ ?_
  · intro x hx
    simp only [List.mem_cons, List.not_mem_nil, or_false] at hx
    rcases hx with rfl | rfl | rfl | rfl | rfl
    · exact .atom rfl
    · refine .lcoll (k := .list) (it := .one (.other 1)) rfl ?_ ?_ <;> intro x hx <;>
        (rw [List.mem_singleton] at hx; subst hx)
      · exact .atom rfl
      · exact trivial
    · exact hf
    · exact declared_flat
    · exact .lcoll (k := .list) (it := .one (.other 1)) rfl (by simp) (by simp)
  · intro p hp v hv
    have hp' : p ∈ (hashClasses "Student").props := hp
    simp only [hashClasses, List.mem_cons, List.not_mem_nil, or_false] at hp'
    rcases hp' with rfl | rfl | rfl | rfl | rfl <;> cases Option.some.inj hv
    · exact .inr (.inl ⟨rfl, rfl⟩)
    · exact .inr (.inr ⟨_, List.mem_singleton.2 rfl, ExtendsClass.refl _⟩)
    · rcases hi with rfl | hi
      · exact .inl rfl
      · exact .inr (.inr ⟨_, List.mem_singleton.2 rfl, hi⟩)
    · exact .inr (.inr ⟨_, List.mem_singleton.2 rfl, extends_flat⟩)
    · exact .inr (.inr ⟨_, List.mem_singleton.2 rfl, ExtendsClass.refl _⟩)

/-- Only the extraneous property has an empty collection. -/
theorem full_student {fr : Val} (hf : NoEmptyColls plainSchema fr) (he : ¬ EmptyColl fr) :
    NoEmptyColls plainSchema (student fr) := by
  intro d s hs c hc p hp w hw hew
  have hatom : ∀ a, ¬ Sub (.rcd d s) (.atom a) := fun a h => nomatch h
  have hw' := Normalize.Mfs.alookup_mem hw
  unfold student at hs
  cases hs with
  | self =>
    simp only [List.mem_cons, Prod.mk.injEq, List.not_mem_nil, or_false] at hw'
    rcases hw' with ⟨-, rfl⟩ | ⟨-, rfl⟩ | ⟨-, rfl⟩ | ⟨-, rfl⟩ | ⟨hn, rfl⟩
    · rcases hew with ⟨_, h⟩ | ⟨_, h⟩ <;> cases h
    · rcases hew with ⟨_, h⟩ | ⟨_, h⟩ <;> cases h
    · exact he hew
    · rcases hew with ⟨_, h⟩ | ⟨_, h⟩ <;> cases h
    · have hpd : p ∈ (hashClasses "Student").props := hc.1 p (hp.mem plainSchema_ok)
      have h1 : ∀ p ∈ (hashClasses "Student").props, p.name = "note" → p.extraneous = true := by decide
      have hx := h1 p hpd hn
      unfold Identifies at hp
      split at hp
      · rw [hp.2] at hx
        cases hx
      · rename_i hpk
        have h2 : ∀ c, ∀ p ∈ (plainSchema.cls c).pk, p.extraneous = false := by
          intro c
          show ∀ p ∈ (if c = "Person" then ({} : ICls) else hashClasses c).pk, p.extraneous = false
          split
          · simp
          · unfold hashClasses
            split <;> decide
        rw [h2 c p hp] at hx
        cases hx
  | rcd hm hs' =>
    simp only [List.mem_cons, Prod.mk.injEq, List.not_mem_nil, or_false] at hm
    rcases hm with ⟨-, rfl⟩ | ⟨-, rfl⟩ | ⟨-, rfl⟩ | ⟨-, rfl⟩ | ⟨-, rfl⟩
    · exact hatom _ hs'
    · cases hs' with
      | lcoll hx h => rw [List.mem_singleton] at hx; subst hx; exact hatom _ h
    · exact hf d s hs' c hc p hp w hw hew
    · unfold flat at hs'
      cases hs' with
      | self =>
        simp only [List.mem_cons, Prod.mk.injEq, List.not_mem_nil, or_false] at hw'
        rcases hw' with ⟨-, rfl⟩ | ⟨-, rfl⟩ | ⟨-, rfl⟩ <;> rcases hew with ⟨_, h⟩ | ⟨_, h⟩ <;> cases h
      | rcd hm h =>
        simp only [List.mem_cons, Prod.mk.injEq, List.not_mem_nil, or_false] at hm
        rcases hm with ⟨-, rfl⟩ | ⟨-, rfl⟩ | ⟨-, rfl⟩ <;> exact hatom _ h
    · cases hs' with
      | lcoll hx h => simp at hx

theorem full_atom (a : Atom) : NoEmptyColls plainSchema (.atom a) := fun _ _ h => nomatch h

theorem notEmpty_student (fr : Val) : ¬ EmptyColl (student fr) := by
  rintro (⟨_, h⟩ | ⟨_, h⟩) <;> cases h

-- C101_partial and C101_identity apply to a student whose friend is a student
example : Hashes plainSchema (student (student .none)) :=
  C101_partial plainSchema plainSchema_ok plainSchema_unions _ _
    (declared_student (declared_student (.atom rfl) (.inl rfl)) (.inr (ExtendsClass.refl _)))
    (full_student (full_student (full_atom _) (by rintro (⟨_, h⟩ | ⟨_, h⟩) <;> cases h)) (notEmpty_student _))
example : HasIdentity plainSchema (.lcoll "Tags" []) :=
  C101_identity plainSchema plainSchema_ok plainSchema_unions _
    (.lcoll (k := .list) (it := .one (.other 1)) rfl (by simp) (by simp))
    (fun d s h => by cases h with | lcoll hx _ => simp at hx)
example : (Ident.hash plainSchema 20 (student (student .none))).isOk = true := by decide +kernel

/-- The default options over the example classes. -/
def hashSetup : Diff.Setup where
  S := { plainSchema with cls := fun c =>
    if c = "Students" then { coll := some (.list, .one (.cls "Student")) } else plainSchema.cls c }
  U := Diff.ascii
  text := {}
  repr _ := "<...>"
  depth := 9

-- C101_diff: a list with a student without tags cannot be compared with itself, nor with the empty list
example (n : Nat) (other : Val) : (Diff.diff hashSetup.hooks {} n
    (.lcoll "Students" [.rcd "Student" [("name", .str "Al"), ("tags", .lcoll "Tags" [])]]) other).exc ≠ none :=
  C101_diff hashSetup {} n "Students" "Student" "Tags" "Student" _ _ (.lcoll "Tags" []) other
    { name := "tags", types := [.cls "Tags"] } ⟨_, rfl⟩ rfl
    (by simp [Identifies, hashSetup, plainSchema, hashClasses]) rfl
    (by simp [hashSetup, plainSchema, hashClasses]) rfl rfl (.inl ⟨_, rfl⟩) (List.mem_singleton.2 rfl) rfl rfl rfl rfl
-- with a tag it can
example : (Diff.diff hashSetup.hooks {} 9
    (.lcoll "Students" [.rcd "Student" [("name", .str "Al"), ("tags", .lcoll "Tags" [.str "x"])]])
    (.lcoll "Students" [.rcd "Student" [("name", .str "Al"), ("tags", .lcoll "Tags" [.str "x"])]])).exc = none := by
  decide +kernel

end Normalize.Props
