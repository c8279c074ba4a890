import Verif.Lemmas.IdentityHash

/-!
# C27, C28, C29: equality, hashing and identity of records
-/

namespace Normalize.Ident

open Normalize.Mfs (alookup_mem)

/-! ## C27 -/

/-- C27: two records are equal exactly if they have the same class and agree on every property that is not
extraneous (missing on both, or equal). -/
theorem C27_record_eq (S : Schema) (c d : String) (s t : List (String × Val)) :
    veq S (.rcd c s) (.rcd d t) = .ok true ↔
      c = d ∧ ∀ p ∈ (S.cls c).props, p.extraneous = false →
        SameRead S (readAttr S (.rcd c s) p.name) (readAttr S (.rcd d t) p.name) := veq_rcd

/-- C27: `==` is reflexive. -/
theorem C27_refl (S : Schema) (L : AtomLaws S) (a : Val) (wa : WF S a) : veq S a a = .ok true :=
  veq_refl L a wa

/-- C27: `==` is symmetric. -/
theorem C27_symm (S : Schema) (L : AtomLaws S) (a b : Val) (wa : WF S a) (wb : WF S b)
    (h : veq S a b = .ok true) : veq S b a = .ok true := veq_symm L a wa b wb h

/-- C27: `==` is transitive, as long as no plain container is compared to a typed collection. -/
theorem C27_trans (S : Schema) (L : AtomLaws S) (a b c : Val) (wa : WF S a) (wb : WF S b) (wc : WF S c)
    (m1 : Unmixed a b) (m2 : Unmixed b c) (h1 : veq S a b = .ok true) (h2 : veq S b c = .ok true) :
    veq S a c = .ok true := veq_trans L a wa b wb c wc m1 m2 h1 h2

/-- C27: `==` answers, without raising; and `!=` is its negation. -/
theorem C27_ne (S : Schema) (a b : Val) (wa : WF S a) (m : Unmixed a b) :
    ∃ r, veq S a b = .ok r ∧ vne S a b = .ok (!r) := by
  obtain ⟨r, hr⟩ := veq_ok a wa b m
  exact ⟨r, hr, by simp [vne, hr]⟩

/-- C27: changing, setting or unsetting an extraneous property does not affect equality with anything. -/
theorem C27_extraneous (S : Schema) (c : String) (s t : List (String × Val)) (b : Val)
    (hst : ∀ p ∈ (S.cls c).props, p.extraneous = false → alookup s p.name = alookup t p.name) :
    veq S (.rcd c s) b = .ok true ↔ veq S (.rcd c t) b = .ok true := by
  cases b with
  | rcd d u =>
    rw [veq_rcd, veq_rcd]
    have : ∀ p ∈ (S.cls c).props, p.extraneous = false →
        readAttr S (.rcd c s) p.name = readAttr S (.rcd c t) p.name := by
      intro p hp he
      simp only [readAttr, hst p hp he]
    constructor
    · rintro ⟨rfl, h⟩
      exact ⟨rfl, fun p hp he => by rw [← this p hp he]; exact h p hp he⟩
    · rintro ⟨rfl, h⟩
      exact ⟨rfl, fun p hp he => by rw [this p hp he]; exact h p hp he⟩
  | _ => simp [veq]

/-! ## C28 -/

/-- C28 as stated: equal records that can be hashed have equal identities and hashes, if no primary key
has an extraneous property. -/
def C28_statement : Prop :=
  ∀ (S : Schema) (_ : AtomLaws S) (_ : HashLaws S) (n : Nat) (c : String) (s t : List (String × Val))
    (k l : Key),
    (∀ d, ∀ p ∈ (S.cls d).pk, p ∈ (S.cls d).props ∧ p.extraneous = false) →
    WF S (.rcd c s) → WF S (.rcd c t) → veq S (.rcd c s) (.rcd c t) = .ok true →
    recordId S n (.rcd c s) = .ok k → recordId S n (.rcd c t) = .ok l →
    keyEq S k l = .ok true ∧ hash S n (.rcd c s) = hash S n (.rcd c t)

/-- C28: equal objects have the same identity and the same hash (or raise the same exception), whatever
the recursion limit, if plain containers do not meet typed collections, corresponding dicts have the same
order, and no object is identified by a property its own class declares extraneous.  Missing from the full
claim: equal dict collections filled in different orders, see `C28_violated`. -/
theorem C28_equal_ids_partial (S : Schema) (L : AtomLaws S) (H : HashLaws S) (n : Nat) (a b : Val)
    (wa : WF S a) (wb : WF S b) (m : Unmixed a b) (o : SameShape a b) (e : NoExtraneousKey S (typeOf a) a)
    (h : veq S a b = .ok true) :
    ((∃ x, recordId S n a = .error x ∧ recordId S n b = .error x) ∨
      ∃ k l, recordId S n a = .ok k ∧ recordId S n b = .ok l ∧ keyEq S k l = .ok true) ∧
    hash S n a = hash S n b := by
  have g : Good S (typeOf a) a b := ⟨h, m, o, wa, wb, e⟩
  obtain ⟨h1, h2⟩ := rid_khash_rel L H n
  refine ⟨?_, h2 _ _ (.raw g)⟩
  have := h1 _ _ _ g
  unfold recordId
  rw [← typeOf_eq h m o]
  generalize rid S .none n (typeOf a) .none a = r1 at this ⊢
  generalize rid S .none n (typeOf a) .none b = r2 at this ⊢
  cases this with
  | error x => exact .inl ⟨x, rfl, rfl⟩
  | ok hk => exact .inr ⟨_, _, rfl, rfl, hk.keyEq⟩

/-! ## C29 -/

theorem rid_slots {S : Schema} {n : Nat} {c : String} {v : Val}
    (h : (S.cls c).pk ≠ [] ∨ (S.cls c).coll = .none) :
    rid S .none (n + 1) (.cls c) .none v =
      asTuple (mapE (slotKey S .none (fun c' s w => rid S .none n (.cls c') s w) (fun k => khash S n k) .none v)
        (idProps (S.cls c) .none)) := by
  simp only [rid]
  split
  · rename_i hc hpk
    rw [pkCols_none] at hpk
    rcases h with h | h
    · exact absurd (List.isEmpty_iff.mp hpk) h
    · rw [h] at hc; cases hc
  · rfl

/-- C29: the identity of an object as a `c` depends only on what the identifying properties of `c` read as:
its primary key if it has one, otherwise the properties that are not extraneous. -/
theorem C29_determined (S : Schema) (n : Nat) (c : String) (a b : Val)
    (hc : (S.cls c).pk ≠ [] ∨ (S.cls c).coll = .none)
    (h : ∀ p, Identifies S c p → readAttr S a p.name = readAttr S b p.name) :
    rid S .none n (.cls c) .none a = rid S .none n (.cls c) .none b := by
  cases n with
  | zero => rfl
  | succ n =>
    rw [rid_slots hc, rid_slots hc]
    congr 1
    refine mapE_congr (fun p hp => ?_)
    simp only [slotKey, runHook, h p (idProps_identifies hp)]

/-- C29: the identity is one entry per primary key property in the declared order, or else one per
non-extraneous property in the order of their names. -/
theorem C29_order (S : Schema) (n : Nat) (c : String) (v : Val) (k : Key)
    (hc : (S.cls c).pk ≠ [] ∨ (S.cls c).coll = .none) (h : rid S .none n (.cls c) .none v = .ok k) :
    ∃ (ps : List IProp) (ks : List Key), k = .tup ks ∧ ps.length = ks.length ∧
      ((S.cls c).pk ≠ [] → ps = (S.cls c).pk) ∧
      ((S.cls c).pk = [] → ps.Perm ((S.cls c).props.filter (fun p => !p.extraneous)) ∧
        ps.Pairwise (fun p q => p.name ≤ q.name)) ∧
      ∀ (i : Nat) (p : IProp) (w : Key), ps[i]? = some p → ks[i]? = some w → (∀ c', Ty.cls c' ∉ p.types) →
        w = .raw ((readAttr S v p.name).getD Val.none) := by
  cases n with
  | zero => cases h
  | succ n =>
    rw [rid_slots hc] at h
    cases hm : mapE (slotKey S .none (fun c' s w => rid S .none n (.cls c') s w) (fun k => khash S n k) .none v)
        (idProps (S.cls c) .none) with
    | error e => rw [hm] at h; cases h
    | ok ks =>
      rw [hm] at h
      simp only [asTuple, Except.ok.injEq] at h
      subst h
      have hf := Mfs.mapE_eq_forall2 hm
      refine ⟨idProps (S.cls c) .none, ks, rfl, hf.length_eq, ?_, ?_, ?_⟩
      · intro hpk
        unfold idProps
        rw [pkCols_none, if_neg (fun hh => hpk (List.isEmpty_iff.mp hh))]
      · intro hpk
        unfold idProps
        rw [pkCols_none, if_pos (List.isEmpty_iff.mpr hpk)]
        simp only [passes, List.filter_true]
        refine ⟨List.perm_insertionSort _ _, ?_⟩
        have : Std.Total (fun a b : IProp => a.name ≤ b.name) := ⟨fun a b => String.le_total a.name b.name⟩
        have : IsTrans IProp (fun a b => a.name ≤ b.name) := ⟨fun _ _ _ h h' => String.le_trans h h'⟩
        exact List.pairwise_insertionSort _ _
      · intro i p w hp hw hno
        have := forall₂_get hf hp hw
        simp only [slotKey, runHook] at this
        have hb : ∀ (f : String → Except Exc Key) (ts : List Ty), (∀ c', Ty.cls c' ∉ ts) →
            bestKey f ts [] 0 = .ok [] := by
          intro f ts
          induction ts with
          | nil => intro _; rfl
          | cons t ts ih =>
            intro hts
            cases t with
            | cls c' => exact absurd (by simp) (hts c')
            | other m => exact ih (fun c' hc' => hts c' (by simp [hc']))
        split at this
        · rw [hb _ _ hno] at this
          simp only [checkedKey, List.isEmpty_nil, if_true] at this
          split at this
          · exact (Except.ok.inj this).symm
          · split at this <;> cases this
        · exact (Except.ok.inj this).symm

theorem keyEqL_get {S : Schema} : ∀ {ks ls : List Key}, ks.length = ls.length → keyEqL S ks ls = .ok true →
    ∀ (i : Nat) k l, ks[i]? = some k → ls[i]? = some l → keyEq S k l = .ok true := by
  intro ks
  induction ks with
  | nil => intro ls _ _ i k l hk; simp at hk
  | cons x xs ih =>
    intro ls hl h i k l hk hl'
    cases ls with
    | nil => simp at hl
    | cons y ys =>
      simp only [keyEqL] at h
      split at h
      · cases h
      · cases h
      · rename_i hxy
        cases i with
        | zero => simp at hk hl'; subst hk hl'; exact hxy
        | succ i => exact ih (by simpa using hl) h i k l (by simpa using hk) (by simpa using hl')

/-- C29, the converse, as stated ("exactly"): records with equal identities agree on every identifying
property that holds objects without parts in both. -/
def C29_exact_statement : Prop :=
  ∀ (S : Schema) (_ : AtomLaws S) (_ : HashLaws S) (n : Nat) (c : String) (a b : Val) (k l : Key),
    (S.cls c).coll = .none → rid S .none n (.cls c) .none a = .ok k → rid S .none n (.cls c) .none b = .ok l →
    keyEq S k l = .ok true → ∀ p x y, Identifies S c p → readAttr S a p.name = some (.atom x) →
    readAttr S b p.name = some (.atom y) → S.atomEq x y = true

/-- C29: records with equal identities agree (unset counting as `None`) on every identifying property whose
declared types include no record class.  Missing: properties that may hold either a record or something else,
see `C29_violated`. -/
theorem C29_exact_partial (S : Schema) (n : Nat) (c : String) (a b : Val) (k l : Key)
    (hc : (S.cls c).pk ≠ [] ∨ (S.cls c).coll = .none) (ha : rid S .none n (.cls c) .none a = .ok k)
    (hb : rid S .none n (.cls c) .none b = .ok l) (hk : keyEq S k l = .ok true) (p : IProp)
    (hp : Identifies S c p) (hno : ∀ c', Ty.cls c' ∉ p.types) :
    veq S ((readAttr S a p.name).getD Val.none) ((readAttr S b p.name).getD Val.none) = .ok true := by
  cases n with
  | zero => cases ha
  | succ n =>
    have hp' : p ∈ idProps (S.cls c) .none := by
      unfold Identifies at hp
      unfold idProps
      rw [pkCols_none]
      split at hp
      · rename_i h
        rw [if_pos (List.isEmpty_iff.mpr h)]
        simpa [passes, sortedProps] using hp
      · rename_i h
        rw [if_neg (fun hh => h (List.isEmpty_iff.mp hh))]
        exact hp
    rw [rid_slots hc] at ha hb
    generalize e1 : mapE (slotKey S .none (fun c' s w => rid S .none n (.cls c') s w) (fun k => khash S n k)
      .none a) (idProps (S.cls c) .none) = r1 at ha
    generalize e2 : mapE (slotKey S .none (fun c' s w => rid S .none n (.cls c') s w) (fun k => khash S n k)
      .none b) (idProps (S.cls c) .none) = r2 at hb
    cases r1 with
    | error e => cases ha
    | ok ks =>
      cases r2 with
      | error e => cases hb
      | ok ls =>
        cases ha; cases hb
        have f1 := Mfs.mapE_eq_forall2 e1
        have f2 := Mfs.mapE_eq_forall2 e2
        obtain ⟨i, hi, rfl⟩ := List.getElem_of_mem hp'
        have l1 : i < ks.length := f1.length_eq ▸ hi
        have l2 : i < ls.length := f2.length_eq ▸ hi
        have hraw : ∀ (v : Val) (w : Key), slotKey S .none (fun c' s w => rid S .none n (.cls c') s w)
            (fun k => khash S n k) .none v (idProps (S.cls c) .none)[i] = .ok w →
            w = .raw ((readAttr S v (idProps (S.cls c) .none)[i].name).getD Val.none) := by
          intro v w hw
          generalize (idProps (S.cls c) .none)[i] = q at hw hno ⊢
          simp only [slotKey, runHook] at hw
          have hb : ∀ (f : String → Except Exc Key) (ts : List Ty), (∀ c', Ty.cls c' ∉ ts) →
              bestKey f ts [] 0 = .ok [] := by
            intro f ts
            induction ts with
            | nil => intro _; rfl
            | cons t ts ih =>
              intro hts
              cases t with
              | cls c' => exact absurd (by simp) (hts c')
              | other m => exact ih (fun c' hc' => hts c' (by simp [hc']))
          split at hw
          · rw [hb _ _ hno] at hw
            simp only [checkedKey, List.isEmpty_nil, if_true] at hw
            split at hw
            · exact (Except.ok.inj hw).symm
            · split at hw <;> cases hw
          · exact (Except.ok.inj hw).symm
        have h1 := hraw a _ (forall₂_get f1 (List.getElem?_eq_getElem hi) (List.getElem?_eq_getElem l1))
        have h2 := hraw b _ (forall₂_get f2 (List.getElem?_eq_getElem hi) (List.getElem?_eq_getElem l2))
        have hlen : ks.length = ls.length := f1.length_eq.symm.trans f2.length_eq
        simp only [keyEq, hlen, if_true] at hk
        have := keyEqL_get hlen hk i _ _ (List.getElem?_eq_getElem l1) (List.getElem?_eq_getElem l2)
        rw [h1, h2] at this
        simpa [keyEq] using this

/-! ## Concrete classes -/

namespace Demo

/-- Builtin objects compared by kind and value. -/
def hashOf : Atom → Option Int
  | .none => some 7
  | .bool b => some (if b then 1 else 0)
  | .int i => some i
  | .str s => some s.length
  | .opq n => some n

/-- Some classes: a person with a name, an extraneous note, a home address and a list of tags; an address
identified by its id; a box whose content is a map; a slot that takes a string or an address. -/
def cls (c : String) : ICls :=
  if c = "Person" then
    { props := [{ name := "name" }, { name := "note", extraneous := true },
        { name := "home", types := [.cls "Addr"] }, { name := "tags", types := [.cls "Tags"] }] }
  else if c = "Addr" then
    { props := [{ name := "id" }, { name := "street" }], pk := [{ name := "id" }] }
  else if c = "Tags" then { coll := some (.list, .one (.other 1)) }
  else if c = "Map" then { coll := some (.dict, .one (.other 1)) }
  else if c = "Box" then { props := [{ name := "map", types := [.cls "Map"] }] }
  else if c = "Either" then { props := [{ name := "v", types := [.other 1, .cls "Addr"] }] }
  else if c = "Quiet" then { props := [{ name := "id", extraneous := true }, { name := "street" }] }
  else {}

/-- The classes, with builtin equality of values. -/
def S : Schema where
  cls := cls
  atomEq a b := decide (a = b)
  atomHash := hashOf
  falsy a := decide (a = .none)
  tupleHash hs := hs.foldl (fun x y => 31 * x + y) 17
  mixL _ _ _ := .ok false
  mixD _ _ _ := .ok false

theorem atomLaws : AtomLaws S :=
  ⟨fun a => by simp [S], fun a b h => by simp [S] at h ⊢; exact h.symm,
    fun a b c h h' => by simp [S] at h h' ⊢; exact h.trans h'⟩

theorem hashLaws : HashLaws S :=
  ⟨fun a b h => by simp [S] at h; rw [h], fun a b h => by simp [S] at h; rw [h],
    fun s b h => by simp [S] at h; exact ⟨s, h.symm⟩, fun s b h => by simp [S] at h; exact ⟨s, h⟩,
    fun b h => by simp [S] at h; exact h.symm, fun b h => by simp [S] at h; exact h⟩

/-- An address. -/
def addr (i : Int) (st : String) : Val := .rcd "Addr" [("id", .int i), ("street", .str st)]

/-- A person. -/
def person (nm note : String) (home : Val) (tags : List Val) : Val :=
  .rcd "Person" [("name", .str nm), ("note", .str note), ("home", home), ("tags", .lcoll "Tags" tags)]

/-- The same, slots filled in another order and without note. -/
def person' (nm : String) (home : Val) (tags : List Val) : Val :=
  .rcd "Person" [("tags", .lcoll "Tags" tags), ("home", home), ("name", .str nm)]

-- equal records, one with an extraneous note, slots in different orders; equal identities and hashes
example : veq S (person "ann" "x" (addr 1 "a") [.str "t", .str "u"])
    (person' "ann" (addr 1 "a") [.str "t", .str "u"]) = .ok true := by decide +kernel
example : hash S 9 (person "ann" "x" (addr 1 "a") [.str "t", .str "u"]) =
    hash S 9 (person' "ann" (addr 1 "a") [.str "t", .str "u"]) := by decide +kernel
example : (hash S 9 (person "ann" "x" (addr 1 "a") [.str "t", .str "u"])).isOk = true := by decide +kernel
example : hash S 9 (person "ann" "x" (addr 1 "a") [.str "t", .str "u"]) ≠
    hash S 9 (person "ann" "x" (addr 2 "a") [.str "t", .str "u"]) := by decide +kernel
example : veq S (person "ann" "x" (addr 1 "a") []) (person "ann" "x" (addr 1 "b") []) = .ok false := by
  decide +kernel
-- an empty typed collection cannot be hashed
example : hash S 9 (person "ann" "x" (addr 1 "a") []) = .error .keyHash := by decide +kernel
-- C29: the address is identified by its id
example : hash S 9 (addr 1 "a") = hash S 9 (addr 1 "b") := by decide +kernel
-- C29: a person by home, name and tags, in this order
example : recordId S 9 (person "ann" "x" (addr 1 "a") [.str "t"]) =
    .ok (.tup [.tup [.raw (.int 1)], .raw (.str "ann"), .tup [.raw (.str "t")]]) := by decide +kernel

theorem wf_addr (i : Int) (st : String) : WF S (addr i st) := by
  intro w hw
  unfold addr at hw
  cases hw with
  | self => simp [Proper, S, cls]
  | rcd hm hs =>
    simp only [List.mem_cons, Prod.mk.injEq, List.not_mem_nil, or_false] at hm
    rcases hm with ⟨_, rfl⟩ | ⟨_, rfl⟩ <;> (cases hs; trivial)

/-- The hypotheses of the theorems above hold for real data. -/
theorem wf_person (nm note st : String) (i : Int) (t : String) :
    WF S (person nm note (addr i st) [.str t]) := by
  intro w hw
  unfold person at hw
  cases hw with
  | self => simp [Proper, S, cls]
  | rcd hm hs =>
    simp only [List.mem_cons, Prod.mk.injEq, List.not_mem_nil, or_false] at hm
    rcases hm with ⟨_, rfl⟩ | ⟨_, rfl⟩ | ⟨_, rfl⟩ | ⟨_, rfl⟩
    · cases hs; trivial
    · cases hs; trivial
    · exact wf_addr i st w hs
    · cases hs with
      | self => trivial
      | lcoll hx hs =>
        simp only [List.mem_cons, List.not_mem_nil, or_false] at hx
        subst hx; cases hs; trivial

/-- A box with a map. -/
def box (d : List (Comp × Val)) : Val := .rcd "Box" [("map", .dcoll "Map" d)]

theorem wf_box (a b : Int) : WF S (box [(.str "p", .int a), (.str "q", .int b)]) ∧
    WF S (box [(.str "q", .int b), (.str "p", .int a)]) := by
  constructor <;>
  · intro w hw
    unfold box at hw
    cases hw with
    | self => simp [Proper, S, cls]
    | rcd hm hs =>
      simp only [List.mem_cons, Prod.mk.injEq, List.not_mem_nil, or_false] at hm
      obtain ⟨_, rfl⟩ := hm
      cases hs with
      | self => simp [Proper]
      | dcoll hm hs =>
        simp only [List.mem_cons, Prod.mk.injEq, List.not_mem_nil, or_false] at hm
        rcases hm with ⟨_, rfl⟩ | ⟨_, rfl⟩ <;> (cases hs; trivial)

theorem pks : ∀ d, ∀ p ∈ (S.cls d).pk, p ∈ (S.cls d).props ∧ p.extraneous = false := by
  intro d p hp
  simp only [S, cls] at hp ⊢
  repeat' split at hp
  all_goals simp_all

end Demo

/-- C28 fails: two boxes whose dict collections have the same entries, filled in different orders, are equal
but have different identities and hashes (`record_id` takes the items in insertion order, without their
keys). -/
theorem C28_violated : ¬ C28_statement := by
  intro h
  have w := Demo.wf_box 1 2
  have := h Demo.S Demo.atomLaws Demo.hashLaws 9 "Box" _ _
    (.tup [.tup [.raw (.int 1), .raw (.int 2)]]) (.tup [.tup [.raw (.int 2), .raw (.int 1)]])
    Demo.pks w.1 w.2 (by decide +kernel) (by decide +kernel) (by decide +kernel)
  exact absurd this.2 (by decide +kernel)

/-- C28 also fails when an object is identified through a declared type that is not its own: here a `Quiet`,
which declares `id` extraneous, where an `Addr` is expected. -/
theorem C28_violated_by_declared_type :
    ∃ a b, veq Demo.S a b = .ok true ∧ (∃ x y, hash Demo.S 9 a = .ok x ∧ hash Demo.S 9 b = .ok y ∧ x ≠ y) :=
  ⟨.rcd "Either" [("v", .rcd "Quiet" [("id", .int 1), ("street", .str "s")])],
   .rcd "Either" [("v", .rcd "Quiet" [("id", .int 2), ("street", .str "s")])],
   by decide +kernel, 31 * 17 + (31 * 17 + 1), 31 * 17 + (31 * 17 + 2), by decide +kernel, by decide +kernel,
   by decide⟩

/-- C29 fails in the exact sense: a property that may hold a string or an address identifies every string
alike (`record_id` takes the string as an address without id). -/
theorem C29_violated : ¬ C29_exact_statement := by
  intro h
  have := h Demo.S Demo.atomLaws Demo.hashLaws 9 "Either" (.rcd "Either" [("v", .str "a")])
    (.rcd "Either" [("v", .str "b")]) (.tup [.tup [.raw .none]]) (.tup [.tup [.raw .none]])
    (by decide +kernel) (by decide +kernel) (by decide +kernel) (by decide +kernel)
    { name := "v", types := [.other 1, .cls "Addr"] } (.str "a") (.str "b") (by simp [Identifies, Demo.S, Demo.cls])
    rfl rfl
  exact absurd this (by decide +kernel)

/-- A simple sufficient condition on the classes. -/
theorem noExtraneousKey_of_classes (S : Schema) (nm : String)
    (h1 : ∀ d, ∀ q ∈ (S.cls d).props, q.extraneous = true → q.name = nm)
    (h2 : ∀ c p, Identifies S c p → p.name ≠ nm) (t : Ty) (v : Val) : NoExtraneousKey S t v := by
  intro c d _ p q hp hq hn
  cases he : q.extraneous with
  | false => rfl
  | true => exact absurd (hn ▸ h1 d q hq he) (h2 c p hp)

namespace Demo

/-- The classes without `Quiet`. -/
def S2 : Schema := { S with cls := fun c => if c = "Quiet" then {} else cls c }

theorem ok2 (t : Ty) (v : Val) : NoExtraneousKey S2 t v := by
  refine noExtraneousKey_of_classes S2 "note" ?_ ?_ t v
  · intro d q hq he
    simp only [S2, cls] at hq
    repeat' split at hq
    all_goals simp at hq
    all_goals (try rcases hq with rfl | rfl | rfl | rfl)
    all_goals (try rcases hq with rfl | rfl)
    all_goals (try subst hq)
    all_goals simp_all
  · intro c p hp
    simp only [Identifies, S2, cls] at hp
    repeat' split at hp
    all_goals simp_all
    all_goals (try obtain ⟨hp, he⟩ := hp)
    all_goals (try rcases hp with rfl | rfl | rfl | rfl)
    all_goals (try rcases hp with rfl | rfl)
    all_goals (try subst hp)
    all_goals simp_all

theorem not_faces_flat {P : Val → Val → Prop} (hP : ∀ c d s t, ¬ P (.rcd c s) (.rcd d t))
    (hA : ∀ a b, ¬ P (.atom a) (.atom b)) {c d : String} {s t : List (String × Val)}
    (hs : ∀ x ∈ s, ∃ a, x.2 = .atom a) (ht : ∀ x ∈ t, ∃ a, x.2 = .atom a) :
    ¬ Faces P (.rcd c s) (.rcd d t) := by
  intro h
  cases h with
  | here h => exact hP _ _ _ _ h
  | rcd k hx hy hf =>
    obtain ⟨a, ha⟩ := hs _ (alookup_mem hx)
    obtain ⟨b, hb⟩ := ht _ (alookup_mem hy)
    simp only at ha hb
    subst ha hb
    exact not_faces_atom (hA a b) hf

/-- Tags that turn numbers into strings when a list is compared to them. -/
def toTag : Val → Val
  | .atom (.int i) => .str (if i = 1 then "1" else "?")
  | v => v

/-- Comparing a plain list to `Tags` converts it (coll.py:120-122). -/
def S3 : Schema := { S with mixL := fun _ xs ys => .ok (decide (xs = ys.map toTag)) }

-- why `C27_trans` excludes plain lists next to typed collections: `[1] == Tags(["1"]) == ["1"]`
example : veq S3 (.list [.int 1]) (.lcoll "Tags" [.str "1"]) = .ok true ∧
    veq S3 (.lcoll "Tags" [.str "1"]) (.list [.str "1"]) = .ok true ∧
    veq S3 (.list [.int 1]) (.list [.str "1"]) = .ok false := by decide +kernel

/-- A person with a note, and the same person without one. -/
def ann : Val := .rcd "Person" [("name", .str "ann"), ("note", .str "n")]
/-- The same without. -/
def ann' : Val := .rcd "Person" [("name", .str "ann")]

-- the hypotheses of `C28_equal_ids_partial` are met by these two different objects
example : AtomLaws S2 ∧ HashLaws S2 ∧ WF S2 ann ∧ WF S2 ann' ∧ Unmixed ann ann' ∧ SameShape ann ann' ∧
    NoExtraneousKey S2 (typeOf ann) ann ∧ veq S2 ann ann' = .ok true ∧ ann ≠ ann' ∧
    (hash S2 9 ann).isOk = true := by
  refine ⟨⟨atomLaws.1, atomLaws.2, atomLaws.3⟩,
    ⟨hashLaws.1, hashLaws.2, hashLaws.3, hashLaws.4, hashLaws.5, hashLaws.6⟩, ?_, ?_, ?_, ?_, ok2 _ _,
    by decide +kernel, by decide +kernel, by decide +kernel⟩
  · intro w hw
    unfold ann at hw
    cases hw with
    | self => simp [Proper, S2, cls]
    | rcd hm hs =>
      simp only [List.mem_cons, Prod.mk.injEq, List.not_mem_nil, or_false] at hm
      rcases hm with ⟨_, rfl⟩ | ⟨_, rfl⟩ <;> (cases hs; trivial)
  · intro w hw
    unfold ann' at hw
    cases hw with
    | self => simp [Proper, S2, cls]
    | rcd hm hs =>
      simp only [List.mem_cons, Prod.mk.injEq, List.not_mem_nil, or_false] at hm
      rcases hm with ⟨_, rfl⟩ ; (cases hs; trivial)
  · exact not_faces_flat (fun _ _ _ _ h => h) (fun _ _ h => h) (by simp [Val.str]) (by simp [Val.str])
  · exact not_faces_flat (fun _ _ _ _ h => h) (fun _ _ h => h) (by simp [Val.str]) (by simp [Val.str])

end Demo

end Normalize.Ident
