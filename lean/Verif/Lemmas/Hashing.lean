import Verif.Spec.Hashing
import Verif.Lemmas.MfsGet2

/-!
# Records of declared types have an identity and a hash
-/

namespace Normalize.Ident

open Normalize.Spec
open Normalize.Mfs (alookup_mem)

variable {S : Schema}

/-- From some recursion limit on, all the runs end with results that satisfy `P`. -/
theorem mapE_stable {α β : Type} {f : Nat → α → Except Exc β} {P : β → Prop} {xs : List α}
    (h : ∀ x ∈ xs, ∃ b N, (∀ n, N ≤ n → f n x = .ok b) ∧ P b) :
    ∃ ys N, (∀ n, N ≤ n → mapE (f n) xs = .ok ys) ∧ (∀ y ∈ ys, P y) ∧ ys.length = xs.length := by
  induction xs with
  | nil => exact ⟨[], 0, fun _ _ => rfl, by simp, rfl⟩
  | cons x xs ih =>
    obtain ⟨b, N, hb, hP⟩ := h x (by simp)
    obtain ⟨ys, M, hys, hPs, hl⟩ := ih (fun y hy => h y (by simp [hy]))
    refine ⟨b :: ys, max N M, fun n hn => ?_, ?_, by simp [hl]⟩
    · simp [mapE, hb n (by omega), hys n (by omega)]
    · intro y hy
      rcases List.mem_cons.1 hy with rfl | hy
      · exact hP
      · exact hPs y hy

/-- The key can be hashed. -/
def KeyHashes (S : Schema) (k : Key) : Prop := ∃ h N, ∀ n, N ≤ n → khash S n k = .ok h

theorem KeyHashes.tup {ks : List Key} (h : ∀ k ∈ ks, KeyHashes S k) : KeyHashes S (.tup ks) := by
  obtain ⟨hs, N, hN, -, -⟩ := mapE_stable (f := fun n k => khash S n k) (P := fun _ => True)
    (fun k hk => by obtain ⟨b, N, hb⟩ := h k hk; exact ⟨b, N, hb, trivial⟩)
  refine ⟨S.tupleHash hs, N + 1, fun n hn => ?_⟩
  obtain ⟨m, rfl⟩ : ∃ m, n = m + 1 := ⟨n - 1, by omega⟩
  simp [khash, hN m (by omega)]

theorem KeyHashes.atom {a : Atom} (h : (S.atomHash a).isSome = true) : KeyHashes S (.raw (.atom a)) := by
  obtain ⟨x, hx⟩ := Option.isSome_iff_exists.1 h
  refine ⟨x, 1, fun n hn => ?_⟩
  obtain ⟨m, rfl⟩ : ∃ m, n = m + 1 := ⟨n - 1, by omega⟩
  simp [khash, hx]

/-- Identified as a `c`, the object gets a key that can be hashed. -/
def KeyedAs (S : Schema) (c : String) (v : Val) : Prop :=
  ∃ ks N, (∀ n, N ≤ n → rid S none n (.cls c) none v = .ok (.tup ks)) ∧ KeyHashes S (.tup ks) ∧
    (ks = [] → EmptyColl v ∨ ∃ d s, v = .rcd d s)

/-- What is known about an object of declared types. -/
structure Keyed (S : Schema) (v : Val) : Prop where
  atom : ∀ a, v = .atom a → (S.atomHash a).isSome = true
  cls : ∀ c, IsInstance S (.cls c) v → KeyedAs S c v

theorem ExtendsClass.refl (c : String) : ExtendsClass S c c := ⟨fun _ h => h, rfl⟩

theorem Keyed.raw {v : Val} (h : Keyed S v) (hv : hashable S v = true) : KeyHashes S (.raw v) := by
  match v, hv with
  | .atom a, _ => exact .atom (h.atom a rfl)
  | .rcd c s, _ =>
    obtain ⟨ks, N, hN, ⟨x, M, hM⟩, -⟩ := h.cls c (ExtendsClass.refl c)
    refine ⟨x, max N M + 1, fun n hn => ?_⟩
    obtain ⟨m, rfl⟩ : ∃ m, n = m + 1 := ⟨n - 1, by omega⟩
    simp [khash, hN m (by omega), hM m (by omega)]

/-- The identity of a member of a collection. -/
theorem Keyed.item {it : ItemTy} {v : Val} (h : Keyed S v) (hi : IsItem S it v) :
    ∃ k N, (∀ n, N ≤ n → rid S none n (itemTy it v) none v = .ok k) ∧ KeyHashes S k := by
  have key : ∀ t, IsInstance S t v → ∃ k N, (∀ n, N ≤ n → rid S none n t none v = .ok k) ∧ KeyHashes S k := by
    intro t ht
    match t, v, ht with
    | .other m, .atom a, _ =>
      refine ⟨.raw (.atom a), 1, fun n hn => ?_, .atom (h.atom a rfl)⟩
      obtain ⟨n, rfl⟩ : ∃ m, n = m + 1 := ⟨n - 1, by omega⟩
      simp [rid, hashable, h.atom a rfl]
    | .cls c, v, ht =>
      obtain ⟨ks, N, hN, hk, -⟩ := h.cls c ht
      exact ⟨_, N, hN, hk⟩
  match it, hi with
  | .one t, hi => exact key t hi
  | .tup ts, hi =>
    obtain ⟨t, -, ht⟩ := hi
    refine key (typeOf v) ?_
    match t, v, ht with
    | .other m, .atom a, _ => exact trivial
    | .cls c, .rcd d _, _ => exact ExtendsClass.refl d
    | .cls c, .lcoll d _, _ => exact ExtendsClass.refl d
    | .cls c, .dcoll d _, _ => exact ExtendsClass.refl d

theorem bestKey_other {idOf : String → Except Exc Key} {ts : List Ty} {best : List Key} {n : Nat}
    (h : ∀ t ∈ ts, ∃ n, t = .other n) : bestKey idOf ts best n = .ok best := by
  induction ts with
  | nil => rfl
  | cons t ts ih =>
    obtain ⟨m, rfl⟩ := h t (by simp)
    simp only [bestKey]
    exact ih (fun t ht => h t (by simp [ht]))

/-- Without selector, all the parts are looked at. -/
theorem filter_passes {α : Type} (xs : List α) (f : α → Comp) :
    xs.filter (fun x => passes none (f x)) = xs := by
  simp [passes]

theorem pkCols_all (c : ICls) : pkCols c none = c.pk := by simp [pkCols, passes]

theorem mem_idProps_none {c : String} {p : IProp} : p ∈ idProps (S.cls c) none ↔ Identifies S c p := by
  unfold idProps Identifies
  rw [pkCols_all]
  by_cases h : (S.cls c).pk = []
  · simp [h, passes, sortedProps]
  · simp [h]

theorem Identifies.mem {c : String} {p : IProp} (ok : ClassesOk S) (h : Identifies S c p) :
    p ∈ (S.cls c).props := by
  unfold Identifies at h
  split at h
  · exact h.1
  · exact ok.pk c p h

/-- The value that a property of an object without parts to read contributes. -/
theorem slotKey_eq {idOf : String → Option Heads → Val → Except Exc Key} {hash : Key → Except Exc Int}
    {o : Val} {p : IProp} :
    slotKey S none idOf hash none o p =
      if (readAttr S o p.name).getD .none ≠ Val.none ∧ p.types ≠ [] then
        match bestKey (fun c => idOf c none ((readAttr S o p.name).getD .none)) p.types [] 0 with
        | .error e => .error e
        | .ok best => checkedKey hash best ((readAttr S o p.name).getD .none)
      else .ok (.raw ((readAttr S o p.name).getD .none)) := by
  simp only [slotKey, runHook, subSel]
  rfl

/-- The key of one property of an object. -/
def SlotKeyed (S : Schema) (o : Val) (p : IProp) : Prop :=
  ∃ k N, (∀ n, N ≤ n → slotKey S none (fun c' s w => rid S none n (.cls c') s w) (fun k => khash S n k) none o p
      = .ok k) ∧ KeyHashes S k

theorem slot_none {o : Val} {p : IProp} (ok : ClassesOk S)
    (h : (readAttr S o p.name).getD .none = Val.none) : SlotKeyed S o p := by
  refine ⟨.raw .none, 0, fun n _ => ?_, .atom ok.none⟩
  rw [slotKey_eq, if_neg (by simp [h]), h]

theorem checked_raw {v : Val} (h : KeyHashes S (.raw v)) :
    ∃ N, ∀ n, N ≤ n → checkedKey (fun k => khash S n k) [] v = .ok (.raw v) := by
  obtain ⟨x, N, hN⟩ := h
  exact ⟨N, fun n hn => by simp [checkedKey, hN n hn]⟩

theorem checked_tup {ks : List Key} {v : Val} (hk : ks ≠ []) (h : KeyHashes S (.tup ks)) :
    ∃ N, ∀ n, N ≤ n → checkedKey (fun k => khash S n k) ks v = .ok (.tup ks) := by
  obtain ⟨x, N, hN⟩ := h
  exact ⟨N, fun n hn => by simp [checkedKey, hk, hN n hn]⟩

/-- A property whose types are no record classes. -/
theorem slot_plain {o v : Val} {p : IProp} (hr : (readAttr S o p.name).getD .none = v)
    (ht : ∀ t ∈ p.types, ∃ n, t = .other n) (hk : KeyHashes S (.raw v)) : SlotKeyed S o p := by
  obtain ⟨N, hN⟩ := checked_raw hk
  refine ⟨.raw v, N, fun n hn => ?_, hk⟩
  rw [slotKey_eq, hr, bestKey_other ht]
  split
  · exact hN n hn
  · rfl

/-- A property whose type is a record class. -/
theorem slot_cls {o v : Val} {p : IProp} {c : String} (ok : ClassesOk S)
    (hr : (readAttr S o p.name).getD .none = v)
    (ht : p.types = [.cls c]) (hv : Keyed S v) (hi : IsInstance S (.cls c) v) (he : ¬ EmptyColl v) :
    SlotKeyed S o p := by
  by_cases hn : v = Val.none
  · exact slot_none ok (by rw [hr, hn])
  obtain ⟨ks, N, hN, hk, hks⟩ := hv.cls c hi
  have best : ∀ n, N ≤ n → bestKey (fun c => rid S none n (.cls c) none v) p.types [] 0 = .ok ks := by
    intro n hn
    rw [ht]
    simp [bestKey, hN n hn, Key.members]
  by_cases h0 : ks = []
  · subst h0
    have hh : hashable S v = true := by
      rcases hks rfl with h | ⟨d, s, rfl⟩
      · exact absurd h he
      · rfl
    have hraw := hv.raw hh
    obtain ⟨M, hM⟩ := checked_raw hraw
    refine ⟨.raw v, max N M, fun n hmn => ?_, hraw⟩
    rw [slotKey_eq, hr, best n (by omega), if_pos ⟨hn, by simp [ht]⟩]
    exact hM n (by omega)
  · obtain ⟨M, hM⟩ := checked_tup (v := v) h0 hk
    refine ⟨.tup ks, max N M, fun n hmn => ?_, hk⟩
    rw [slotKey_eq, hr, best n (by omega), if_pos ⟨hn, by simp [ht]⟩]
    exact hM n (by omega)

/-- All the properties together. -/
theorem keyedAs_props {c : String} {v : Val} (hc : (S.cls c).coll = none ∨ (S.cls c).pk ≠ [])
    (hs : ∀ p, Identifies S c p → SlotKeyed S v p)
    (he : (S.cls c).pk = [] → ∃ d s, v = .rcd d s) : KeyedAs S c v := by
  obtain ⟨ks, N, hN, hk, hl⟩ := mapE_stable (xs := idProps (S.cls c) none)
    (f := fun n p => slotKey S none (fun c' s w => rid S none n (.cls c') s w) (fun k => khash S n k) none v p)
    (P := KeyHashes S) (fun p hp => hs p (mem_idProps_none.1 hp))
  refine ⟨ks, N + 1, fun n hn => ?_, .tup hk, fun h0 => ?_⟩
  · obtain ⟨m, rfl⟩ : ∃ m, n = m + 1 := ⟨n - 1, by omega⟩
    have hm := hN m (by omega)
    simp only [rid, pkCols_all]
    rcases hc with hc | hc
    · simp only [hc]
      rw [hm]
      rfl
    · have hp : (S.cls c).pk.isEmpty = false := by simpa using hc
      rw [hp]
      split
      · simp_all
      · rw [hm]; rfl
  · by_cases hp : (S.cls c).pk = []
    · exact .inr (he hp)
    · exfalso
      subst h0
      simp only [idProps, pkCols_all, List.length_nil] at hl
      rw [if_neg (by simpa using hp)] at hl
      exact hp (List.length_eq_zero_iff.1 hl.symm)

/-- All the members of a collection together. -/
theorem keyedAs_items {c : String} {v : Val} {k : CollKind} {it : ItemTy} {xs : List (Comp × Val)}
    (hc : (S.cls c).coll = some (k, it)) (hp : (S.cls c).pk = []) (ht : collTuples S k v = .ok xs)
    (hx : ∀ x ∈ xs, Keyed S x.2) (hi : ∀ x ∈ xs, IsItem S it x.2) (he : xs = [] → EmptyColl v) :
    KeyedAs S c v := by
  obtain ⟨ks, N, hN, hk, hl⟩ := mapE_stable (xs := xs)
    (f := fun n x => rid S none n (itemTy it x.2) none x.2)
    (P := KeyHashes S) (fun x hx' => (hx x hx').item (hi x hx'))
  refine ⟨ks, N + 1, fun n hn => ?_, .tup hk, fun h0 => ?_⟩
  · obtain ⟨m, rfl⟩ : ∃ m, n = m + 1 := ⟨n - 1, by omega⟩
    have hm := hN m (by omega)
    simp only [rid, pkCols_all, hc, hp, List.isEmpty_nil, ht, filter_passes, subSel]
    rw [hm]
    rfl
  · subst h0
    exact .inl (he (List.length_eq_zero_iff.1 hl.symm))

theorem enum_snd {xs : List Val} {x : Comp × Val} (h : x ∈ enum xs) : x.2 ∈ xs := by
  obtain ⟨y, hy, rfl⟩ := List.mem_map.1 h
  exact List.fst_mem_of_mem_zipIdx hy

theorem find_name {ps : List IProp} {p : IProp} (hn : (ps.map IProp.name).Nodup) (hp : p ∈ ps) :
    ps.find? (fun q => q.name == p.name) = some p := by
  induction ps with
  | nil => simp at hp
  | cons q ps ih =>
    rw [List.map_cons, List.nodup_cons] at hn
    rcases List.mem_cons.1 hp with rfl | hp
    · simp
    · have : q.name ≠ p.name := fun h => hn.1 (h ▸ List.mem_map_of_mem (f := IProp.name) hp)
      rw [List.find?_cons_of_neg (by simpa using this)]
      exact ih hn.2 hp

theorem OfDeclared.keyed {v : Val} (ok : ClassesOk S) (hu : NoRecordUnions S) (h : OfDeclared S v) :
    NoEmptyColls S v → Keyed S v := by
  induction h with
  | @atom a ha =>
    intro _
    exact ⟨fun b hb => by cases hb; exact ha, fun c hc => nomatch hc⟩
  | @rcd d s hd hs ht ih =>
    intro hne
    refine ⟨fun a ha => (nomatch ha), fun c hc => ?_⟩
    have hc : ExtendsClass S d c := hc
    refine keyedAs_props (.inl (hc.2 ▸ hd)) (fun p hp => ?_) (fun _ => ⟨d, s, rfl⟩)
    have hpd : p ∈ (S.cls d).props := hc.1 p (hp.mem ok)
    cases hl : alookup s p.name with
    | none =>
      have hr : readAttr S (.rcd d s) p.name = p.unset.map Val.atom := by
        simp [readAttr, hl, unsetOf, propOf, find_name (ok.names d) hpd]
      cases hun : p.unset with
      | none => exact slot_none ok (by rw [hr, hun]; rfl)
      | some a =>
        rcases ok.unset d p hpd a hun with rfl | ⟨ha, hty⟩
        · exact slot_none ok (by rw [hr, hun]; rfl)
        · exact slot_plain (v := .atom a) (by rw [hr, hun]; rfl) hty (.atom ha)
    | some w =>
      have hr : (readAttr S (.rcd d s) p.name).getD .none = w := by simp [readAttr, hl]
      have hmem := alookup_mem hl
      have hw : Keyed S w := ih _ hmem (fun d' s' hsub => hne d' s' (.rcd hmem hsub))
      rcases ht p hpd w hl with rfl | ⟨h0, hh⟩ | ⟨t, htm, hti⟩
      · exact slot_none ok hr
      · exact slot_plain hr (by simp [h0]) (hw.raw hh)
      · rcases hu d p hpd with hall | ⟨c', hc'⟩
        · obtain ⟨m, rfl⟩ := hall t htm
          match w, hti with
          | .atom a, _ => exact slot_plain hr hall (.atom (hw.atom a rfl))
        · rw [hc', List.mem_singleton] at htm
          subst htm
          exact slot_cls ok hr hc' hw hti (hne d s (.self _) c hc p hp w hl)
  | @lcoll d k it xs hd hx hi ih =>
    intro hne
    refine ⟨fun a ha => (nomatch ha), fun c hc => ?_⟩
    have hc : ExtendsClass S d c := hc
    by_cases hp : (S.cls c).pk = []
    · exact keyedAs_items (hc.2 ▸ hd) hp (by simp [collTuples])
        (fun x hx' => ih _ (enum_snd hx') (fun d' s' hsub => hne d' s' (.lcoll (enum_snd hx') hsub)))
        (fun x hx' => hi _ (enum_snd hx'))
        (fun h0 => .inl ⟨d, by simp [enum] at h0; rw [h0]⟩)
    · exact keyedAs_props (.inr hp) (fun p _ => slot_none ok (by simp [readAttr])) (fun h => absurd h hp)
  | @dcoll d k it xs hd hx hi ih =>
    intro hne
    refine ⟨fun a ha => (nomatch ha), fun c hc => ?_⟩
    have hc : ExtendsClass S d c := hc
    by_cases hp : (S.cls c).pk = []
    · exact keyedAs_items (hc.2 ▸ hd) hp (by simp [collTuples])
        (fun x hx' => ih x hx' (fun d' s' hsub => hne d' s' (.dcoll (k := x.1) hx' hsub)))
        hi (fun h0 => .inr ⟨d, by rw [h0]⟩)
    · exact keyedAs_props (.inr hp) (fun p _ => slot_none ok (by simp [readAttr])) (fun h => absurd h hp)

/-- The key of a property that holds an empty collection cannot be hashed. -/
theorem slot_empty {nos : Option SlotHook} {o v : Val} {p : IProp} {c : String} {n : Nat} {k : Key}
    (hr : (readAttr S o p.name).getD .none = v) (ht : p.types = [.cls c])
    (hv : runHook nos v p o = .ok v) (hn' : runHook nos .none p o = .ok .none)
    (hpk : (S.cls c).pk = []) (hcoll : (S.cls c).coll ≠ none) (he : EmptyColl v) :
    slotKey S nos (fun c' s w => rid S nos n (.cls c') s w) (fun k => khash S n k) none o p ≠ .ok k := by
  obtain ⟨⟨kd, it⟩, hc⟩ := Option.ne_none_iff_exists'.1 hcoll
  have hn : v ≠ Val.none := by rcases he with ⟨_, rfl⟩ | ⟨_, rfl⟩ <;> exact Val.noConfusion
  simp only [slotKey, hr, hv, hn', subSel]
  rw [if_pos ⟨hn, by simp [ht]⟩, ht]
  have hcheck : ∀ m k', checkedKey (fun k => khash S m k) [] v ≠ .ok k' := by
    intro m k'
    cases m <;> rcases he with ⟨_, rfl⟩ | ⟨_, rfl⟩ <;> simp [checkedKey, khash, isType, Exc.isCoercion]
  cases n with
  | zero => simp [bestKey, rid]
  | succ n =>
    have : rid S nos (n + 1) (.cls c) none v = .ok (.tup []) := by
      rcases he with ⟨_, rfl⟩ | ⟨_, rfl⟩ <;>
        simp [rid, hc, pkCols_all, hpk, collTuples, enum, mapE, asTuple]
    simp only [bestKey, this, Key.members]
    exact hcheck _ _

/-- So the record has no identity. -/
theorem rid_empty {nos : Option SlotHook} {d c : String} {s : List (String × Val)} {v : Val} {p : IProp}
    {n : Nat} {k : Key} (hd : (S.cls d).coll = none) (hp : Identifies S d p)
    (hr : alookup s p.name = some v) (ht : p.types = [.cls c])
    (hv : runHook nos v p (.rcd d s) = .ok v) (hn' : runHook nos .none p (.rcd d s) = .ok .none)
    (hpk : (S.cls c).pk = []) (hcoll : (S.cls c).coll ≠ none) (he : EmptyColl v) :
    rid S nos n (.cls d) none (.rcd d s) ≠ .ok k := by
  cases n with
  | zero => simp [rid]
  | succ n =>
    simp only [rid, hd]
    intro hk
    cases hm : mapE (slotKey S nos (fun c' s w => rid S nos n (.cls c') s w) (fun k => khash S n k) none
        (.rcd d s)) (idProps (S.cls d) none) with
    | error e => simp [hm, asTuple] at hk
    | ok ks =>
      obtain ⟨k', -, hk'⟩ := mapE_ok_left hm p (mem_idProps_none.2 hp)
      exact slot_empty (by simp [readAttr, hr]) ht hv hn' hpk hcoll he hk'

theorem bestKey_fails {idOf : String → Except Exc Key} {ts : List Ty} {c : String} (hc : .cls c ∈ ts)
    (h : ∀ k, idOf c ≠ .ok k) : ∀ best n ks, bestKey idOf ts best n ≠ .ok ks := by
  induction ts with
  | nil => simp at hc
  | cons t ts ih =>
    intro best n ks
    cases t with
    | other m =>
      simp only [bestKey]
      exact ih (by simpa using hc) best n ks
    | cls d =>
      simp only [bestKey]
      cases hd : idOf d with
      | error e => simp
      | ok k =>
        have hdc : .cls c ∈ ts := by
          rcases List.mem_cons.1 hc with h' | h'
          · cases h'; exact absurd hd (h k)
          · exact h'
        simp only
        split <;> exact ih hdc _ _ ks

/-- A string where a collection is possible: the record has no identity. -/
theorem rid_string {d c t : String} {s : List (String × Val)} {p : IProp}
    {n : Nat} {k : Key} (hd : (S.cls d).coll = none) (hp : Identifies S d p)
    (hr : alookup s p.name = some (.str t)) (ht : .cls c ∈ p.types)
    (hpk : (S.cls c).pk = []) (hcoll : (S.cls c).coll ≠ none) :
    rid S none n (.cls d) none (.rcd d s) ≠ .ok k := by
  obtain ⟨⟨kd, it⟩, hc⟩ := Option.ne_none_iff_exists'.1 hcoll
  cases n with
  | zero => simp [rid]
  | succ n =>
    simp only [rid, hd]
    intro hk
    cases hm : mapE (slotKey S none (fun c' s w => rid S none n (.cls c') s w) (fun k => khash S n k) none
        (.rcd d s)) (idProps (S.cls d) none) with
    | error e => simp [hm, asTuple] at hk
    | ok ks =>
      obtain ⟨k', -, hk'⟩ := mapE_ok_left hm p (mem_idProps_none.2 hp)
      have hv : (readAttr S (.rcd d s) p.name).getD .none = .str t := by simp [readAttr, hr]
      have hne : p.types ≠ [] := List.ne_nil_of_mem ht
      rw [slotKey_eq, hv, if_pos ⟨by simp [Val.str, Val.none], hne⟩] at hk'
      cases hb : bestKey (fun c => rid S none n (.cls c) none (.str t)) p.types [] 0 with
      | error e => simp [hb] at hk'
      | ok best =>
        refine bestKey_fails ht (fun k => ?_) _ _ _ hb
        cases n with
        | zero => simp [rid]
        | succ n => cases kd <;> simp [rid, hc, pkCols_all, hpk, collTuples, Val.str]

end Normalize.Ident
