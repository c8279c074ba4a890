import Verif.Model.Generic
import Verif.Props.CollEq

/-!
# C37: generic collection types
-/

namespace Normalize.Generic

open Normalize.Coll

/-- What is registered under a key was made for that key; identities are distinct and below `next`. -/
structure Inv (w : World) : Prop where
  key : ∀ k g, alookup w.types k = some g → g.key = k ∧ g.key = keyOf g.itemtype g.base
  base : ∀ k g, alookup w.types k = some g → g.base = listCollection ∨ g.base = dictCollection
  lt : ∀ k g, alookup w.types k = some g → g.id < w.next
  inj : ∀ k g k' g', alookup w.types k = some g → alookup w.types k' = some g' → g.id = g'.id → g = g'

theorem inv_empty (attrs : List ((String × String) × Nat)) (n : Nat) : Inv ⟨[], attrs, n⟩ :=
  ⟨fun _ _ h => (by cases h), fun _ _ h => (by cases h), fun _ _ h => (by cases h), fun _ _ _ _ h => (by cases h)⟩

theorem inv_add {w : World} (h : Inv w) (c : Call) (attrs : List ((String × String) × Nat)) :
    Inv ⟨aset w.types (keyOf c.of c.container) (newCls c.of c.container w.next), attrs, w.next + 1⟩ := by
  have cases_on : ∀ k g, alookup (aset w.types (keyOf c.of c.container) (newCls c.of c.container w.next)) k =
      some g → (k = keyOf c.of c.container ∧ g = newCls c.of c.container w.next) ∨ alookup w.types k = some g := by
    intro k g hk
    rw [alookup_aset] at hk
    split at hk
    · next e => exact .inl ⟨e.symm, (Option.some.inj hk).symm⟩
    · exact .inr hk
  refine ⟨?_, ?_, ?_, ?_⟩
  · intro k g hk
    rcases cases_on k g hk with ⟨rfl, rfl⟩ | hk
    · exact ⟨rfl, rfl⟩
    · exact h.key k g hk
  · intro k g hk
    rcases cases_on k g hk with ⟨rfl, rfl⟩ | hk
    · cases c
      · exact .inl rfl
      · exact .inr rfl
    · exact h.base k g hk
  · intro k g hk
    rcases cases_on k g hk with ⟨rfl, rfl⟩ | hk
    · exact Nat.lt_succ_self _
    · exact Nat.lt_succ_of_lt (h.lt k g hk)
  · intro k g k' g' hk hk' e
    rcases cases_on k g hk with ⟨rfl, rfl⟩ | hk <;> rcases cases_on k' g' hk' with ⟨rfl, rfl⟩ | hk'
    · rfl
    · have h1 := h.lt k' g' hk'; have h2 : w.next = g'.id := e; omega
    · have h1 := h.lt k g hk; have h2 : g.id = w.next := e; omega
    · exact h.inj k g k' g' hk hk' e

/-- A call keeps the invariant and never removes or replaces a registered class; if it returns a class, that
class is registered for exactly this container and item type. -/
theorem call_spec {loaded : String → Bool} {c : Call} {w : World} (h : Inv w) :
    Inv (call loaded c w).2 ∧
    (∀ k g, alookup w.types k = some g → alookup (call loaded c w).2.types k = some g) ∧
    (∀ g, (call loaded c w).1 = .ok g → alookup (call loaded c w).2.types (keyOf c.of c.container) = some g ∧
      g.itemtype = c.of) := by
  unfold call makeGeneric
  cases hk : alookup w.types (keyOf c.of c.container) with
  | some g =>
    simp only
    split
    · exact ⟨h, fun _ _ hk => hk, fun _ he => by cases he⟩
    · next hne =>
      refine ⟨h, fun _ _ hk => hk, fun g' he => ?_⟩
      cases he
      exact ⟨hk, by simpa using hne⟩
  | none =>
    have keep : ∀ k g, alookup w.types k = some g →
        alookup (aset w.types (keyOf c.of c.container) (newCls c.of c.container w.next)) k = some g := by
      intro k g hg
      rw [alookup_aset]
      split
      · next e => rw [e, hg] at hk; cases hk
      · exact hg
    simp only
    split
    · refine ⟨inv_add h c _, keep, fun g he => ?_⟩
      cases he
      exact ⟨by rw [alookup_aset, if_pos rfl], rfl⟩
    · exact ⟨inv_add h c _, keep, fun g he => by cases he⟩

theorem calls_spec {loaded : String → Bool} : ∀ {cs : List Call} {w : World}, Inv w →
    Inv (calls loaded cs w).2 ∧
    (∀ k g, alookup w.types k = some g → alookup (calls loaded cs w).2.types k = some g) ∧
    (∀ c g, (c, .ok g) ∈ (calls loaded cs w).1 →
      alookup (calls loaded cs w).2.types (keyOf c.of c.container) = some g ∧ g.itemtype = c.of)
  | [], w, h => ⟨h, fun _ _ hk => hk, fun _ _ hm => by cases hm⟩
  | c :: cs, w, h => by
    obtain ⟨h1, h2, h3⟩ := call_spec (loaded := loaded) (c := c) h
    obtain ⟨i1, i2, i3⟩ := calls_spec (loaded := loaded) (cs := cs) h1
    refine ⟨i1, fun k g hk => i2 k g (h2 k g hk), fun c' g hm => ?_⟩
    rcases List.mem_cons.1 hm with hm | hm
    · obtain ⟨rfl, hg⟩ := Prod.mk.inj hm
      exact ⟨i2 _ _ (h3 g hg.symm).1, (h3 g hg.symm).2⟩
    · exact i3 c' g hm

/-- The start: nothing registered, modules as they are. -/
def start (attrs : List ((String × String) × Nat)) (n : Nat) : World := ⟨[], attrs, n⟩

/-- **C37**: in any sequence of `list_of`/`dict_of` calls, two that return a class return the same class
exactly if they are for the same container and the same item type. -/
theorem C37_unique (loaded : String → Bool) (cs : List Call) (attrs : List ((String × String) × Nat)) (n : Nat)
    (c c' : Call) (g g' : GCls) (h : (c, .ok g) ∈ (calls loaded cs (start attrs n)).1)
    (h' : (c', .ok g') ∈ (calls loaded cs (start attrs n)).1) : g.id = g'.id ↔ c = c' := by
  obtain ⟨inv, _, reg⟩ := calls_spec (loaded := loaded) (cs := cs) (inv_empty attrs n)
  obtain ⟨r1, t1⟩ := reg c g h
  obtain ⟨r2, t2⟩ := reg c' g' h'
  constructor
  · intro e
    have hg := inv.inj _ _ _ _ r1 r2 e
    have k1 := (inv.key _ _ r1).1
    have k2 := (inv.key _ _ r2).1
    subst hg
    have hk : keyOf c.of c.container = keyOf c'.of c'.container := by rw [← k1, ← k2]
    have hn : c.container.name = c'.container.name := congrArg Prod.fst hk
    have ht : c.of = c'.of := by rw [← t1, ← t2]
    have hne : listCollection.name ≠ dictCollection.name := by decide
    cases c <;> cases c' <;> first
      | exact absurd hn hne
      | exact absurd hn.symm hne
      | (have : _ = _ := ht; simp only [Call.of] at this; rw [this])
  · intro e
    subst e
    rw [r1] at r2
    cases r2
    rfl

/-- **C37**: the class is of the asked kind and has the asked item type. -/
theorem C37_class (loaded : String → Bool) (cs : List Call) (attrs : List ((String × String) × Nat)) (n : Nat)
    (c : Call) (g : GCls) (h : (c, .ok g) ∈ (calls loaded cs (start attrs n)).1) :
    g.base = c.container ∧ g.itemtype = c.of := by
  obtain ⟨inv, _, reg⟩ := calls_spec (loaded := loaded) (cs := cs) (inv_empty attrs n)
  obtain ⟨r1, t1⟩ := reg c g h
  refine ⟨?_, t1⟩
  obtain ⟨k1, k2⟩ := inv.key _ _ r1
  have hn : g.base.name = c.container.name := by
    have : keyOf g.itemtype g.base = keyOf c.of c.container := by rw [← k1, k2]
    exact congrArg Prod.fst this
  have hne : listCollection.name ≠ dictCollection.name := by decide
  rcases inv.base _ _ r1 with hb | hb <;> rw [hb] at hn ⊢ <;> cases c <;>
    first | exact absurd hn hne | exact absurd hn.symm hne | rfl

/-- **C37**: once a class has been handed out, asking for the same container with another type of the same
qualified name raises `PropertyNotUnique` and changes nothing; asking with the same type gives the class. -/
theorem C37_clash (loaded : String → Bool) (cs : List Call) (attrs : List ((String × String) × Nat)) (n : Nat)
    (c c' : Call) (g : GCls) (h : (c, .ok g) ∈ (calls loaded cs (start attrs n)).1)
    (hc : c'.container = c.container) (hm : c'.of.module = c.of.module) (hn : c'.of.name = c.of.name) :
    call loaded c' (calls loaded cs (start attrs n)).2 =
      (if c'.of = c.of then .ok g else .error .propertyNotUnique, (calls loaded cs (start attrs n)).2) := by
  obtain ⟨inv, _, reg⟩ := calls_spec (loaded := loaded) (cs := cs) (inv_empty attrs n)
  obtain ⟨r1, t1⟩ := reg c g h
  have hk : keyOf c'.of c'.container = keyOf c.of c.container := by simp only [keyOf, hc, hm, hn]
  have r1 : alookup (calls loaded cs (start attrs n)).2.types (keyOf c.of c.container) = some g := r1
  unfold call makeGeneric
  rw [hk, r1]
  simp only [t1]
  by_cases e : c'.of = c.of
  · simp [e]
  · have : ¬ c.of = c'.of := fun h => e h.symm
    simp [e, this]

/-- **C37**: a name a module already has is never taken over by a generated class. -/
theorem C37_module_names_kept (loaded : String → Bool) (cs : List Call) (w : World) (m : String × String) (o : Nat)
    (h : alookup w.attrs m = some o) : alookup (calls loaded cs w).2.attrs m = some o := by
  induction cs generalizing w with
  | nil => exact h
  | cons c cs ih =>
    refine ih _ ?_
    unfold call makeGeneric
    split
    · split <;> exact h
    · split
      · simp only [publish]
        split
        · exact h
        · next hn =>
          rw [alookup_aset]
          split
          · next e => rw [e, h] at hn; simp at hn
          · exact h
      · exact h

section Pickle

variable {V K : Type} [DecidableEq K] (T : Nat → CT V) (num : Nat → K) (rename : String → String)

/-- All members are of the item type, and dict keys are unique. -/
def Contents.OK (C : CT V) : Contents V K → Prop
  | .list xs => AllItems C xs
  | .dict xs => AllValues C xs ∧ (xs.map (·.1)).Nodup

/-- The contents are of the kind the class is made for. -/
def Contents.fits : Contents V K → Call → Prop
  | .list _, .listOf _ | .dict _, .dictOf _ => True
  | _, _ => False

theorem aset_new' {d : List (K × V)} {k : K} {v : V} (h : k ∉ d.map (·.1)) : aset d k v = d ++ [(k, v)] := by
  induction d with
  | nil => rfl
  | cons y d ih =>
    obtain ⟨k', v'⟩ := y
    simp only [List.map_cons, List.mem_cons, not_or] at h
    unfold aset
    rw [if_neg (fun e => h.1 e.symm), ih h.2]
    rfl

theorem dictOf_id (C : CT V) : ∀ (kvs d : List (K × V)), AllValues C kvs → ((d ++ kvs).map (·.1)).Nodup →
    dictOf C kvs none d = .ok (d ++ kvs)
  | [], d, _, _ => by simp [dictOf]
  | (k, v) :: kvs, d, hv, h => by
    have hk : k ∉ d.map (·.1) := by
      intro hm
      rw [List.map_append, List.nodup_append] at h
      exact h.2.2 k hm k (by simp) rfl
    have hv1 : C.inst v = true := hv (k, v) List.mem_cons_self
    simp only [dictOf, coerceValue_of_inst C hv1, aset_new' hk]
    rw [dictOf_id C kvs _ (fun x hx => hv x (List.mem_cons_of_mem _ hx)) (by simpa using h)]
    simp

theorem construct_id {g : GCls} {c : Call} {v : Contents V K} (hb : g.base = c.container)
    (ht : g.itemtype = c.of) (hf : v.fits c) (hv : v.OK (T c.of.id)) : construct T num g v = .ok v := by
  cases c with
  | listOf t =>
    cases v with
    | list xs =>
      have hi : g.base.isDict = false := by rw [hb]; rfl
      have hv' : AllItems (T t.id) xs := hv
      have ht' : g.itemtype = t := ht
      simp only [construct, hi, listInit, coerceAll_list, ht', mapE_of_all _ hv']
      rfl
    | dict xs => exact hf.elim
  | dictOf t =>
    cases v with
    | list xs => exact hf.elim
    | dict xs =>
      have hi : g.base.isDict = true := by rw [hb]; rfl
      have hv' : AllValues (T t.id) xs ∧ (xs.map (·.1)).Nodup := hv
      have ht' : g.itemtype = t := ht
      simp only [construct, hi, dictInit, ht']
      rw [dictOf_id _ xs [] hv'.1 (by simpa using hv'.2)]
      rfl

/-- **C37**: a pickled generic collection comes back with the same class and the same contents, whatever calls
happened before and after pickling it. -/
theorem C37_pickle (loaded : String → Bool) (cs : List Call) (attrs : List ((String × String) × Nat)) (n : Nat)
    (c : Call) (g : GCls) (h : (c, .ok g) ∈ (calls loaded cs (start attrs n)).1) (v : Contents V K)
    (hf : v.fits c) (hv : v.OK (T c.of.id))
    (hm : "__builtin__".toList.isPrefixOf (c.of.module ++ "." ++ c.of.name).toList = false) :
    unpickle T num rename (calls loaded cs (start attrs n)).2 (reduce g.key v) = .ok (g, v) := by
  obtain ⟨inv, _, reg⟩ := calls_spec (loaded := loaded) (cs := cs) (inv_empty attrs n)
  obtain ⟨r1, t1⟩ := reg c g h
  have hk := (inv.key _ _ r1).1
  have hb := (C37_class loaded cs attrs n c g h).1
  have hfix : fixKey rename (keyOf c.of c.container) = keyOf c.of c.container := by
    unfold fixKey keyOf
    simp only [hm]
    simp
  have hr : alookup (calls loaded cs (start attrs n)).2.types (keyOf c.of c.container) = some g := r1
  simp only [unpickle, reduce, hk, hfix, hr, construct_id T num hb t1 hf hv]
  rfl

/-- **C37**, in another process: it comes back with the class that process has for the same container and item
type, if it has asked for it, and raises `KeyError` if nothing of that name is registered. -/
theorem C37_pickle_other_process (loaded loaded' : String → Bool) (cs cs' : List Call)
    (attrs attrs' : List ((String × String) × Nat)) (n n' : Nat)
    (c : Call) (g : GCls) (h : (c, .ok g) ∈ (calls loaded cs (start attrs n)).1) (v : Contents V K)
    (hf : v.fits c) (hv : v.OK (T c.of.id))
    (hm : "__builtin__".toList.isPrefixOf (c.of.module ++ "." ++ c.of.name).toList = false) :
    (∀ g', (c, .ok g') ∈ (calls loaded' cs' (start attrs' n')).1 →
      unpickle T num rename (calls loaded' cs' (start attrs' n')).2 (reduce g.key v) = .ok (g', v)) ∧
    (alookup (calls loaded' cs' (start attrs' n')).2.types g.key = none →
      unpickle T num rename (calls loaded' cs' (start attrs' n')).2 (reduce g.key v) = .error .keyError) := by
  obtain ⟨inv, _, reg⟩ := calls_spec (loaded := loaded) (cs := cs) (inv_empty attrs n)
  obtain ⟨inv', _, reg'⟩ := calls_spec (loaded := loaded') (cs := cs') (inv_empty attrs' n')
  obtain ⟨r1, t1⟩ := reg c g h
  have hk := (inv.key _ _ r1).1
  constructor
  · intro g' h'
    obtain ⟨r2, t2⟩ := reg' c g' h'
    have := C37_pickle T num rename loaded' cs' attrs' n' c g' h' v hf hv hm
    rw [(inv'.key _ _ r2).1] at this
    rw [hk]
    exact this
  · intro hnone
    have hfix : fixKey rename g.key = g.key := by
      rw [hk]
      unfold fixKey keyOf
      simp only [hm]
      simp
    simp only [unpickle, reduce, hfix, hnone]

/-- Not so for an instance of a subclass of a generated class, which inherits `generic_key`: it comes back as
an instance of the generated class. -/
theorem C37_subclass_lost (w : World) (g : GCls) (v : Contents V K) (r : GCls × Contents V K) (sub : Nat)
    (hg : alookup w.types (fixKey rename g.key) = some g) (hsub : sub ≠ g.id)
    (h : unpickle T num rename w (reduce g.key v) = .ok r) : r.1.id ≠ sub := by
  simp only [unpickle, reduce, hg] at h
  cases hc : construct T num g v with
  | error e => rw [hc] at h; cases h
  | ok c =>
    rw [hc] at h
    cases h
    exact fun e => hsub e.symm

end Pickle

/-! ## Examples -/

namespace Demo

/-- Two classes of the same qualified name, and another one. -/
def a : PyType := ⟨10, "app", "Item"⟩
def a' : PyType := ⟨11, "app", "Item"⟩
def b : PyType := ⟨12, "app", "Thing"⟩
def lost : PyType := ⟨13, "gone", "Item"⟩

/-- Is the module loaded? -/
def loaded (m : String) : Bool := m == "app"

/-- A history: repeated calls give the same class, the clash raises, a module that is not loaded raises the
first time only. -/
example : ((calls loaded [.listOf a, .dictOf a, .listOf a, .listOf b, .listOf a', .listOf lost, .listOf lost]
      (start [(("app", "ItemList"), 5)] 100)).1.map (fun x => x.2.map GCls.id)) =
    [.ok 100, .ok 101, .ok 100, .ok 102, .error .propertyNotUnique, .error .keyError, .ok 103] := by
  decide +kernel

/-- The hypotheses of `C37_pickle`. -/
example : (Call.listOf a, .ok (newCls a listCollection 100)) ∈ (calls loaded [.listOf a, .dictOf b] (start [] 100)).1 ∧
    "__builtin__".toList.isPrefixOf (a.module ++ "." ++ a.name).toList = false ∧
    (Contents.list [Sum.inl 3] : Contents Coll.Demo.W Nat).fits (.listOf a) ∧
    (Contents.list [Sum.inl 3] : Contents Coll.Demo.W Nat).OK Coll.Demo.nums := by
  refine ⟨by decide +kernel, by decide +kernel, trivial, ?_⟩
  intro x hx
  rw [List.mem_singleton.1 hx]
  rfl

end Demo

end Normalize.Generic
