import Verif.Lemmas.Observe

/-!
# C109: looking at records
-/

namespace Normalize.Observe

open Slots (World PropDef Cls State)

variable {V : Type} [DecidableEq V] {S : Setup V}

/-- Comparing, hashing, printing with `str`, marshalling, diffing, visiting and reading attributes of records, in any
order and number, changes nothing that these operations find: each returns or raises what it would have if none had
been done before. -/
theorem C109 (hS : Readers S) {h h' : Heap V} (hl : Looked S h h') (d : Nat) (o : Look V) (r : Except Exc (Out V)) :
    Finds S d h' o r ↔ Finds S d h o r := by
  have h1 := gives_iff hS (reads_look hS d o) (looked_cached hS hl) r
  have h2 := gives_iff hS (reads_look hS d o) (cached_refl h) r
  exact h1.trans h2.symm

/-- All they do is to store values of lazy attributes that are not set: those that reading them gives. -/
theorem C109_stores (hS : Readers S) {h h' : Heap V} (hl : Looked S h h') (i : Nat) (nm : String) :
    (h' i).slots nm = (h i).slots nm ∨
    (IsLazy S i nm ∧ (h i).slots nm = none ∧ ∃ v, (h' i).slots nm = some v ∧ Finds S 0 h (.attr i nm) (.ok (.val v))) := by
  rcases looked_cached hS hl i nm with h1 | ⟨h1, h2, v, n, h3, h4⟩
  · exact Or.inl h1
  · refine Or.inr ⟨h1, h2, v, h3, ?_⟩
    refine (gives_iff hS (reads_look hS 0 (.attr i nm)) (cached_refl h) _).mpr ⟨n, ?_⟩
    show freshRun (fresh S n h) h (.get i nm _) = _
    simp only [freshRun, h4]
    rfl

/-- If every lazy attribute is set, or there is none, they change nothing: `repr` and pickles are as before. -/
theorem C109_shown_partial (hS : Readers S) {h h' : Heap V} (hl : Looked S h h') {i : Nat}
    (hz : ∀ nm, IsLazy S i nm → (h i).slots nm ≠ none) : shown S h' i = shown S h i := by
  unfold shown
  refine List.map_congr_left ?_
  intro nm _
  rcases C109_stores hS hl i nm with h1 | ⟨h1, h2, _⟩
  · rw [h1]
  · exact absurd h2 (hz nm h1)

/-- Where the attributes that are assigned and deleted are not lazy and no lazy default looks at them, a history with
such operations on records is the same without them: assignments and deletions end as they did, and what is found at
the end is the same. -/
theorem C109_later_partial (hS : Readers S) {h h' : Heap V} {es : List (Event V)} {rs : List (Except Exc V)}
    (hes : ∀ e ∈ es, ∀ x, e.name = some x → Apart S x) (hr : Runs S h es rs h') :
    ∃ h'', Runs S h (es.filter Event.changes) rs h'' ∧ ∀ d o r, Finds S d h' o r ↔ Finds S d h'' o r := by
  obtain ⟨b, h1, h2⟩ := runs_erase hS hes hr h (cached_refl h)
  refine ⟨b, h1, fun d o r => ?_⟩
  have h3 := gives_iff hS (reads_look hS d o) h2 r
  have h4 := gives_iff hS (reads_look hS d o) (cached_refl b) r
  exact h3.trans h4.symm

/-! ## The theorems apply -/

/-- `default=lambda self: self.price + self.tax` -/
def exTotal (i : Nat) : Code Int Int :=
  (Code.get i "price" .done).thenDo fun a => (Code.get i "tax" .done).thenDo fun b => .done (.ok (a + b))

def exItem : Cls Int :=
  { props := [("price", {}), ("tax", {}), ("total", { kind := .lazySafe }), ("note", {})] }

/-- Records with two numbers, their lazy total and a note, and records with such a record in an attribute; the
numbers from 1000 on stand for records. -/
def exShop : Setup Int :=
  { w := ⟨-1, -2, fun a b => a == b⟩
    typ := fun i => if i < 10 then 0 else 1
    cls := fun t => if t = 0 then exItem else { props := [("item", {})] }
    dflt := fun t nm => if t = 0 ∧ nm = "total" then some exTotal else none
    asRec := fun v => if 1000 ≤ v then some (v - 1000).toNat else none
    keyNames := fun t => if t = 0 then ["note", "price", "tax", "total"] else ["item"]
    diffNames := fun t => if t = 0 then ["note", "price", "tax", "total"] else ["item"] }

theorem exTotal_reads (i : Nat) : Reads exShop (exTotal i) :=
  reads_thenDo (reads_get i "price") fun _ => reads_thenDo (reads_get i "tax") fun _ => .done

theorem exShop_dflt {t : Nat} {nm : String} {f : Nat → Code Int Int} (h : exShop.dflt t nm = some f) : f = exTotal := by
  simp only [exShop] at h
  split at h
  · exact (Option.some.inj h).symm
  · cases h

theorem exShop_readers : Readers exShop where
  dflt i nm f h := by rw [exShop_dflt h]; exact exTotal_reads i
  compareAs i nm f h := by cases h

def exPrice (a b : Int) : State Int := ((State.empty.put "price" a).put "tax" b)

/-- Two items, and two records that hold them. -/
def exShopH : Heap Int := fun i =>
  if i = 0 then exPrice 3 1 else if i = 1 then exPrice 3 1 else if i = 10 then State.empty.put "item" 1000
  else if i = 11 then State.empty.put "item" 1001 else .empty

/-- The outer records are equal; to find that out, the totals are computed. -/
example : (run exShop 3 (Look.code exShop 5 (.eq 1010 1011)) exShopH).map
    (fun q => (q.1.toOption.map (fun | Out.flag b => b | _ => false), (q.2 0).slots "total", (q.2 1).slots "total")) =
    some (some true, some 4, some 4) := by decide +kernel

theorem exShop_looked {h : Heap Int} {r : Except Exc (Out Int)}
    (hr : run exShop 3 (Look.code exShop 5 (.eq 1010 1011)) exShopH = some (r, h)) : Looked exShop exShopH h :=
  .step .refl hr

/-- Whatever is found afterwards is what is found without that. -/
example {h : Heap Int} {r : Except Exc (Out Int)}
    (hr : run exShop 3 (Look.code exShop 5 (.eq 1010 1011)) exShopH = some (r, h)) (x : Except Exc (Out Int)) :
    Finds exShop 5 h (.json false 1010) x ↔ Finds exShop 5 exShopH (.json false 1010) x :=
  C109 exShop_readers (exShop_looked hr) 5 _ x

theorem exShop_find {i : Nat} {nm : String} (hn : nm ≠ "total") : ¬ IsLazy exShop i nm := by
  rintro ⟨p, h1, h2⟩
  have h1 : ((if exShop.typ i = 0 then exItem else { props := [("item", {})] } : Cls Int)).find nm = some p := h1
  unfold Cls.find at h1
  obtain ⟨q, hq, rfl⟩ := Option.map_eq_some_iff.mp h1
  have hm := List.mem_of_find?_eq_some hq
  have hp := List.find?_some hq
  have hp : q.1 = nm := by simpa using hp
  split at hm
  · simp only [exItem, List.mem_cons, List.not_mem_nil, or_false] at hm
    rcases hm with rfl | rfl | rfl | rfl
    · cases h2
    · cases h2
    · exact hn hp.symm
    · cases h2
  · simp only [List.mem_cons, List.not_mem_nil, or_false] at hm
    subst hm
    cases h2

/-- Notes may be written: no total depends on them. -/
theorem exShop_note : Apart exShop "note" where
  eager i := exShop_find (by decide)
  dflt i nm f h := by
    rw [exShop_dflt h]
    refine .get (by decide) fun r => ?_
    cases r with
    | error e => exact .done
    | ok a =>
      refine .get (by decide) fun r => ?_
      cases r with
      | error e => exact .done
      | ok b => exact .done

example {h' : Heap Int} {rs : List (Except Exc Int)} (hr : Runs exShop exShopH
    [.look 5 (.eq 1010 1011), .set 0 "note" 7, .look 5 (.key 1000), .del 1 "note"] rs h') :
    ∃ h'', Runs exShop exShopH [.set 0 "note" 7, .del 1 "note"] rs h'' ∧
      ∀ d o r, Finds exShop d h' o r ↔ Finds exShop d h'' o r := by
  refine C109_later_partial exShop_readers ?_ hr
  intro e he x hx
  simp only [List.mem_cons, List.not_mem_nil, or_false] at he
  rcases he with rfl | rfl | rfl | rfl
  · cases hx
  · cases hx; exact exShop_note
  · cases hx
  · cases hx; exact exShop_note

/-- Where the totals are there, nothing changes. -/
example {h' : Heap Int} (hl : Looked exShop (fun i => (exShopH i).put "total" 4) h') (i : Nat) :
    shown exShop h' i = shown exShop (fun i => (exShopH i).put "total" 4) i := by
  refine C109_shown_partial exShop_readers hl ?_
  intro nm hn
  by_cases h : nm = "total"
  · subst h
    simp [State.put]
  · exact absurd hn (exShop_find h)

/-! ## What does not hold -/

/-- Looking at a record does not change what `repr` prints and what pickles contain. -/
def C109_shown_statement : Prop := ∀ (V : Type) (_ : DecidableEq V) (S : Setup V) (h h' : Heap V) (i : Nat),
  Readers S → Looked S h h' → shown S h' i = shown S h i

/-- Comparing a record makes its lazy attributes appear in its `repr`. -/
theorem C109_shown_violated : ¬ C109_shown_statement := by
  intro hst
  cases hr : run exShop 3 (Look.code exShop 5 (.eq 1010 1011)) exShopH with
  | none =>
    have h2 : (run exShop 3 (Look.code exShop 5 (.eq 1010 1011)) exShopH).isSome = true := by decide +kernel
    rw [hr] at h2
    cases h2
  | some q =>
    obtain ⟨r, h⟩ := q
    have h1 := hst Int inferInstance exShop exShopH h 0 exShop_readers (exShop_looked hr)
    have h2 : (run exShop 3 (Look.code exShop 5 (.eq 1010 1011)) exShopH).map (fun q => shown exShop q.2 0) =
        some [("price", some 3), ("tax", some 1), ("total", some 4), ("note", none)] := by decide +kernel
    rw [hr] at h2
    have h2 : shown exShop h 0 = _ := Option.some.inj h2
    rw [h1] at h2
    exact absurd h2 (by decide +kernel)

/-- Leaving out such operations from a history does not change what is found at its end. -/
def C109_later_statement : Prop := ∀ (V : Type) (_ : DecidableEq V) (S : Setup V) (h h1 h2 : Heap V)
  (es : List (Event V)) (rs rs' : List (Except Exc V)), Readers S → Runs S h es rs h1 →
  Runs S h (es.filter Event.changes) rs' h2 → ∀ d o r, Finds S d h1 o r → Finds S d h2 o r

/-- The item after its price has been set to 5. -/
def exNewPrice (s : State Int) : State Int := (Slots.setAttr exShop.w (exShop.clsOf 0) s "price" 5).2

/-- An item is compared, then its price is changed: its total remains the old one. -/
theorem C109_later_violated : ¬ C109_later_statement := by
  intro hst
  cases hr : run exShop 3 (Look.code exShop 5 (.eq 1010 1011)) exShopH with
  | none =>
    have h2 : (run exShop 3 (Look.code exShop 5 (.eq 1010 1011)) exShopH).isSome = true := by decide +kernel
    rw [hr] at h2
    cases h2
  | some q =>
    obtain ⟨r, h⟩ := q
    have hold : (run exShop 3 (Look.code exShop 5 (.eq 1010 1011)) exShopH).map
        (fun q => (exNewPrice (q.2 0)).slots "total") = some (some 4) := by decide +kernel
    rw [hr] at hold
    have hold := Option.some.inj hold
    have f1 : Finds exShop 0 (upd h 0 (exNewPrice (h 0))) (.attr 0 "total") (.ok (.val 4)) := by
      refine ⟨1, upd h 0 (exNewPrice (h 0)), ?_⟩
      have hs : ((upd h 0 (exNewPrice (h 0))) 0).slots "total" = some 4 := hold
      show runCode exShop (getAt exShop 1) (.get 0 "total" _) _ = _
      simp only [runCode, getAt, hs]
      rfl
    have f2 := hst Int inferInstance exShop exShopH _ _ [.look 5 (.eq 1010 1011), .set 0 "price" 5] _ _
      exShop_readers (.look hr (.set .nil)) (.set .nil) 0 (.attr 0 "total") (.ok (.val 4)) f1
    have f3 : Finds exShop 0 (upd exShopH 0 (exNewPrice (exShopH 0))) (.attr 0 "total") (.ok (.val 6)) :=
      ⟨2, _, rfl⟩
    obtain ⟨m, g1⟩ := (gives_iff exShop_readers (reads_look exShop_readers 0 (.attr 0 "total")) (cached_refl _) _).mp f2
    obtain ⟨m', g2⟩ := (gives_iff exShop_readers (reads_look exShop_readers 0 (.attr 0 "total")) (cached_refl _) _).mp f3
    have g1 := freshRun_mono (fun i nm r => fresh_le (Nat.le_max_left m m') _ i nm r) _ _ g1
    have g2 := freshRun_mono (fun i nm r => fresh_le (Nat.le_max_right m m') _ i nm r) _ _ g2
    have g3 := Option.some.inj (g1.symm.trans g2)
    cases g3

/-- Leaving out such operations from a history does not change how its assignments and deletions end. -/
def C109_results_statement : Prop := ∀ (V : Type) (_ : DecidableEq V) (S : Setup V) (h h1 h2 : Heap V)
  (es : List (Event V)) (rs rs' : List (Except Exc V)), Readers S → Runs S h es rs h1 →
  Runs S h (es.filter Event.changes) rs' h2 → rs = rs'

/-- Deleting a lazy attribute is a `KeyError`, unless something happened to look at it before. -/
theorem C109_results_violated : ¬ C109_results_statement := by
  intro hst
  cases hr : run exShop 3 (Look.code exShop 5 (.eq 1010 1011)) exShopH with
  | none =>
    have h2 : (run exShop 3 (Look.code exShop 5 (.eq 1010 1011)) exShopH).isSome = true := by decide +kernel
    rw [hr] at h2
    cases h2
  | some q =>
    obtain ⟨r, h⟩ := q
    have hold : (run exShop 3 (Look.code exShop 5 (.eq 1010 1011)) exShopH).map
        (fun q => (Slots.delAttr exShop.w (exShop.clsOf 0) (q.2 0) "total").1) = some (.ok (-1)) := by decide +kernel
    rw [hr] at hold
    have hold : (Slots.delAttr exShop.w (exShop.clsOf 0) (h 0) "total").1 = .ok (-1) := Option.some.inj hold
    have h1 := hst Int inferInstance exShop exShopH _ _ [.look 5 (.eq 1010 1011), .del 0 "total"] _ _
      exShop_readers (.look hr (.del .nil)) (.del .nil)
    have h2 := (List.cons.inj h1).1
    rw [hold] at h2
    exact absurd h2 (by decide +kernel)

end Normalize.Observe
