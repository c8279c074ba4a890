import Verif.Spec.MemShare
import Verif.Props.Mem

/-!
# C140: writing one value to all items
-/

namespace Normalize.Mem
open Normalize.Spec

theorem put_keeps_exist {E : Env} (hE : Polite E) {m : Mem} {x : Ref} {p : FS} {a : Atom} (hx : Exist m x) :
    Exist (put E p (.atom a) x m).2 x := by
  obtain ⟨G, h⟩ := put_steps hE p (.atom a) x m _ (reg_part hx) trivial (in_part x)
  intro l hl
  exact h.reg.bdd l (h.reg.part ((in_part x).mono h.sub) hl)

theorem exist_intact {m m' : Mem} {r : Ref} (h : Intact m m' r) (hr : Exist m r) : Exist m' r := by
  intro l hl
  have h1 := (part_intact h).mp hl
  have h2 := h l h1
  rw [List.getElem?_eq_getElem (hr l h1)] at h2
  exact (List.getElem?_eq_some_iff.mp h2).1

theorem separate_symm {m : Mem} {r s : Ref} (h : Separate m r s) : Separate m s r := fun l hl => h l ⟨hl.2, hl.1⟩

/-- Writing an object without parts to one of them. -/
theorem put_apart {E : Env} (hE : Polite E) {m : Mem} {xs : List Ref} {x : Ref} {p : FS} {a : Atom} (h : AllApart m xs)
    (hx : x ∈ xs) : AllApart (put E p (.atom a) x m).2 xs := by
  have key : ∀ s ∈ xs, x ≠ s → Intact m (put E p (.atom a) x m).2 s ∧ Separate (put E p (.atom a) x m).2 x s := by
    intro s hs hne
    have := C93 (ws := [.put p (.atom a)]) hE (h.1 x hx) (by
      intro w hw
      simp only [List.mem_singleton] at hw
      subst hw
      intro l hl; cases hl) (h.1 s hs) (h.2 x hx s hs hne) (by
      intro w hw
      simp only [List.mem_singleton] at hw
      subst hw
      rintro l ⟨hl, _⟩; cases hl)
    exact this
  refine ⟨fun r hr => ?_, fun r hr s hs hne => ?_⟩
  · by_cases he : x = r
    · subst he; exact put_keeps_exist hE (h.1 x hx)
    · exact exist_intact (key r hr he).1 (h.1 r hr)
  · by_cases he : x = r
    · subst he; exact (key s hs hne).2
    · by_cases he' : x = s
      · subst he'; exact separate_symm (key r hr (fun e => hne e.symm)).2
      · rintro l ⟨h1, h2⟩
        exact h.2 r hr s hs hne l ⟨(part_intact (key r hr he).1).mp h1, (part_intact (key s hs he').1).mp h2⟩

theorem forItems_apart {E : Env} (hE : Polite E) {all : List Ref} {p : FS} {a : Atom} : ∀ (xs : List Ref) (m : Mem),
    (∀ r ∈ xs, r ∈ all) → AllApart m all → AllApart (forItems (put E p (.atom a)) xs m).2 all := by
  intro xs
  induction xs with
  | nil => intro m _ h; exact h
  | cons x xs ih =>
    intro m hsub h
    have h1 := put_apart (p := p) (a := a) hE h (hsub x List.mem_cons_self)
    simp only [forItems]
    split
    · next e m' he => rw [he] at h1; exact h1
    · next m' he =>
      rw [he] at h1
      exact ih m' (fun r hr => hsub r (List.mem_cons_of_mem _ hr)) h1

/-! ## C140 -/

/-- C140 for a value without parts, like a text or a number, whether or not there is an exception. -/
theorem C140_partial {E : Env} (hE : Polite E) {m : Mem} {xs : List Ref} {x : Ref} {a : Atom} {p : FS} (hp : p ≠ [])
    (hx : deref m x = .list xs) (h : AllApart m xs) : AllApart (put E (.none :: p) (.atom a) x m).2 xs := by
  cases p with
  | nil => exact absurd rfl hp
  | cons c p =>
    rw [put]
    · simp only [hx, iterObj]
      exact forItems_apart hE xs m (fun _ hr => hr) h
    · exact fun h => nomatch h

theorem put_takes {E : Env} {m : Mem} {nm : String} {l : Nat} {cls : String} {sl : List (String × Ref)} {v : Ref}
    (hm : m[l]? = some (.rcd cls sl)) (ha : E.attr cls nm = none) :
    put E [.str nm] v (.ptr l) m = (.ok (), m.set l (.rcd cls (aset sl nm v))) := by
  simp [put, put1, deref, hm, tryIndex, setAttr, ha, store]

/-- Holds the value. -/
def Holds (E : Env) (m : Mem) (nm : String) (v r : Ref) : Prop := get E [.str nm] r m = .ok (m, v)

theorem holds_iff {E : Env} {m : Mem} {nm : String} {l : Nat} {cls : String} {sl : List (String × Ref)} {v : Ref}
    (hm : m[l]? = some (.rcd cls sl)) (h : alookup sl nm = some v) : Holds E m nm v (.ptr l) := by
  simp [Holds, get, step, deref, hm, tryIndex, getAttr, h]

theorem alookup_aset_self {κ α : Type} [DecidableEq κ] (d : List (κ × α)) (k : κ) (v : α) : alookup (aset d k v) k = some v := by
  induction d with
  | nil => simp [aset, alookup]
  | cons e d ih =>
    obtain ⟨k', v'⟩ := e
    simp only [aset]
    split
    · next h => subst h; simp [alookup]
    · next h => simp [alookup, h, ih]

theorem forItems_holds {E : Env} {nm : String} {v : Ref} {all : List Ref} : ∀ (xs : List Ref) (m : Mem) (done : List Ref),
    (∀ r ∈ xs, r ∈ all) → (∀ r ∈ all, Takes E m nm r) →
    (∀ r ∈ done, ∃ l cls sl, r = .ptr l ∧ m[l]? = some (.rcd cls sl) ∧ alookup sl nm = some v) →
    ∃ m', forItems (put E [.str nm] v) xs m = (.ok (), m') ∧
      ∀ r, r ∈ done ∨ r ∈ xs → ∃ l cls sl, r = .ptr l ∧ m'[l]? = some (.rcd cls sl) ∧ alookup sl nm = some v := by
  intro xs
  induction xs with
  | nil => intro m done _ _ hd; exact ⟨m, rfl, fun r hr => hd r (hr.resolve_right (by simp))⟩
  | cons x xs ih =>
    intro m done hsub htk hd
    obtain ⟨l, cls, sl, rfl, hm, ha⟩ := htk x (hsub x List.mem_cons_self)
    have hput := put_takes (v := v) hm ha
    have hl : l < m.length := (List.getElem?_eq_some_iff.mp hm).1
    have hself : (m.set l (.rcd cls (aset sl nm v)))[l]? = some (.rcd cls (aset sl nm v)) := by
      simp [hl]
    have hother : ∀ l', l ≠ l' → (m.set l (.rcd cls (aset sl nm v)))[l']? = m[l']? := fun l' hne => by
      rw [List.getElem?_set_ne hne]
    obtain ⟨m', h1, h2⟩ := ih (m.set l (.rcd cls (aset sl nm v))) (.ptr l :: done)
      (fun r hr => hsub r (List.mem_cons_of_mem _ hr))
      (fun r hr => by
        obtain ⟨l', cls', sl', rfl, hm', ha'⟩ := htk r hr
        by_cases he : l = l'
        · subst he
          rw [hm] at hm'; cases hm'
          exact ⟨l, cls, _, rfl, hself, ha⟩
        · exact ⟨l', cls', sl', rfl, (hother l' he).trans hm', ha'⟩)
      (fun r hr => by
        rcases List.mem_cons.mp hr with rfl | hr
        · exact ⟨l, cls, _, rfl, hself, alookup_aset_self sl nm v⟩
        · obtain ⟨l', cls', sl', rfl, hm', ha'⟩ := hd r hr
          by_cases he : l = l'
          · subst he
            exact ⟨l, cls, _, rfl, hself, alookup_aset_self sl nm v⟩
          · exact ⟨l', cls', sl', rfl, (hother l' he).trans hm', ha'⟩)
    refine ⟨m', ?_, fun r hr => ?_⟩
    · simp only [forItems, hput, h1]
    · apply h2
      rcases hr with hr | hr
      · exact .inl (List.mem_cons_of_mem _ hr)
      · rcases List.mem_cons.mp hr with rfl | hr
        · exact .inl List.mem_cons_self
        · exact .inr hr

/-- The value itself is put into all items: each of them holds the same object, and none a copy. -/
theorem C140_same {E : Env} {m : Mem} {xs : List Ref} {x v : Ref} {nm : String} (hx : deref m x = .list xs)
    (ht : ∀ r ∈ xs, Takes E m nm r) : ∃ m', put E [.none, .str nm] v x m = (.ok (), m') ∧
      ∀ r ∈ xs, get E [.str nm] r m' = .ok (m', v) := by
  obtain ⟨m', h1, h2⟩ := forItems_holds (v := v) xs m [] (fun _ hr => hr) ht (fun r hr => by cases hr)
  refine ⟨m', ?_, fun r hr => ?_⟩
  · rw [put]
    · simp only [hx, iterObj, h1]
    · exact fun h => nomatch h
  · obtain ⟨l, cls, sl, rfl, h3, h4⟩ := h2 r (.inr hr)
    exact holds_iff h3 h4

/-- A list of two records, and another list. -/
def exTwo : Mem := [.list [.ptr 1, .ptr 2], .rcd "P" [], .rcd "P" [], .list [.atom (.int 1)]]

/-- So the value, if it can be changed, is a part of all of them. -/
theorem C140_violated : ¬ C140_statement := by
  intro h
  have hsep : ∀ {r s : Nat}, r ≠ s → r ≠ 0 → s ≠ 0 → Separate exTwo (.ptr r) (.ptr s) := by
    intro r s hne hr hs
    have hp : ∀ {r l : Nat}, r ≠ 0 → PartOf exTwo (.ptr r) l → l = r := by
      intro r l hr hp
      refine part_in (A := fun l => l = r) hp ?_ rfl
      intro l o e ho k hk
      subst e
      match l, hr with
      | 1, _ => cases ho; cases hk
      | 2, _ => cases ho; cases hk
      | 3, _ => cases ho; simp [kids] at hk; subst hk; trivial
      | n + 4, _ => simp [exTwo] at ho
    rintro l ⟨h1, h2⟩
    exact hne ((hp hr h1).symm.trans (hp hs h2))
  have hex : ∀ {l : Nat}, l < 4 → Exist exTwo (.ptr l) := fun hl =>
    exist_closed (by decide +kernel) (by intro l e; cases e; exact hl)
  have hc := h exEnv exTwo [.ptr 1, .ptr 2] (.ptr 0) (.ptr 3) [.str "plain"] ex_polite (by simp) rfl
    ⟨by
      intro r hr
      simp only [List.mem_cons, List.not_mem_nil, or_false] at hr
      rcases hr with rfl | rfl <;> exact hex (by decide), by
      intro r hr s hs hne
      simp only [List.mem_cons, List.not_mem_nil, or_false] at hr hs
      rcases hr with rfl | rfl <;> rcases hs with rfl | rfl
      · exact absurd rfl hne
      · exact hsep (by decide) (by decide) (by decide)
      · exact hsep (by decide) (by decide) (by decide)
      · exact absurd rfl hne⟩ (hex (by decide)) (by
      intro r hr
      simp only [List.mem_cons, List.not_mem_nil, or_false] at hr
      rcases hr with rfl | rfl <;> exact hsep (by decide) (by decide) (by decide))
  have hm : (put exEnv [.none, .str "plain"] (.ptr 3) (.ptr 0) exTwo).2 =
      [.list [.ptr 1, .ptr 2], .rcd "P" [("plain", .ptr 3)], .rcd "P" [("plain", .ptr 3)], .list [.atom (.int 1)]] := by decide +kernel
  rw [hm] at hc
  refine hc.2 (.ptr 1) (by simp) (.ptr 2) (by simp) (by simp) 3 ⟨?_, ?_⟩
  · exact .kid (o := .rcd "P" [("plain", .ptr 3)]) (k := .ptr 3) rfl (by simp [kids]) .self
  · exact .kid (o := .rcd "P" [("plain", .ptr 3)]) (k := .ptr 3) rfl (by simp [kids]) .self

/-- Then writing to the list of the first record writes to that of the second. -/
example : (get exEnv [.int 1, .str "plain", .int 0] (.ptr 0)
    (writes exEnv (.ptr 0) exTwo [.put [.none, .str "plain"] (.ptr 3), .put [.int 0, .str "plain", .int 0] (.atom (.int 5))])).toOption.map
      (·.2) = some (.atom (.int 5)) := by decide +kernel

/-- `C140_same` applies. -/
example : ∀ r ∈ [Ref.ptr 1, .ptr 2], Takes exEnv exTwo "plain" r := by
  intro r hr
  simp only [List.mem_cons, List.not_mem_nil, or_false] at hr
  rcases hr with rfl | rfl
  · exact ⟨1, "P", [], rfl, rfl, rfl⟩
  · exact ⟨2, "P", [], rfl, rfl, rfl⟩

end Normalize.Mem
