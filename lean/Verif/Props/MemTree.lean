import Verif.Lemmas.MemSimP
import Verif.Props.Mem

/-! C96: reading and writing through selectors does to objects what it does to trees of values, and so cannot tell
equal objects apart, as long as the object written to shares none of its parts. -/

namespace Normalize.Mem

open Normalize.Spec

/-- C96, reading: the same exception, or an object that looks like the value read from the tree.  The object may
share parts. -/
theorem C96_get {E : Normalize.Env} {F : Env} (hF : Follows E F) (p : FS) {m : Mem} {t : Val} {x : Ref}
    (h : Looks m t x) : Alike (Normalize.get E p t) (get F p x m) := get_sim hF p t x m h

/-- C96, `put`: the same outcome; afterwards the object looks like the tree afterwards, and nothing that was not
part of it has changed. -/
theorem C96_put {E : Normalize.Env} {F : Env} (hF : Follows E F) (hP : Polite F) (p : FS) {m : Mem} {t tv : Val}
    {x v : Ref} (h : Unshared m t x) (hv : Looks m tv v) (hs : Separate m v x) :
    (put F p v x m).1 = (Normalize.put E p tv t).1 ∧ Looks (put F p v x m).2 (Normalize.put E p tv t).2 x ∧
      ∀ l, l < m.length → ¬ PartOf m x l → (put F p v x m).2[l]? = m[l]? := by
  obtain ⟨ls, h, hn⟩ := h
  obtain ⟨h1, h2, h3⟩ := put_sim hF hP tv v p t x m ls h hn hv
    (fun l hl hp => hs l ⟨hp, (owns_part t x ls h l).mpr hl⟩)
  exact ⟨h1, h3, fun l hl hnp => h2 l hl (fun hm => hnp ((owns_part t x ls h l).mpr hm))⟩

/-- C96, `delete`. -/
theorem C96_delete {E : Normalize.Env} {F : Env} (hF : Follows E F) (p : FS) {m : Mem} {t : Val}
    {x : Ref} (h : Unshared m t x) :
    (delete F p x m).1 = (Normalize.delete E p t).1 ∧ Looks (delete F p x m).2 (Normalize.delete E p t).2 x ∧
      ∀ l, l < m.length → ¬ PartOf m x l → (delete F p x m).2[l]? = m[l]? := by
  obtain ⟨ls, h, hn⟩ := h
  obtain ⟨h1, h2, h3⟩ := delete_sim hF p t x m ls h hn (looks_atom m .none) (fun l _ hp => nomatch hp)
  exact ⟨h1, h3, fun l hl hnp => h2 l hl (fun hm => hnp ((owns_part t x ls h l).mpr hm))⟩

/-- C96: an object and one that looks the same, such as a copy, cannot be told apart by reading or writing.
`m` and `m'` may be one memory or two. -/
theorem C96 {E : Normalize.Env} {F : Env} (hF : Follows E F) (hP : Polite F) (p : FS) {m m' : Mem} {t tv : Val}
    {x x' v v' : Ref} (h : Unshared m t x) (h' : Unshared m' t x') (hv : Looks m tv v) (hv' : Looks m' tv v')
    (hs : Separate m v x) (hs' : Separate m' v' x') :
    (∃ r, Alike r (get F p x m) ∧ Alike r (get F p x' m')) ∧
    ((put F p v x m).1 = (put F p v' x' m').1 ∧
      ∃ t', Looks (put F p v x m).2 t' x ∧ Looks (put F p v' x' m').2 t' x') ∧
    ((delete F p x m).1 = (delete F p x' m').1 ∧
      ∃ t', Looks (delete F p x m).2 t' x ∧ Looks (delete F p x' m').2 t' x') := by
  have hl : Looks m t x := h.imp (fun _ h => h.1)
  have hl' : Looks m' t x' := h'.imp (fun _ h => h.1)
  obtain ⟨a1, a2, _⟩ := C96_put hF hP p h hv hs
  obtain ⟨b1, b2, _⟩ := C96_put hF hP p h' hv' hs'
  obtain ⟨c1, c2, _⟩ := C96_delete hF p h
  obtain ⟨d1, d2, _⟩ := C96_delete hF p h'
  exact ⟨⟨_, C96_get hF p hl, C96_get hF p hl'⟩, ⟨a1.trans b1.symm, _, a2, b2⟩, ⟨c1.trans d1.symm, _, c2, d2⟩⟩

/-! ## Sharing -/

/-- What would have to hold for objects that share parts: writing to one part leaves the others alone. -/
def C96_shared_statement : Prop :=
  ∀ (E : Normalize.Env) (F : Env), Follows E F → Polite F → ∀ (p : FS) (m : Mem) (t tv : Val) (x v : Ref),
    Looks m t x → Looks m tv v → Separate m v x → Looks (put F p v x m).2 (Normalize.put E p tv t).2 x

/-- The classes of `exEnv`, for trees. -/
def exTree : Normalize.Env where
  attr _ nm := if nm = "plain" then none else
    some { assign := fun _ v => .ok (some v), remove := fun _ => .ok (), unset := none, make := none }
  coerceItem _ v := .ok v
  makeItem _ _ := .error .typeError

theorem ex_follows : Follows exTree exEnv where
  attr cls nm := by simp only [exTree, exEnv]; split <;> rfl
  unset cls nm a b ha hb := by
    simp only [exTree, exEnv] at ha hb
    split at ha
    · cases ha
    · split at hb
      · contradiction
      · cases ha; cases hb; rfl
  assign cls nm a b ha hb m s s' t v _ hv := by
    simp only [exTree, exEnv] at ha hb
    split at ha
    · cases ha
    · split at hb
      · contradiction
      · cases ha; cases hb; exact ⟨m, some v, rfl, hv⟩
  remove cls nm a b ha hb m s s' _ := by
    simp only [exTree, exEnv] at ha hb
    split at ha
    · cases ha
    · split at hb
      · contradiction
      · cases ha; cases hb; rfl
  coerceItem cls m t v hv := by
    have hd := looks_deref hv
    simp only [exTree, exEnv]
    cases ho : deref m v with
    | list xs => rw [ho] at hd; exact ⟨_, _, rfl, alloc_looks hd (fun a h => nomatch h)⟩
    | atom a => exact ⟨m, v, rfl, hv⟩
    | dict xs => exact ⟨m, v, rfl, hv⟩
    | rcd cls xs => exact ⟨m, v, rfl, hv⟩
    | lcoll cls xs => exact ⟨m, v, rfl, hv⟩
    | dcoll cls xs => exact ⟨m, v, rfl, hv⟩

/-- A list with the same record in it twice. -/
def exTwice : Mem := [.list [.ptr 1, .ptr 1], .rcd "P" [("n", .atom (.int 1))]]

/-- The tree it looks like. -/
def exTwiceT : Val := .list [.rcd "P" [("n", .atom (.int 1))], .rcd "P" [("n", .atom (.int 1))]]

theorem ex_twice : Looks exTwice exTwiceT (.ptr 0) :=
  ⟨[0, 1, 1], by simp [exTwiceT, exTwice, Owns, OwnsL, OwnsS]⟩

/-- It does not: a record that is in a list twice changes in both places. -/
theorem C96_shared_violated : ¬ C96_shared_statement := by
  intro h
  have hl := h exTree exEnv ex_follows ex_polite [.int 0, .str "n"] exTwice exTwiceT (.atom (.int 2)) (.ptr 0)
    (.atom (.int 2)) ex_twice (looks_atom _ _) (fun l hp => nomatch hp.1)
  have e1 : (put exEnv [.int 0, .str "n"] (.atom (.int 2)) (.ptr 0) exTwice).2 =
    [.list [.ptr 1, .ptr 1], .rcd "P" [("n", .atom (.int 2))]] := by decide +kernel
  have hl' : Looks [.list [.ptr 1, .ptr 1], .rcd "P" [("n", .atom (.int 2))]]
      (.list [.rcd "P" [("n", .atom (.int 2))], .rcd "P" [("n", .atom (.int 2))]]) (.ptr 0) :=
    ⟨[0, 1, 1], by simp [Owns, OwnsL, OwnsS]⟩
  rw [e1] at hl
  have := looks_unique _ _ _ hl hl'
  have e2 : (Normalize.put exTree [.int 0, .str "n"] (.atom (.int 2)) exTwiceT).2 =
    .list [.rcd "P" [("n", .atom (.int 2))], .rcd "P" [("n", .atom (.int 1))]] := by with_unfolding_all rfl
  rw [e2] at this
  cases this

/-! ## Examples -/

/-- A record with a list of two records and a collection of lists; a value to put; and a copy of the record. -/
def exOwn : Mem :=
  [.rcd "P" [("a", .ptr 1), ("c", .ptr 4)], .list [.ptr 2, .ptr 3], .rcd "P" [("n", .atom (.int 1))],
   .rcd "P" [], .lcoll "C" [.ptr 5], .list [.atom (.int 3)], .list [.atom (.int 7)],
   .rcd "P" [("a", .ptr 8), ("c", .ptr 11)], .list [.ptr 9, .ptr 10], .rcd "P" [("n", .atom (.int 1))],
   .rcd "P" [], .lcoll "C" [.ptr 12], .list [.atom (.int 3)]]

/-- The tree the record looks like. -/
def exOwnT : Val :=
  .rcd "P" [("a", .list [.rcd "P" [("n", .atom (.int 1))], .rcd "P" []]), ("c", .lcoll "C" [.list [.atom (.int 3)]])]

theorem ex_own : Unshared exOwn exOwnT (.ptr 0) :=
  ⟨[0, 1, 2, 3, 4, 5], by simp [exOwn, exOwnT, Owns, OwnsL, OwnsS], by decide⟩

theorem ex_copy : Unshared exOwn exOwnT (.ptr 7) :=
  ⟨[7, 8, 9, 10, 11, 12], by simp [exOwn, exOwnT, Owns, OwnsL, OwnsS], by decide⟩

theorem ex_value : Looks exOwn (.list [.atom (.int 7)]) (.ptr 6) :=
  ⟨[6], by simp [exOwn, Owns, OwnsL]⟩

theorem ex_sep : Separate exOwn (.ptr 6) (.ptr 0) ∧ Separate exOwn (.ptr 6) (.ptr 7) := by
  have h6 : Owns exOwn (.list [.atom (.int 7)]) (.ptr 6) [6] := by simp [exOwn, Owns, OwnsL]
  obtain ⟨ls, h0, _⟩ := ex_own
  constructor
  · rintro l ⟨a, b⟩
    have e := (owns_part _ _ _ h6 l).mp a
    have f := (owns_part exOwnT (.ptr 0) [0, 1, 2, 3, 4, 5]
      (by simp [exOwn, exOwnT, Owns, OwnsL, OwnsS]) l).mp b
    simp only [List.mem_singleton] at e
    subst e
    simp at f
  · rintro l ⟨a, b⟩
    have e := (owns_part _ _ _ h6 l).mp a
    have f := (owns_part exOwnT (.ptr 7) [7, 8, 9, 10, 11, 12]
      (by simp [exOwn, exOwnT, Owns, OwnsL, OwnsS]) l).mp b
    simp only [List.mem_singleton] at e
    subst e
    simp at f

/-- Every item gets the value; the tree shows it twice. -/
example : Looks (put exEnv [.str "a", .none, .str "n"] (.ptr 6) (.ptr 0) exOwn).2
    (.rcd "P" [("a", .list [.rcd "P" [("n", .list [.atom (.int 7)])], .rcd "P" [("n", .list [.atom (.int 7)])]]),
      ("c", .lcoll "C" [.list [.atom (.int 3)]])]) (.ptr 0) :=
  (C96_put ex_follows ex_polite [.str "a", .none, .str "n"] ex_own ex_value ex_sep.1).2.1

/-- The value put into a collection is converted, that is, copied. -/
example : Looks (put exEnv [.str "c", .int 0] (.ptr 6) (.ptr 0) exOwn).2
    (.rcd "P" [("a", .list [.rcd "P" [("n", .atom (.int 1))], .rcd "P" []]),
      ("c", .lcoll "C" [.list [.atom (.int 7)]])]) (.ptr 0) :=
  (C96_put ex_follows ex_polite [.str "c", .int 0] ex_own ex_value ex_sep.1).2.1

/-- The copy cannot be told from the record. -/
example : ∃ t', Looks (put exEnv [.str "a", .none, .str "n"] (.ptr 6) (.ptr 0) exOwn).2 t' (.ptr 0) ∧
    Looks (put exEnv [.str "a", .none, .str "n"] (.ptr 6) (.ptr 7) exOwn).2 t' (.ptr 7) :=
  (C96 ex_follows ex_polite [.str "a", .none, .str "n"] ex_own ex_copy ex_value ex_value ex_sep.1 ex_sep.2).2.1.2

example : Looks (delete exEnv [.str "a", .none, .str "n"] (.ptr 0) exOwn).2
    (.rcd "P" [("a", .list [.rcd "P" [], .rcd "P" []]), ("c", .lcoll "C" [.list [.atom (.int 3)]])]) (.ptr 0) :=
  (C96_delete ex_follows [.str "a", .none, .str "n"] ex_own).2.1

end Normalize.Mem
