import Verif.Model.Subtype

/-!
# C32: subtypes
-/

namespace Normalize.Subtype

variable {V : Type}

/-- `t` is `s` or a type that `s` was made from, at any depth. -/
inductive Above : Typ V → Typ V → Prop
  | self (s : Typ V) : Above s s
  | of {t of : Typ V} {w : V → Except Exc Bool} {c : Option (V → Except Exc V)} :
      Above t of → Above t (.sub of w c)

/-- C32: `isinstance(v, S)` holds exactly for the values of the original type that satisfy the predicate (a
predicate that raises is not satisfied); it never raises. -/
theorem C32_isinstance (of : Typ V) (w : V → Except Exc Bool) (c : Option (V → Except Exc V)) (v : V) :
    isinst (.sub of w c) v = true ↔ isinst of v = true ∧ w v = .ok true := by
  simp only [isinst]
  split
  · rename_i h
    cases hw : w v with
    | ok b => simp [h]
    | error e => simp
  · rename_i h; simp [h]

/-- C32: a member of a subtype satisfies every predicate on the way to the ordinary class, and is an instance
of that. -/
theorem C32_nested (s t : Typ V) (h : Above t s) (v : V) (hv : isinst s v = true) : isinst t v = true := by
  induction h with
  | self => exact hv
  | of _ ih => exact ih ((C32_isinstance _ _ _ v).mp hv).1

/-- C32: `S(v)` is `v` itself for members. -/
theorem C32_member (of : Typ V) (w : V → Except Exc Bool) (c : Option (V → Except Exc V)) (v : V)
    (hv : isinst (.sub of w c) v = true) : construct (.sub of w c) v = .ok v := by
  simp only [construct, hv, if_true]

/-- C32: whatever `S(v)` returns is a member of `S`; for a `v` that is not, it is what `coerce` returned. -/
theorem C32_returns_member (of : Typ V) (w : V → Except Exc Bool) (c : Option (V → Except Exc V)) (v r : V)
    (h : construct (.sub of w c) v = .ok r) :
    isinst (.sub of w c) r = true ∧
      (isinst (.sub of w c) v = true → r = v) ∧
      (isinst (.sub of w c) v = false → ∃ f, c = some f ∧ f v = .ok r) := by
  unfold construct at h
  simp only at h
  split at h
  · rename_i hv; cases h; exact ⟨hv, fun _ => rfl, fun hn => by rw [hv] at hn; cases hn⟩
  · rename_i hv
    split at h
    · rename_i f
      split at h
      · cases h
      · rename_i x hf
        split at h
        · rename_i hx; cases h
          exact ⟨hx, fun h' => absurd h' hv, fun _ => ⟨f, rfl, hf⟩⟩
        · cases h
    · cases h

/-- C32: `S(v)` raises only for a value outside `S`: with the exception of `coerce`, because its result is
outside `S` too, or because there is no `coerce`. -/
theorem C32_raises (of : Typ V) (w : V → Except Exc Bool) (c : Option (V → Except Exc V)) (v : V) (e : Exc)
    (h : construct (.sub of w c) v = .error e) :
    isinst (.sub of w c) v = false ∧
      ((c = none ∧ e = .subtypeNoCoerce) ∨
        ∃ f, c = some f ∧ (f v = .error e ∨
          ∃ r, f v = .ok r ∧ isinst (.sub of w c) r = false ∧ e = .subtypeCoerce)) := by
  unfold construct at h
  simp only at h
  split at h
  · cases h
  · rename_i hv
    refine ⟨by simpa using hv, ?_⟩
    split at h
    · rename_i f
      split at h
      · rename_i hf; cases h; exact .inr ⟨f, rfl, .inl hf⟩
      · rename_i x hf
        split at h
        · cases h
        · rename_i hx; cases h
          exact .inr ⟨f, rfl, .inr ⟨x, hf, by simpa using hx, rfl⟩⟩
    · cases h; exact .inl ⟨rfl, rfl⟩

/-- C32: constructing twice is constructing once. -/
theorem C32_idempotent (of : Typ V) (w : V → Except Exc Bool) (c : Option (V → Except Exc V)) (v r : V)
    (h : construct (.sub of w c) v = .ok r) : construct (.sub of w c) r = .ok r :=
  C32_member of w c r (C32_returns_member of w c v r h).1

/-! Even numbers between the negative ones and 100, made by two nested subtypes; the predicate raises on 0,
and coercion takes the absolute value. -/

namespace Demo

/-- Even numbers; asking about 0 raises. -/
def even : Typ Int := .sub (.base (fun _ => true))
  (fun i => if i = 0 then .error (.user 1) else .ok (i % 2 == 0)) none

/-- Those above 0. -/
def pos : Typ Int := .sub even (fun i => .ok (decide (0 < i))) (some (fun i => .ok (-i)))

example : construct pos 4 = .ok 4 := by decide +kernel
example : construct pos (-4) = .ok 4 := by decide +kernel
example : construct pos (-3) = .error .subtypeCoerce := by decide +kernel
example : construct pos 0 = .error .subtypeCoerce := by decide +kernel
example : construct even 3 = .error .subtypeNoCoerce := by decide +kernel
example : isinst even 0 = false ∧ isinst pos 6 = true := by decide +kernel
example : Above (.base (fun _ => true)) pos := .of (.of (.self _))

end Demo

end Normalize.Subtype
