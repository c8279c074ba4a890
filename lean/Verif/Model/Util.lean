/-!
# List helpers used by the model
-/

namespace Normalize

/-- Run `f` over a list, stopping at the first exception (a python loop or generator expression whose body
may raise). -/
def mapE {α β ε : Type} (f : α → Except ε β) : List α → Except ε (List β)
  | [] => .ok []
  | a :: as =>
    match f a with
    | .error e => .error e
    | .ok b =>
      match mapE f as with
      | .error e => .error e
      | .ok bs => .ok (b :: bs)

theorem mapE_ok_left {α β ε : Type} {f : α → Except ε β} {l : List α} {r : List β}
    (h : mapE f l = .ok r) : ∀ a ∈ l, ∃ b ∈ r, f a = .ok b := by
  induction l generalizing r with
  | nil => simp
  | cons a as ih =>
    unfold mapE at h
    split at h
    · simp at h
    · rename_i b hb
      split at h
      · simp at h
      · rename_i bs hbs
        simp at h; subst h
        intro x hx
        simp at hx
        rcases hx with rfl | hx
        · exact ⟨b, by simp, hb⟩
        · obtain ⟨y, hy, hf⟩ := ih hbs x hx
          exact ⟨y, by simp [hy], hf⟩

theorem mapE_ok_right {α β ε : Type} {f : α → Except ε β} {l : List α} {r : List β}
    (h : mapE f l = .ok r) : ∀ b ∈ r, ∃ a ∈ l, f a = .ok b := by
  induction l generalizing r with
  | nil => simp [mapE] at h; subst h; simp
  | cons a as ih =>
    unfold mapE at h
    split at h
    · simp at h
    · rename_i b hb
      split at h
      · simp at h
      · rename_i bs hbs
        simp at h; subst h
        intro x hx
        simp at hx
        rcases hx with rfl | hx
        · exact ⟨a, by simp, hb⟩
        · obtain ⟨y, hy, hf⟩ := ih hbs x hx
          exact ⟨y, by simp [hy], hf⟩

theorem mapE_error {α β ε : Type} {f : α → Except ε β} {l : List α} {e : ε}
    (h : mapE f l = .error e) : ∃ a ∈ l, f a = .error e := by
  induction l with
  | nil => simp [mapE] at h
  | cons a as ih =>
    unfold mapE at h
    split at h
    · rename_i e' he; simp at h; subst h; exact ⟨a, by simp, he⟩
    · split at h
      · rename_i he; simp at h; subst h
        obtain ⟨x, hx, hf⟩ := ih he
        exact ⟨x, by simp [hx], hf⟩
      · simp at h

theorem mapE_total {α β ε : Type} {f : α → Except ε β} {l : List α}
    (h : ∀ a ∈ l, ∃ b, f a = .ok b) : ∃ r, mapE f l = .ok r := by
  induction l with
  | nil => exact ⟨[], rfl⟩
  | cons a as ih =>
    obtain ⟨b, hb⟩ := h a (by simp)
    obtain ⟨bs, hbs⟩ := ih (fun x hx => h x (by simp [hx]))
    exact ⟨b :: bs, by simp [mapE, hb, hbs]⟩

theorem mapE_map_eq {α β γ ε : Type} {f : α → Except ε β} {g : β → γ} {g' : α → γ} {l : List α} {r : List β}
    (h : mapE f l = .ok r) (hg : ∀ a b, f a = .ok b → g b = g' a) : r.map g = l.map g' := by
  induction l generalizing r with
  | nil => simp [mapE] at h; subst h; rfl
  | cons a as ih =>
    unfold mapE at h
    split at h
    · simp at h
    · rename_i b hb
      split at h
      · simp at h
      · rename_i bs hbs
        simp at h; subst h
        simp [ih hbs, hg a b hb]

theorem mapE_congr {α β ε : Type} {f g : α → Except ε β} {l : List α} (h : ∀ a ∈ l, f a = g a) :
    mapE f l = mapE g l := by
  induction l with
  | nil => rfl
  | cons a as ih =>
    simp [mapE, h a (by simp), ih (fun x hx => h x (by simp [hx]))]

end Normalize
