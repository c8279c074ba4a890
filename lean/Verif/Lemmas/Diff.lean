import Verif.Spec.Diff

/-!
# Lemmas about the comparison model
-/

namespace Normalize.Diff
open Ident (IProp ICls Ty ItemTy CollKind Schema readAttr)

/-! ## Generators -/

namespace Gen

theorem append_def (g h : Gen) : g ++ h = append g h := rfl

theorem mem_append {g h : Gen} {d : DInfo} (hd : d ∈ (g ++ h).out) : d ∈ g.out ∨ d ∈ h.out := by
  rw [append_def] at hd
  unfold append at hd
  split at hd
  · exact .inl hd
  · simpa using hd

theorem mem_when {b : Bool} {g : Gen} {d : DInfo} (hd : d ∈ (when b g).out) : b = true ∧ d ∈ g.out := by
  unfold when at hd
  split at hd
  · exact ⟨by assumption, hd⟩
  · simp [nil] at hd

theorem mem_forEach {α : Type} {f : α → Gen} {l : List α} {d : DInfo} (hd : d ∈ (forEach f l).out) :
    ∃ x ∈ l, d ∈ (f x).out := by
  induction l with
  | nil => simp [forEach, nil] at hd
  | cons x xs ih =>
    rcases mem_append hd with h | h
    · exact ⟨x, by simp, h⟩
    · obtain ⟨y, hy, h⟩ := ih h
      exact ⟨y, by simp [hy], h⟩

theorem mem_bindE {α : Type} {r : Except Exc α} {f : α → Gen} {d : DInfo} (hd : d ∈ (bindE r f).out) :
    ∃ a, r = .ok a ∧ d ∈ (f a).out := by
  cases r with
  | error e => simp [bindE, raise] at hd
  | ok a => exact ⟨a, rfl, hd⟩

theorem mem_yield {k : DType} {p q : FS} {d : DInfo} (hd : d ∈ (yield k p q).out) : d = ⟨k, p, q⟩ := by
  simpa [yield] using hd

@[simp] theorem out_nil : nil.out = [] := rfl
@[simp] theorem exc_nil : nil.exc = none := rfl
@[simp] theorem out_raise (e : Exc) : (raise e).out = [] := rfl
@[simp] theorem exc_raise (e : Exc) : (raise e).exc = some e := rfl
@[simp] theorem out_yield (k : DType) (p q : FS) : (yield k p q).out = [⟨k, p, q⟩] := rfl
@[simp] theorem exc_yield (k : DType) (p q : FS) : (yield k p q).exc = none := rfl
@[simp] theorem bindE_ok {α : Type} (a : α) (f : α → Gen) : bindE (.ok a) f = f a := rfl
@[simp] theorem bindE_error {α : Type} (e : Exc) (f : α → Gen) : bindE (.error e) f = raise e := rfl
@[simp] theorem when_true (g : Gen) : when true g = g := rfl
@[simp] theorem when_false (g : Gen) : when false g = nil := rfl
@[simp] theorem forEach_nil {α : Type} (f : α → Gen) : forEach f [] = nil := rfl

theorem forEach_cons {α : Type} (f : α → Gen) (x : α) (xs : List α) : forEach f (x :: xs) = f x ++ forEach f xs :=
  rfl

theorem exc_append {g h : Gen} : (g ++ h).exc = none ↔ g.exc = none ∧ h.exc = none := by
  rw [append_def]
  unfold append
  cases hg : g.exc <;> simp [hg]

theorem out_append {g h : Gen} (hg : g.exc = none) : (g ++ h).out = g.out ++ h.out := by
  rw [append_def]
  simp [append, hg]

theorem append_raised {g h : Gen} {e : Exc} (hg : g.exc = some e) : g ++ h = g := by
  rw [append_def]
  simp [append, hg]

@[simp] theorem nil_append (g : Gen) : nil ++ g = g := by
  rw [append_def]
  simp [append]

@[simp] theorem append_nil (g : Gen) : g ++ nil = g := by
  rw [append_def]
  unfold append
  cases hg : g.exc with
  | none => cases g; simp_all
  | some e => rfl

theorem exc_forEach {α : Type} {f : α → Gen} {l : List α} :
    (forEach f l).exc = none ↔ ∀ x ∈ l, (f x).exc = none := by
  induction l with
  | nil => simp
  | cons x xs ih => rw [forEach_cons, exc_append, ih]; simp

theorem out_forEach {α : Type} {f : α → Gen} {l : List α} (h : ∀ x ∈ l, (f x).exc = none) :
    (forEach f l).out = l.flatMap (fun x => (f x).out) := by
  induction l with
  | nil => simp
  | cons x xs ih =>
    rw [forEach_cons, out_append (h x (by simp)), ih (fun y hy => h y (by simp [hy]))]
    simp

theorem exc_when {b : Bool} {g : Gen} : (when b g).exc = none ↔ (b = true → g.exc = none) := by
  cases b <;> simp

theorem exc_bindE {α : Type} {r : Except Exc α} {f : α → Gen} :
    (bindE r f).exc = none ↔ ∃ a, r = .ok a ∧ (f a).exc = none := by
  cases r <;> simp

/-- Nothing but `NO_CHANGE` was yielded. -/
def Quiet (g : Gen) : Prop := ∀ d ∈ g.out, d.kind = .noChange

theorem quiet_append {g h : Gen} (hg : Quiet g) (hh : Quiet h) : Quiet (g ++ h) := fun d hd =>
  (mem_append hd).elim (hg d) (hh d)

theorem quiet_nil : Quiet nil := by simp [Quiet]

theorem quiet_raise (e : Exc) : Quiet (raise e) := by simp [Quiet]

theorem quiet_when {b : Bool} {g : Gen} (h : Quiet g) : Quiet (when b g) := fun d hd => h d (mem_when hd).2

theorem quiet_forEach {α : Type} {f : α → Gen} {l : List α} (h : ∀ x ∈ l, Quiet (f x)) : Quiet (forEach f l) :=
  fun d hd => by
    obtain ⟨x, hx, h'⟩ := mem_forEach hd
    exact h x hx d h'

theorem quiet_bindE {α : Type} {r : Except Exc α} {f : α → Gen} (h : ∀ a, r = .ok a → Quiet (f a)) :
    Quiet (bindE r f) := fun d hd => by
  obtain ⟨a, ha, h'⟩ := mem_bindE hd
  exact h a ha d h'

theorem quiet_noChange (p q : FS) : Quiet (yield .noChange p q) := by simp [Quiet]

end Gen

/-- A python set iterates over its members, each once. -/
def OrdOK {E F : Type} (H : Hooks E F) : Prop := ∀ (α : Type) (l : List α), (H.ord α l).Perm l

theorem OrdOK.nil {E F : Type} {H : Hooks E F} (ho : OrdOK H) (α : Type) : H.ord α [] = [] :=
  (ho α []).eq_nil

theorem OrdOK.mem {E F : Type} {H : Hooks E F} (ho : OrdOK H) {α : Type} {l : List α} {x : α} :
    x ∈ H.ord α l ↔ x ∈ l := (ho α l).mem_iff

/-! ## Numbered entries -/

section Number
variable {J : Type} [DecidableEq J]

theorem number_keys (l : List (J × Comp)) : ∀ seen, (number seen l).map (·.2) = l.map (·.2) := by
  induction l with
  | nil => intro; rfl
  | cons x l ih => intro seen; obtain ⟨j, k⟩ := x; simp [number, ih]

theorem number_ids (l : List (J × Comp)) : ∀ seen, (number seen l).map (·.1.1) = l.map (·.1) := by
  induction l with
  | nil => intro; rfl
  | cons x l ih => intro seen; obtain ⟨j, k⟩ := x; simp [number, ih]

theorem number_pairs (l : List (J × Comp)) : ∀ seen, (number seen l).map (fun e => (e.1.1, e.2)) = l := by
  induction l with
  | nil => intro; rfl
  | cons x l ih => intro seen; obtain ⟨j, k⟩ := x; simp [number, ih]

/-- The occurrences of an identity are numbered from 0 up. -/
theorem number_mem (l : List (J × Comp)) : ∀ (seen : List J) (j : J) (m : Nat),
    (j, m) ∈ (number seen l).map (·.1) ↔
      seen.count j ≤ m ∧ m < seen.count j + (l.map (·.1)).count j := by
  induction l with
  | nil => intro seen j m; simp [number]; 
  | cons x l ih =>
    intro seen j m
    obtain ⟨i, k⟩ := x
    simp only [number, List.map_cons, List.mem_cons, ih, List.count_cons]
    by_cases h : i = j
    · subst h
      simp only [Prod.mk.injEq, true_and, beq_self_eq_true, if_true]
      omega
    · have h' : j ≠ i := fun e => h e.symm
      simp [h, h']

theorem number_nodup (l : List (J × Comp)) : ∀ seen, ((number seen l).map (·.1)).Nodup := by
  induction l with
  | nil => intro; simp [number]
  | cons x l ih =>
    intro seen
    obtain ⟨i, k⟩ := x
    simp only [number, List.map_cons, List.nodup_cons]
    refine ⟨?_, ih _⟩
    rw [number_mem]
    simp

theorem alookup_isSome (M : List (Ent J)) (i : J × Nat) : (alookup M i).isSome = true ↔ i ∈ M.map (·.1) := by
  induction M with
  | nil => simp [alookup]
  | cons e M ih =>
    obtain ⟨k, v⟩ := e
    simp only [alookup, List.map_cons, List.mem_cons]
    by_cases h : k = i
    · simp [h]
    · have h' : i ≠ k := fun e => h e.symm
      simp [h, h', ih]

theorem member_iff (M : List (Ent J)) (i : J × Nat) : member M i = true ↔ i ∈ M.map (·.1) :=
  alookup_isSome M i

theorem alookup_nodup {M : List (Ent J)} (hn : (M.map (·.1)).Nodup) {e : Ent J} (he : e ∈ M) :
    alookup M e.1 = some e.2 := by
  induction M with
  | nil => simp at he
  | cons f M ih =>
    obtain ⟨k, v⟩ := f
    simp only [List.map_cons, List.nodup_cons] at hn
    simp only [List.mem_cons] at he
    unfold alookup
    rcases he with rfl | he
    · simp
    · have : k ≠ e.1 := fun h => hn.1 (by rw [h]; exact List.mem_map_of_mem he)
      simp [this, ih hn.2 he]

theorem alookup_mem {M : List (Ent J)} {i : J × Nat} {k : Comp} (h : alookup M i = some k) : (i, k) ∈ M := by
  induction M with
  | nil => simp [alookup] at h
  | cons f M ih =>
    obtain ⟨j, v⟩ := f
    unfold alookup at h
    split at h
    · rename_i hj
      simp at h
      subst hj h
      simp
    · exact List.mem_cons_of_mem _ (ih h)

theorem mem_minus {A B : List (Ent J)} {e : Ent J} : e ∈ minus A B ↔ e ∈ A ∧ e.1 ∉ B.map (·.1) := by
  unfold minus
  rw [List.mem_filter]
  refine and_congr_right (fun _ => ?_)
  rw [← member_iff B e.1]
  cases member B e.1 <;> simp

theorem minus_self (A : List (Ent J)) : minus A A = [] := by
  rw [List.eq_nil_iff_forall_not_mem]
  intro e he
  rw [mem_minus] at he
  exact he.2 (List.mem_map_of_mem he.1)

theorem mem_common {A B : List (Ent J)} {k : Comp × Comp} :
    k ∈ common A B ↔ ∃ i, (i, k.1) ∈ A ∧ alookup B i = some k.2 := by
  unfold common
  rw [List.mem_filterMap]
  constructor
  · rintro ⟨e, he, h⟩
    unfold commonEnt at h
    split at h
    · rename_i kb hk
      simp at h
      subst h
      exact ⟨e.1, he, hk⟩
    · simp at h
  · rintro ⟨i, hi, hk⟩
    exact ⟨(i, k.1), hi, by simp [commonEnt, hk]⟩

end Number

/-! ## Members -/

theorem enum_mem {xs : List Val} {i : Nat} {v : Val} (h : xs[i]? = some v) : (.int i, v) ∈ Ident.enum xs := by
  simp only [Ident.enum, List.mem_map, Prod.mk.injEq, Prod.exists]
  exact ⟨v, i, List.mem_zipIdx_iff_getElem?.2 (by simpa using h), rfl, rfl⟩

theorem getIdx_mem {xs : List Val} {i : Int} {v : Val} (h : getIdx xs i = some v) :
    ∃ k, (k, v) ∈ Ident.enum xs := by
  unfold getIdx at h
  cases hp : pyIndex xs.length i with
  | none => simp [hp] at h
  | some k => exact ⟨_, enum_mem (by simpa [hp] using h)⟩

theorem alookup_mem' {α β : Type} [DecidableEq α] {M : List (α × β)} {i : α} {k : β}
    (h : alookup M i = some k) : (i, k) ∈ M := by
  induction M with
  | nil => simp [alookup] at h
  | cons f M ih =>
    obtain ⟨j, v⟩ := f
    unfold alookup at h
    split at h
    · rename_i hj
      simp at h
      subst hj h
      simp
    · exact List.mem_cons_of_mem _ (ih h)

/-- Subscripting gives a member. -/
theorem getItem_member {x w : Val} {k : Comp} (h : getItem x k = .ok w) :
    ∃ xs j, tuplesOf (some x) = .ok xs ∧ (j, w) ∈ xs := by
  cases x with
  | atom a => cases k <;> simp [getItem] at h
  | rcd c s => cases k <;> simp [getItem] at h
  | list xs =>
    cases k with
    | int i =>
      simp only [getItem] at h
      split at h
      · rename_i v hv
        simp at h
        subst h
        obtain ⟨j, hj⟩ := getIdx_mem hv
        exact ⟨_, j, rfl, hj⟩
      · simp at h
    | _ => simp [getItem] at h
  | lcoll c xs =>
    cases k with
    | int i =>
      simp only [getItem] at h
      split at h
      · rename_i v hv
        simp at h
        subst h
        obtain ⟨j, hj⟩ := getIdx_mem hv
        exact ⟨_, j, rfl, hj⟩
      · simp at h
    | _ => simp [getItem] at h
  | dict xs =>
    simp only [getItem] at h
    split at h
    · rename_i v hv
      simp at h
      subst h
      exact ⟨_, k, rfl, alookup_mem' hv⟩
    · simp at h
  | dcoll c xs =>
    simp only [getItem] at h
    split at h
    · rename_i v hv
      simp at h
      subst h
      exact ⟨_, k, rfl, alookup_mem' hv⟩
    · simp at h

/-- `T` of one side of a comparison. -/
def OnO (T : Val → Prop) (a : Option Val) : Prop := ∀ x, a = some x → T x

theorem closed_item {E F : Type} {H : Hooks E F} {T : Val → Prop} (hT : Spec.Closed H T) {a : Option Val}
    (ha : OnO T a) {k : Comp} {w : Val} (h : itemAt a k = .ok w) : T w := by
  cases a with
  | none => simp [itemAt] at h
  | some x =>
    obtain ⟨xs, j, h1, h2⟩ := getItem_member h
    exact hT.member x xs j w (ha x rfl) h1 h2

theorem closed_slot {E F : Type} {H : Hooks E F} {T : Val → Prop} (hT : Spec.Closed H T) {a : Option Val}
    (ha : OnO T a) {p : IProp} {va : Option Val} (h : H.normSlot (readSlot H a p.name) p a = .ok va) : OnO T va := by
  intro v hv
  subst hv
  cases a with
  | none => exact hT.unset p v h
  | some x => exact hT.slot x p v (ha x rfl) h

end Normalize.Diff
