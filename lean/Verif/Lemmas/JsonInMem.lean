import Verif.Spec.JsonInMem
import Verif.Lemmas.MemCopy

/-! What records made from JSON data consist of. -/

namespace Normalize.JsonInMem

open Normalize.Mem Normalize.Spec
open Ident (IProp Ty ItemTy CollKind)

theorem grown_refl (m : Mem) : Grown m m := ⟨Nat.le_refl _, fun _ _ => rfl⟩

theorem grown_trans {m m1 m2 : Mem} (h1 : Grown m m1) (h2 : Grown m1 m2) : Grown m m2 :=
  ⟨Nat.le_trans h1.1 h2.1, OnlyNew.trans h1.2 h1.1 h2.2⟩

theorem grown_alloc (m : Mem) (o : Obj) : Grown m (alloc m o).1 := by
  refine ⟨by simp [alloc], ?_⟩
  intro l hl
  simp only [alloc]
  rw [List.getElem?_append_left hl]

theorem grown_copy {m : Mem} {v : Ref} (h : Exist m v) : Grown m (deepcopy m v).1 :=
  ⟨(deepcopy_new h).1, (deepcopy_new h).2.1⟩

/-- What is needed of a property `S` of the values on their way in, and a property `D` of what records hold, in
states in `G`. -/
structure Inv (W : World) (G : Mem → Prop) (S D : Mem → Ref → Prop) : Prop where
  later : ∀ {m m'}, G m → Grown m m' → G m'
  laterS : ∀ {m m' v}, Grown m m' → S m v → S m' v
  laterD : ∀ {m m' v}, Grown m m' → D m v → D m' v
  sub : ∀ {m v}, D m v → S m v
  atom : ∀ {m a}, G m → D m (.atom a)
  exist : ∀ {m v}, G m → S m v → Exist m v
  kid : ∀ {m v k}, G m → S m v → k ∈ kids (deref m v) → S m k
  alloc : ∀ {m o}, G m → (∀ k ∈ kids o, D m k) → D (alloc m o).1 (alloc m o).2
  copy : ∀ {m v}, G m → S m v → D (deepcopy m v).1 (deepcopy m v).2
  loads : ∀ {s m m' v}, G m → W.loads s m = .ok (m', v) → Grown m m' ∧ S m' v
  jin : ∀ {c p f m v m' v'}, W.jin c p = some f → G m → S m v → f m v = .ok (m', v') → Grown m m' ∧ S m' v'
  coerce : ∀ {c p f m v m' v'}, W.coerce c p = some f → G m → S m v → f m v = .ok (m', v') → Grown m m' ∧ S m' v'
  typeFromJson : ∀ {n f m v m' v'}, W.typeFromJson n = some f → G m → S m v → f m v = .ok (m', v') →
    Grown m m' ∧ S m' v'
  make : ∀ {n m v m' v'}, G m → S m v → W.make n m v = .ok (m', v') → Grown m m' ∧ D m' v'
  default : ∀ {c p f m m' v}, W.default c p = some f → G m → f m = .ok (m', v) → Grown m m' ∧ D m' v
  keepT : ∀ {c p m v}, p ∈ (W.J.S.cls c).props → G m → S m v → p.types.any (instOf W m v) = true → D m v
  keepU : ∀ {c p m v}, p ∈ (W.J.S.cls c).props → G m → S m v → p.types = [] →
    (W.J.isJson c = true → p.name = Json.unknownKeys → D m v) → D m v
  item : ∀ {it m v}, G m → S m v → isItem W m v it = true → D m v
  unk : ∀ {c p k m v}, p ∈ (W.J.S.cls c).props → W.J.isJson c = true → p.name = Json.unknownKeys →
    Json.jsonName W.J c p = some k → G m → S m v → D m v

variable {W : World} {G : Mem → Prop} {S D : Mem → Ref → Prop}

/-- A function from values to values. -/
def FnS (G : Mem → Prop) (S : Mem → Ref → Prop) (f : Fn) : Prop :=
  ∀ m v m' v', G m → S m v → f m v = .ok (m', v') → Grown m m' ∧ S m' v'

/-- A function from values to what records hold. -/
def FnD (G : Mem → Prop) (S D : Mem → Ref → Prop) (f : Fn) : Prop :=
  ∀ m v m' v', G m → S m v → f m v = .ok (m', v') → Grown m m' ∧ D m' v'

theorem FnD.toS (I : Inv W G S D) {f : Fn} (h : FnD G S D f) : FnS G S f := fun m v m' v' hG hS he =>
  ⟨(h m v m' v' hG hS he).1, I.sub (h m v m' v' hG hS he).2⟩

/-- Calling record classes. -/
def MkD (G : Mem → Prop) (S D : Mem → Ref → Prop) (mk : Mk) : Prop := ∀ c, FnD G S D (mk c)

theorem callTy_ok (I : Inv W G S D) {mk : Mk} (hmk : MkD G S D mk) (t : Ty) : FnD G S D (callTy W mk t) := by
  cases t with
  | cls c => exact hmk c
  | other n => exact fun m v m' v' hG hS he => I.make hG hS he

theorem coerceVal_ok (I : Inv W G S D) {mk : Mk} (hmk : MkD G S D mk) (c : String) (p : IProp) :
    FnS G S (coerceVal W mk c p) := by
  intro m v m' v' hG hS he
  unfold coerceVal at he
  split at he
  · rename_i f hf
    exact I.coerce hf hG hS he
  · split at he
    · rename_i t _
      exact (callTy_ok I hmk t).toS I m v m' v' hG hS he
    · cases he

theorem runCheck_eq {c : String} {p : IProp} {m m' : Mem} {v : Ref} {w : Option Ref}
    (h : runCheck W c p m v = .ok (m', w)) : m' = m ∧ w = some v := by
  unfold runCheck at h
  split at h
  · cases h; exact ⟨rfl, rfl⟩
  · split at h
    · cases h
    · cases h; exact ⟨rfl, rfl⟩
    · cases h

/-- The value of an argument. -/
def Arg (W : World) (S D : Mem → Ref → Prop) (c k : String) (m : Mem) (v : Ref) : Prop :=
  S m v ∧ (W.J.isJson c = true → k = Json.unknownKeys → D m v)

theorem arg_later (I : Inv W G S D) {c k : String} {m m' : Mem} {v : Ref} (h : Arg W S D c k m v) (hg : Grown m m') :
    Arg W S D c k m' v := ⟨I.laterS hg h.1, fun a b => I.laterD hg (h.2 a b)⟩

theorem typeSafe_ok (I : Inv W G S D) {mk : Mk} (hmk : MkD G S D mk) {c : String} {p : IProp}
    (hp : p ∈ (W.J.S.cls c).props) {m m' : Mem} {v : Ref} {w : Option Ref} (hG : G m) (hv : Arg W S D c p.name m v)
    (h : typeSafe W mk c p m v = .ok (m', w)) : Grown m m' ∧ ∀ x, w = some x → D m' x := by
  unfold typeSafe at h
  split at h
  · cases h
  · split at h
    · rename_i hc
      split at h
      · cases h
      · rename_i m1 x hx
        have h1 := coerceVal_ok I hmk c p m v m1 x hG hv.1 hx
        split at h
        · rename_i hi
          obtain ⟨rfl, rfl⟩ := runCheck_eq h
          refine ⟨h1.1, ?_⟩
          intro y hy
          cases hy
          exact I.keepT hp (I.later hG h1.1) h1.2 hi
        · split at h
          · cases h
            exact ⟨h1.1, fun y hy => (nomatch hy)⟩
          · cases h
    · rename_i hc
      obtain ⟨rfl, rfl⟩ := runCheck_eq h
      refine ⟨grown_refl _, ?_⟩
      intro y hy
      cases hy
      cases hty : p.types with
      | nil => exact I.keepU hp hG hv.1 hty hv.2
      | cons t ts =>
        rw [hty] at hc
        simp only [List.isEmpty_cons, Bool.not_false, Bool.true_and, Bool.not_eq_true', Bool.not_eq_false] at hc
        exact I.keepT hp hG hv.1 (by rw [hty]; exact hc)

/-- The slots of a record. -/
def Slots (D : Mem → Ref → Prop) (m : Mem) (s : List (String × Ref)) : Prop := ∀ e ∈ s, D m e.2

theorem slots_later (I : Inv W G S D) {m m' : Mem} {s : List (String × Ref)} (h : Slots D m s) (hg : Grown m m') :
    Slots D m' s := fun e he => I.laterD hg (h e he)

theorem mem_aset' {κ α : Type} [DecidableEq κ] {s : List (κ × α)} {k : κ} {v : α} {e : κ × α} (h : e ∈ aset s k v) :
    e ∈ s ∨ e = (k, v) := by
  induction s with
  | nil =>
    simp only [aset, List.mem_singleton] at h
    exact Or.inr h
  | cons d s ih =>
    obtain ⟨k', v'⟩ := d
    simp only [aset] at h
    split at h
    · rename_i hk
      subst hk
      rcases List.mem_cons.mp h with rfl | h
      · exact Or.inr rfl
      · exact Or.inl (by simp [h])
    · rcases List.mem_cons.mp h with rfl | h
      · exact Or.inl (by simp)
      · rcases ih h with h | h
        · exact Or.inl (by simp [h])
        · exact Or.inr h

theorem initProp_ok (I : Inv W G S D) {mk : Mk} (hmk : MkD G S D mk) {c : String} {p : IProp}
    (hp : p ∈ (W.J.S.cls c).props) {m m' : Mem} {v : Ref} {s s' : List (String × Ref)} (hG : G m)
    (hv : Arg W S D c p.name m v) (hs : Slots D m s) (h : initProp W mk c p m v s = .ok (m', s')) :
    Grown m m' ∧ Slots D m' s' := by
  unfold initProp at h
  split at h
  · cases h
  · rename_i m1 w hw
    cases h
    have h1 := typeSafe_ok I hmk hp hG hv hw
    refine ⟨h1.1, ?_⟩
    intro e he
    rcases mem_aset' he with he | rfl
    · exact I.laterD h1.1 (hs e he)
    · exact h1.2 _ rfl
  · rename_i m1 hw
    have h1 := typeSafe_ok I hmk hp hG hv hw
    split at h
    · cases h
    · cases h
      exact ⟨h1.1, slots_later I hs h1.1⟩

theorem findProp_some {c k : String} {p : IProp} (h : Json.findProp W.J c k = some p) :
    p ∈ (W.J.S.cls c).props ∧ p.name = k := by
  unfold Json.findProp at h
  refine ⟨List.mem_of_find?_eq_some h, ?_⟩
  have := List.find?_some h
  simpa using this

theorem initArgs_ok (I : Inv W G S D) {mk : Mk} (hmk : MkD G S D mk) {c : String} (kw : List (String × Ref)) :
    ∀ (m m' : Mem) (s s' : List (String × Ref)), G m → (∀ e ∈ kw, Arg W S D c e.1 m e.2) → Slots D m s →
    initArgs W mk c kw m s = .ok (m', s') → Grown m m' ∧ Slots D m' s' := by
  induction kw with
  | nil =>
    intro m m' s s' _ _ hs h
    cases h
    exact ⟨grown_refl m, hs⟩
  | cons e kw ih =>
    obtain ⟨k, v⟩ := e
    intro m m' s s' hG hkw hs h
    simp only [initArgs] at h
    split at h
    · cases h
    · rename_i p hp
      obtain ⟨hp1, hp2⟩ := findProp_some hp
      subst hp2
      split at h
      · cases h
      · rename_i m1 s1 h1
        have h1 := initProp_ok I hmk hp1 hG (hkw (p.name, v) (by simp)) hs h1
        have h2 := ih m1 m' s1 s' (I.later hG h1.1) (fun e he => arg_later I (hkw e (by simp [he])) h1.1) h1.2 h
        exact ⟨grown_trans h1.1 h2.1, h2.2⟩

theorem initDefault_ok (I : Inv W G S D) {mk : Mk} (hmk : MkD G S D mk) {c : String} {p : IProp}
    (hp : p ∈ (W.J.S.cls c).props) {m m' : Mem} {s s' : List (String × Ref)} (hG : G m) (hs : Slots D m s)
    (h : initDefault W mk c p m s = .ok (m', s')) : Grown m m' ∧ Slots D m' s' := by
  unfold initDefault at h
  split at h
  · split at h
    · cases h
    · cases h
      exact ⟨grown_refl m, hs⟩
  · rename_i f hf
    split at h
    · cases h
    · rename_i m1 v hv
      have h1 := I.default hf hG hv
      have h2 := initProp_ok I hmk hp (I.later hG h1.1) ⟨I.sub h1.2, fun _ _ => h1.2⟩ (slots_later I hs h1.1) h
      exact ⟨grown_trans h1.1 h2.1, h2.2⟩

theorem initMissing_ok (I : Inv W G S D) {mk : Mk} (hmk : MkD G S D mk) {c : String} (ps : List IProp) :
    ∀ (m m' : Mem) (s s' : List (String × Ref)), (∀ p ∈ ps, p ∈ (W.J.S.cls c).props) → G m → Slots D m s →
    initMissing W mk c ps m s = .ok (m', s') → Grown m m' ∧ Slots D m' s' := by
  induction ps with
  | nil =>
    intro m m' s s' _ _ hs h
    cases h
    exact ⟨grown_refl m, hs⟩
  | cons p ps ih =>
    intro m m' s s' hps hG hs h
    simp only [initMissing] at h
    split at h
    · cases h
    · rename_i m1 s1 h1
      have h1 := initDefault_ok I hmk (hps p (by simp)) hG hs h1
      have h2 := ih m1 m' s1 s' (fun p hp => hps p (by simp [hp])) (I.later hG h1.1) h1.2 h
      exact ⟨grown_trans h1.1 h2.1, h2.2⟩

theorem made_ok (I : Inv W G S D) {m m' : Mem} {o : Obj} {y : Ref} (hG : G m) (ho : ∀ k ∈ kids o, D m k)
    (h : made m o = .ok (m', y)) : Grown m m' ∧ D m' y := by
  unfold made at h
  have h1 : (alloc m o).1 = m' ∧ (alloc m o).2 = y := by
    cases h
    exact ⟨rfl, rfl⟩
  obtain ⟨rfl, rfl⟩ := h1
  exact ⟨grown_alloc m o, I.alloc hG ho⟩

theorem initRecord_ok (I : Inv W G S D) {mk : Mk} (hmk : MkD G S D mk) {c : String} {m m' : Mem}
    {kw : List (String × Ref)} {y : Ref} (hG : G m) (hkw : ∀ e ∈ kw, Arg W S D c e.1 m e.2)
    (h : initRecord W mk c m kw = .ok (m', y)) : Grown m m' ∧ D m' y := by
  unfold initRecord at h
  split at h
  · cases h
  · rename_i m1 s1 h1
    have h1 := initArgs_ok I hmk kw m m1 [] s1 hG hkw (fun e he => (nomatch he)) h1
    have hG1 := I.later hG h1.1
    split at h
    · cases h
    · rename_i m2 s2 h2
      have h2 := initMissing_ok I hmk _ m1 m2 s1 s2 (fun p hp => (List.mem_filter.mp hp).1) hG1 h1.2 h2
      have h3 := made_ok I (o := .rcd c s2) (I.later hG1 h2.1) (by
        intro k hk
        obtain ⟨e, he, rfl⟩ := List.mem_map.mp hk
        exact h2.2 e he) h
      exact ⟨grown_trans h1.1 (grown_trans h2.1 h3.1), h3.2⟩

theorem valueInit_ok (I : Inv W G S D) {mk : Mk} (hmk : MkD G S D mk) (types : List Ty) :
    FnS G S (valueInit W mk types) := by
  intro m v m' v' hG hS h
  have hid : (Except.ok (m, v) : Except Exc _) = .ok (m', v') → Grown m m' ∧ S m' v' := by
    intro h
    cases h
    exact ⟨grown_refl m, hS⟩
  unfold valueInit at h
  split at h
  · rename_i d
    split at h
    · exact (hmk d).toS I m v m' v' hG hS h
    · exact hid h
  · rename_i n
    split at h
    · rename_i f hf
      exact I.typeFromJson hf hG hS h
    · exact hid h
  · exact hid h

theorem convertIn_ok (I : Inv W G S D) {mk : Mk} (hmk : MkD G S D mk) (c : String) (p : IProp) :
    FnS G S (convertIn W mk c p) := by
  intro m v m' v' hG hS h
  unfold convertIn at h
  split at h
  · cases h
  · rename_i m1 v1 h1
    have h1 : Grown m m1 ∧ S m1 v1 := by
      unfold propIn at h1
      split at h1
      · rename_i f hf
        exact I.jin hf hG hS h1
      · cases h1
        exact ⟨grown_refl m, hS⟩
    have h2 := valueInit_ok I hmk p.types m1 v1 m' v' (I.later hG h1.1) h1.2 h
    exact ⟨grown_trans h1.1 h2.1, h2.2⟩

theorem takeArg_ok (I : Inv W G S D) {mk : Mk} (hmk : MkD G S D mk) {c k : String} {p : IProp}
    (hp : p ∈ (W.J.S.cls c).props) (hk : Json.jsonName W.J c p = some k) {m m' : Mem} {j : Ref}
    {args args' : List (String × Ref)} (hG : G m) (hj : S m j) (ha : ∀ e ∈ args, Arg W S D c e.1 m e.2)
    (h : takeArg W mk c p m j args = .ok (m', args')) : Grown m m' ∧ ∀ e ∈ args', Arg W S D c e.1 m' e.2 := by
  unfold takeArg at h
  split at h
  · cases h
    exact ⟨grown_refl m, ha⟩
  · split at h
    · cases h
    · rename_i m1 v h1
      have h1 := convertIn_ok I hmk c p m j m1 v hG hj h1
      cases h
      refine ⟨h1.1, ?_⟩
      intro e he
      rcases List.mem_append.mp he with he | he
      · exact arg_later I (ha e he) h1.1
      · rw [List.mem_singleton.mp he]
        exact ⟨h1.2, fun a b => I.unk hp a b hk (I.later hG h1.1) h1.2⟩

theorem alookup_mem {κ α : Type} [DecidableEq κ] {s : List (κ × α)} {k : κ} {v : α} (h : alookup s k = some v) :
    (k, v) ∈ s := by
  induction s with
  | nil => cases h
  | cons e s ih =>
    obtain ⟨k', v'⟩ := e
    simp only [alookup] at h
    split at h
    · rename_i hk
      cases h
      subst hk
      simp
    · simp [ih h]

theorem kwProp_ok (I : Inv W G S D) {mk : Mk} (hmk : MkD G S D mk) {c : String} {js : List (Comp × Ref)} {p : IProp}
    (hp : p ∈ (W.J.S.cls c).props) {m m' : Mem} {w w' : Kw} (hG : G m) (hj : ∀ e ∈ js, S m e.2)
    (ha : ∀ e ∈ w.args, Arg W S D c e.1 m e.2) (h : kwProp W mk c js p m w = .ok (m', w')) :
    Grown m m' ∧ ∀ e ∈ w'.args, Arg W S D c e.1 m' e.2 := by
  unfold kwProp at h
  split at h
  · cases h
    exact ⟨grown_refl m, ha⟩
  · rename_i k hk
    split at h
    · cases h
      exact ⟨grown_refl m, ha⟩
    · rename_i j hjl
      split at h
      · cases h
      · rename_i m1 args h1
        have h1 := takeArg_ok I hmk hp hk hG (hj _ (alookup_mem hjl)) ha h1
        split at h
        · cases h
          exact h1
        · cases h

theorem kwProps_ok (I : Inv W G S D) {mk : Mk} (hmk : MkD G S D mk) {c : String} {js : List (Comp × Ref)}
    (ps : List IProp) : ∀ (m m' : Mem) (w w' : Kw), (∀ p ∈ ps, p ∈ (W.J.S.cls c).props) → G m →
    (∀ e ∈ js, S m e.2) → (∀ e ∈ w.args, Arg W S D c e.1 m e.2) → kwProps W mk c js ps m w = .ok (m', w') →
    Grown m m' ∧ ∀ e ∈ w'.args, Arg W S D c e.1 m' e.2 := by
  induction ps with
  | nil =>
    intro m m' w w' _ _ _ ha h
    cases h
    exact ⟨grown_refl m, ha⟩
  | cons p ps ih =>
    intro m m' w w' hps hG hj ha h
    simp only [kwProps] at h
    split at h
    · cases h
    · rename_i m1 w1 h1
      have h1 := kwProp_ok I hmk (hps p (by simp)) hG hj ha h1
      have h2 := ih m1 m' w1 w' (fun p hp => hps p (by simp [hp])) (I.later hG h1.1)
        (fun e he => I.laterS h1.1 (hj e he)) h1.2 h
      exact ⟨grown_trans h1.1 h2.1, h2.2⟩

theorem copyAll_ok (I : Inv W G S D) (xs : List (Comp × Ref)) : ∀ m, G m → (∀ e ∈ xs, S m e.2) →
    Grown m (copyAll xs m).1 ∧ ∀ e ∈ (copyAll xs m).2, D (copyAll xs m).1 e.2 := by
  induction xs with
  | nil => exact fun m _ _ => ⟨grown_refl m, fun e he => (nomatch he)⟩
  | cons x xs ih =>
    obtain ⟨k, x⟩ := x
    intro m hG hx
    have hxS := hx (k, x) (by simp)
    have hg := grown_copy (I.exist hG hxS)
    have h2 := ih (deepcopy m x).1 (I.later hG hg) (fun e he => I.laterS hg (hx e (by simp [he])))
    simp only [copyAll]
    refine ⟨grown_trans hg h2.1, ?_⟩
    intro e he
    rcases List.mem_cons.mp he with rfl | he
    · exact I.laterD h2.1 (I.copy hG hxS)
    · exact h2.2 e he

theorem withUnknown_ok (I : Inv W G S D) {c : String} {js : List (Comp × Ref)} {m : Mem} {w : Kw} (hG : G m)
    (hj : ∀ e ∈ js, S m e.2) (ha : ∀ e ∈ w.args, Arg W S D c e.1 m e.2) :
    Grown m (withUnknown js m w).1 ∧ ∀ e ∈ (withUnknown js m w).2, Arg W S D c e.1 (withUnknown js m w).1 e.2 := by
  unfold withUnknown
  split
  · exact ⟨grown_refl m, ha⟩
  · have h1 := copyAll_ok I (unclaimed js w) m hG (fun e he => hj e (List.mem_filter.mp he).1)
    have hG1 := I.later hG h1.1
    have h2 := I.alloc (o := .dict (copyAll (unclaimed js w) m).2) hG1 (by
      intro k hk
      obtain ⟨e, he, rfl⟩ := List.mem_map.mp hk
      exact h1.2 e he)
    have hg := grown_trans h1.1 (grown_alloc (copyAll (unclaimed js w) m).1 (.dict (copyAll (unclaimed js w) m).2))
    refine ⟨hg, ?_⟩
    intro e he
    rcases mem_aset' he with he | rfl
    · exact arg_later I (ha e he) hg
    · exact ⟨I.sub h2, fun _ _ => h2⟩

theorem structOf_mem {o : Obj} {js : List (Comp × Ref)} (h : structOf o = .ok js) : ∀ e ∈ js, e.2 ∈ kids o := by
  intro e he
  unfold structOf at h
  split at h
  · cases h; cases he
  · cases h
    exact List.mem_map.mpr ⟨e, he, rfl⟩
  · cases h

theorem initKwargs_ok (I : Inv W G S D) {mk : Mk} (hmk : MkD G S D mk) {c : String} {m m' : Mem} {j : Ref}
    {kw : List (String × Ref)} (hG : G m) (hj : S m j) (h : initKwargs W mk c m j = .ok (m', kw)) :
    Grown m m' ∧ ∀ e ∈ kw, Arg W S D c e.1 m' e.2 := by
  unfold initKwargs at h
  split at h
  · cases h
  · rename_i js hjs
    have hjS : ∀ e ∈ js, S m e.2 := fun e he => I.kid hG hj (structOf_mem hjs e he)
    split at h
    · cases h
    · rename_i m1 w h1
      have h1 := kwProps_ok I hmk _ m m1 ⟨[], js.map (·.1)⟩ w (fun p hp => hp) hG hjS (fun e he => (nomatch he)) h1
      have h2 := withUnknown_ok I (c := c) (js := js) (w := w) (I.later hG h1.1)
        (fun e he => I.laterS h1.1 (hjS e he)) h1.2
      have h3 : (withUnknown js m1 w).1 = m' ∧ (withUnknown js m1 w).2 = kw := by
        injection h with h
        exact ⟨by rw [h], by rw [h]⟩
      obtain ⟨rfl, rfl⟩ := h3
      exact ⟨grown_trans h1.1 h2.1, h2.2⟩

theorem noArgs (c : String) (m : Mem) : ∀ e ∈ ([] : List (String × Ref)), Arg W S D c e.1 m e.2 := by
  intro e he
  cases he

theorem decode_ok (I : Inv W G S D) : FnS G S (decode W) := by
  intro m v m' v' hG hS h
  unfold decode at h
  split at h
  · exact I.loads hG h
  · cases h
    exact ⟨grown_refl m, hS⟩

theorem mkJson_ok (I : Inv W G S D) {mk : Mk} (hmk : MkD G S D mk) (c : String) : FnD G S D (mkJson W mk c) := by
  intro m v m' v' hG hS h
  unfold mkJson at h
  split at h
  · cases h
  · rename_i m1 j h1
    have h1 := decode_ok I m v m1 j hG hS h1
    have hG1 := I.later hG h1.1
    split at h
    · have h2 := initRecord_ok I hmk hG1 (noArgs c _) h
      exact ⟨grown_trans h1.1 h2.1, h2.2⟩
    · split at h
      · cases h
      · rename_i m2 j2 h2
        have h2 := decode_ok I m1 j m2 j2 hG1 h1.2 h2
        have hG2 := I.later hG1 h2.1
        split at h
        · cases h
        · rename_i m3 kw h3
          have h3 := initKwargs_ok I hmk hG2 h2.2 h3
          have h4 := initRecord_ok I hmk (I.later hG2 h3.1) h3.2 h
          exact ⟨grown_trans h1.1 (grown_trans h2.1 (grown_trans h3.1 h4.1)), h4.2⟩

theorem namedArgs_mem (xs : List (Comp × Ref)) : ∀ kw, namedArgs xs = .ok kw → ∀ e ∈ kw, e.2 ∈ xs.map (·.2) := by
  induction xs with
  | nil =>
    intro kw h e he
    cases h
    cases he
  | cons x xs ih =>
    obtain ⟨k, x⟩ := x
    intro kw h e he
    cases k with
    | str k =>
      simp only [namedArgs] at h
      split at h
      · cases h
      · rename_i r hr
        cases h
        rcases List.mem_cons.mp he with rfl | he
        · simp
        · have := ih r hr e he
          simp only [List.map_cons, List.mem_cons]
          exact Or.inr this
    | int i => simp only [namedArgs] at h; cases h
    | none => simp only [namedArgs] at h; cases h

theorem mkPlain_ok (I : Inv W G S D) {mk : Mk} (hmk : MkD G S D mk) {c : String} (hc : W.J.isJson c = false) :
    FnD G S D (mkPlain W mk c) := by
  intro m v m' v' hG hS h
  unfold mkPlain at h
  split at h
  · exact initRecord_ok I hmk hG (noArgs c _) h
  · have key : ∀ (xs : List (Comp × Ref)) (kw : List (String × Ref)), (∀ e ∈ xs.map (·.2), e ∈ kids (deref m v)) →
        namedArgs xs = .ok kw → ∀ e ∈ kw, Arg W S D c e.1 m e.2 := by
      intro xs kw hk hkw e he
      refine ⟨I.kid hG hS (hk _ (namedArgs_mem xs kw hkw e he)), ?_⟩
      intro a
      rw [hc] at a
      cases a
    split at h
    · rename_i xs hd
      split at h
      · cases h
      · rename_i kw hkw
        exact initRecord_ok I hmk hG (key xs kw (fun e he => by rw [hd]; exact he) hkw) h
    · rename_i xs hd
      split at h
      · cases h
      · rename_i kw hkw
        exact initRecord_ok I hmk hG (key xs kw (fun e he => by rw [hd]; exact he) hkw) h
    · cases h

theorem coerceItem_ok (I : Inv W G S D) {mk : Mk} (hmk : MkD G S D mk) (it : ItemTy) :
    FnD G S D (coerceItem W mk it) := by
  intro m v m' v' hG hS h
  unfold coerceItem at h
  split at h
  · rename_i hi
    cases h
    exact ⟨grown_refl m, I.item hG hS hi⟩
  · split at h
    · cases h
    · rename_i t _
      split at h
      · rename_i q hq
        cases h
        exact callTy_ok I hmk t m v m' v' hG hS hq
      · cases h

theorem mapM_ok {f : Fn} {Q : Mem → Ref → Prop} (hlaterG : ∀ m m', G m → Grown m m' → G m')
    (hlaterS : ∀ m m' v, Grown m m' → S m v → S m' v) (hlaterQ : ∀ m m' v, Grown m m' → Q m v → Q m' v)
    (hf : FnD G S Q f) (xs : List Ref) : ∀ (m m' : Mem) (ys : List Ref), G m → (∀ x ∈ xs, S m x) →
    Mem.mapM f xs m = .ok (m', ys) → Grown m m' ∧ ∀ y ∈ ys, Q m' y := by
  induction xs with
  | nil =>
    intro m m' ys _ _ h
    cases h
    exact ⟨grown_refl m, fun y hy => (nomatch hy)⟩
  | cons x xs ih =>
    intro m m' ys hG hx h
    simp only [Mem.mapM] at h
    split at h
    · cases h
    · rename_i m1 y h1
      have h1 := hf m x m1 y hG (hx x (by simp)) h1
      split at h
      · cases h
      · rename_i m2 ys' h2
        cases h
        have h2 := ih m1 m' ys' (hlaterG _ _ hG h1.1) (fun a ha => hlaterS _ _ _ h1.1 (hx a (by simp [ha]))) h2
        refine ⟨grown_trans h1.1 h2.1, ?_⟩
        intro z hz
        rcases List.mem_cons.mp hz with rfl | hz
        · exact hlaterQ _ _ _ h2.1 h1.2
        · exact h2.2 z hz

theorem mapValues_ok {f : Fn} {Q : Mem → Ref → Prop} (hlaterG : ∀ m m', G m → Grown m m' → G m')
    (hlaterS : ∀ m m' v, Grown m m' → S m v → S m' v) (hlaterQ : ∀ m m' v, Grown m m' → Q m v → Q m' v)
    (hf : FnD G S Q f) (xs : List (Comp × Ref)) : ∀ (m m' : Mem) (ys : List (Comp × Ref)), G m →
    (∀ x ∈ xs, S m x.2) → mapValues f xs m = .ok (m', ys) → Grown m m' ∧ ∀ y ∈ ys, Q m' y.2 := by
  induction xs with
  | nil =>
    intro m m' ys _ _ h
    cases h
    exact ⟨grown_refl m, fun y hy => (nomatch hy)⟩
  | cons x xs ih =>
    obtain ⟨k, x⟩ := x
    intro m m' ys hG hx h
    simp only [mapValues] at h
    split at h
    · cases h
    · rename_i m1 y h1
      have h1 := hf m x m1 y hG (hx (k, x) (by simp)) h1
      split at h
      · cases h
      · rename_i m2 ys' h2
        cases h
        have h2 := ih m1 m' ys' (hlaterG _ _ hG h1.1) (fun a ha => hlaterS _ _ _ h1.1 (hx a (by simp [ha]))) h2
        refine ⟨grown_trans h1.1 h2.1, ?_⟩
        intro z hz
        rcases List.mem_cons.mp hz with rfl | hz
        · exact hlaterQ _ _ _ h2.1 h1.2
        · exact h2.2 z hz

theorem listOf_ok (I : Inv W G S D) {mk : Mk} (hmk : MkD G S D mk) {c : String} {it : ItemTy} {xs : List Ref}
    {m m' : Mem} {y : Ref} (hG : G m) (hx : ∀ x ∈ xs, S m x) (h : listOf W mk c it xs m = .ok (m', y)) :
    Grown m m' ∧ D m' y := by
  unfold listOf at h
  split at h
  · cases h
  · rename_i m1 ys h1
    have h1 := mapM_ok (G := G) (S := S) (Q := D) (fun _ _ => I.later) (fun _ _ _ => I.laterS) (fun _ _ _ => I.laterD) (coerceItem_ok I hmk it)
      xs m m1 ys hG hx h1
    have h2 := made_ok I (o := .lcoll c ys) (I.later hG h1.1) h1.2 h
    exact ⟨grown_trans h1.1 h2.1, h2.2⟩

theorem dictOf_ok (I : Inv W G S D) {mk : Mk} (hmk : MkD G S D mk) {c : String} {it : ItemTy}
    {xs : List (Comp × Ref)} {m m' : Mem} {y : Ref} (hG : G m) (hx : ∀ x ∈ xs, S m x.2)
    (h : dictOf W mk c it xs m = .ok (m', y)) : Grown m m' ∧ D m' y := by
  unfold dictOf at h
  split at h
  · cases h
  · rename_i m1 ys h1
    have h1 := mapValues_ok (G := G) (S := S) (Q := D) (fun _ _ => I.later) (fun _ _ _ => I.laterS) (fun _ _ _ => I.laterD)
      (coerceItem_ok I hmk it) xs m m1 ys hG hx h1
    have h2 := made_ok I (o := .dcoll c ys) (I.later hG h1.1) (by
      intro k hk
      obtain ⟨e, he, rfl⟩ := List.mem_map.mp hk
      exact h1.2 e he) h
    exact ⟨grown_trans h1.1 h2.1, h2.2⟩

theorem listItems_mem {o : Obj} {xs : List Ref} (h : listItems W o = .ok xs) :
    ∀ x ∈ xs, x ∈ kids o ∨ ∃ a, x = .atom a := by
  intro x hx
  unfold listItems at h
  split at h
  · cases h
  · split at h
    · cases h
      left
      obtain ⟨e, he, rfl⟩ := List.mem_map.mp hx
      exact List.mem_map.mpr ⟨e, (List.mem_insertionSort _).mp he, rfl⟩
    · cases h
  · cases h; exact Or.inl hx
  · cases h; exact Or.inl hx
  · cases h
    right
    obtain ⟨e, he, rfl⟩ := List.mem_map.mp hx
    cases e.1 <;> exact ⟨_, rfl⟩
  · split at h
    · cases h; cases hx
    · cases h
  · cases h

theorem dictItems_mem {o : Obj} {xs : List (Comp × Ref)} (h : dictItems o = .ok xs) : ∀ x ∈ xs, x.2 ∈ kids o := by
  intro x hx
  unfold dictItems at h
  split at h
  · cases h
  · cases h
    exact List.mem_map.mpr ⟨x, hx, rfl⟩
  · cases h
    simp only [numbered, List.mem_map] at hx
    obtain ⟨e, he, rfl⟩ := hx
    exact List.fst_mem_of_mem_zipIdx he
  · cases h; cases hx

theorem mkList_ok (I : Inv W G S D) {mk : Mk} (hmk : MkD G S D mk) (c : String) (it : ItemTy) :
    FnD G S D (mkList W mk c it) := by
  intro m v m' v' hG hS h
  unfold mkList at h
  split at h
  · cases h
  · rename_i xs hxs
    refine listOf_ok I hmk hG ?_ h
    intro x hx
    rcases listItems_mem hxs x hx with hk | ⟨a, rfl⟩
    · exact I.kid hG hS hk
    · exact I.sub (I.atom hG)

theorem mkDict_ok (I : Inv W G S D) {mk : Mk} (hmk : MkD G S D mk) (c : String) (it : ItemTy) :
    FnD G S D (mkDict W mk c it) := by
  intro m v m' v' hG hS h
  unfold mkDict at h
  split at h
  · cases h
  · rename_i xs hxs
    exact dictOf_ok I hmk hG (fun x hx => I.kid hG hS (dictItems_mem hxs x hx)) h

theorem fromPlain_ok (I : Inv W G S D) {mk : Mk} (hmk : MkD G S D mk) (c : String) :
    FnD G S D (fromPlain W mk c) := by
  intro m v m' v' hG hS h
  unfold fromPlain at h
  split at h
  · cases h
  · rename_i m1 kw h1
    have h1 := initKwargs_ok I hmk hG hS h1
    have hG1 := I.later hG h1.1
    split at h
    · have h2 := initRecord_ok I hmk hG1 h1.2 h
      exact ⟨grown_trans h1.1 h2.1, h2.2⟩
    · split at h
      · have h2 := made_ok I (o := .lcoll c []) hG1 (fun k hk => (nomatch hk)) h
        exact ⟨grown_trans h1.1 h2.1, h2.2⟩
      · cases h
    · split at h
      · have h2 := made_ok I (o := .dcoll c []) hG1 (fun k hk => (nomatch hk)) h
        exact ⟨grown_trans h1.1 h2.1, h2.2⟩
      · cases h

theorem fromJsonWith_ok (I : Inv W G S D) {mk : Mk} (hmk : MkD G S D mk) (c : String) :
    FnD G S D (fromJsonWith W mk c) := by
  intro m v m' v' hG hS h
  unfold fromJsonWith at h
  split at h
  · cases h
  · rename_i m1 j h1
    have h1 := decode_ok I m v m1 j hG hS h1
    have hG1 := I.later hG h1.1
    split at h
    · have h2 := hmk c m1 j m' v' hG1 h1.2 h
      exact ⟨grown_trans h1.1 h2.1, h2.2⟩
    · have h2 := fromPlain_ok I hmk c m1 j m' v' hG1 h1.2 h
      exact ⟨grown_trans h1.1 h2.1, h2.2⟩

theorem memberIn_ok (I : Inv W G S D) {mk : Mk} (hmk : MkD G S D mk) {it : ItemTy} {f : Fn}
    (h : memberIn W mk it = .ok f) : FnS G S f := by
  have hid : ∀ (m m' : Mem) (v v' : Ref), S m v → (Except.ok (m, v) : Except Exc _) = .ok (m', v') →
      Grown m m' ∧ S m' v' := by
    intro m m' v v' hS h
    cases h
    exact ⟨grown_refl m, hS⟩
  unfold memberIn at h
  split at h
  · cases h
  · rename_i d
    cases h
    intro m v m' v' hG hS h
    unfold recordMember at h
    split at h
    · exact hid m m' v v' hS h
    · split at h
      · exact (hmk d).toS I m v m' v' hG hS h
      · exact (fromJsonWith_ok I hmk d).toS I m v m' v' hG hS h
  · rename_i n
    split at h
    · rename_i g hg
      cases h
      intro m v m' v' hG hS h
      unfold otherMember at h
      split at h
      · exact hid m m' v v' hS h
      · exact I.typeFromJson hg hG hS h
    · cases h
      exact fun m v m' v' _ hS h => hid m m' v v' hS h

theorem mkJsonList_ok (I : Inv W G S D) {mk : Mk} (hmk : MkD G S D mk) (c : String) (it : ItemTy) :
    FnD G S D (mkJsonList W mk c it) := by
  intro m v m' v' hG hS h
  unfold mkJsonList at h
  split at h
  · cases h
  · rename_i m1 j h1
    have h1 := decode_ok I m v m1 j hG hS h1
    have hG1 := I.later hG h1.1
    split at h
    · have h2 := made_ok I (o := .lcoll c []) hG1 (fun k hk => (nomatch hk)) h
      exact ⟨grown_trans h1.1 h2.1, h2.2⟩
    · split at h
      · cases h
      · rename_i m2 xs h2
        unfold listValues at h2
        split at h2
        · rename_i ys hys
          split at h2
          · cases h2
          · rename_i f hf
            have h2 := mapM_ok (G := G) (S := S) (Q := S) (fun _ _ => I.later) (fun _ _ _ => I.laterS) (fun _ _ _ => I.laterS)
              (memberIn_ok I hmk hf) ys m1 m2 xs hG1 (fun x hx => I.kid hG1 h1.2 (by rw [hys]; exact hx)) h2
            have h3 := listOf_ok I hmk (I.later hG1 h2.1) h2.2 h
            exact ⟨grown_trans h1.1 (grown_trans h2.1 h3.1), h3.2⟩
        · cases h2

theorem mkJsonDict_ok (I : Inv W G S D) {mk : Mk} (hmk : MkD G S D mk) (c : String) (it : ItemTy) :
    FnD G S D (mkJsonDict W mk c it) := by
  intro m v m' v' hG hS h
  unfold mkJsonDict at h
  split at h
  · cases h
  · rename_i m1 j h1
    have h1 := decode_ok I m v m1 j hG hS h1
    have hG1 := I.later hG h1.1
    split at h
    · have h2 := made_ok I (o := .dcoll c []) hG1 (fun k hk => (nomatch hk)) h
      exact ⟨grown_trans h1.1 h2.1, h2.2⟩
    · split at h
      · cases h
      · rename_i m2 xs h2
        unfold dictValues at h2
        split at h2
        · rename_i ys hys
          split at h2
          · cases h2
          · rename_i f hf
            have h2 := mapValues_ok (G := G) (S := S) (Q := S) (fun _ _ => I.later) (fun _ _ _ => I.laterS) (fun _ _ _ => I.laterS)
              (memberIn_ok I hmk hf) ys m1 m2 xs hG1
              (fun x hx => I.kid hG1 h1.2 (by rw [hys]; exact List.mem_map.mpr ⟨x, hx, rfl⟩)) h2
            have h3 := dictOf_ok I hmk (I.later hG1 h2.1) h2.2 h
            exact ⟨grown_trans h1.1 (grown_trans h2.1 h3.1), h3.2⟩
        · cases h2

theorem construct_ok (I : Inv W G S D) {mk : Mk} (hmk : MkD G S D mk) (c : String) :
    FnD G S D (construct W mk c) := by
  unfold construct
  split
  · split
    · exact mkJson_ok I hmk c
    · rename_i hc
      exact mkPlain_ok I hmk (by simpa using hc)
  · split
    · exact mkJsonList_ok I hmk c _
    · exact mkList_ok I hmk c _
  · split
    · exact mkJsonDict_ok I hmk c _
    · exact mkDict_ok I hmk c _

theorem makes_ok (I : Inv W G S D) (n : Nat) : MkD G S D (makes W n) := by
  induction n with
  | zero => exact fun c m v m' v' _ _ h => (nomatch h)
  | succ n ih => exact fun c => construct_ok I ih c

theorem fromJson_ok (I : Inv W G S D) (n : Nat) (c : String) : FnD G S D (fromJson W n c) :=
  fromJsonWith_ok I (makes_ok I n) c

end Normalize.JsonInMem
