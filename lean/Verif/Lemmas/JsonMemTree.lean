import Verif.Lemmas.JsonMem
import Verif.Lemmas.MemSim

/-! Marshalling objects in memory and marshalling trees. -/

namespace Normalize.JsonMem

open Normalize.Mem Normalize.Spec
open Ident (IProp)

theorem simple_marshals {W : World} (h : Simple W) : Marshals W where
  jout c p f hf := by rw [h.jout] at hf; cases hf
  lazy c p f hf := by rw [h.lazy] at hf; cases hf

/-- Without lazy properties nothing is filled in. -/
theorem filled_onlyNew {W : World} (h : ∀ c p, W.lazy c p = none) {m m' : Mem} (hf : FilledIn W m m') :
    OnlyNew m m' := by
  intro l hl
  obtain ⟨o, ho⟩ : ∃ o, m[l]? = some o := ⟨m[l], by simp [hl]⟩
  rcases hf.2 l o ho with h1 | ⟨c, s, ext, rfl, h1, hx⟩
  · rw [h1, ho]
  · cases ext with
    | nil => rw [h1, ho]; simp
    | cons x ext =>
      have := (hx x (by simp)).1
      rw [h] at this
      cases this

/-- Objects that look like the tree, all of them new and different. -/
def Own (m0 m : Mem) (t : Val) (r : Ref) : Prop :=
  ∃ ls, Owns m t r ls ∧ ls.Nodup ∧ ∀ l ∈ ls, m0.length ≤ l

def OwnLs (m0 m : Mem) (ts : List Val) (rs : List Ref) : Prop :=
  ∃ ls, OwnsL m ts rs ls ∧ ls.Nodup ∧ ∀ l ∈ ls, m0.length ≤ l

def OwnCs (m0 m : Mem) (ts : List (Comp × Val)) (rs : List (Comp × Ref)) : Prop :=
  ∃ ls, OwnsC m ts rs ls ∧ ls.Nodup ∧ ∀ l ∈ ls, m0.length ≤ l

theorem ownsL_lt {m : Mem} {ts : List Val} {rs : List Ref} {ls : List Nat} (h : OwnsL m ts rs ls) :
    ∀ l ∈ ls, l < m.length := by
  intro l hl
  obtain ⟨t, _, r, _, l1, h1, h2⟩ := (ownsL_mem h).2 l hl
  exact owns_lt t r l1 h1 l h2

theorem owns_onlyNew {m m' : Mem} {t : Val} {r : Ref} {ls : List Nat} (h : Owns m t r ls) (hn : OnlyNew m m') :
    Owns m' t r ls := owns_intact t r ls h (fun l hl => hn l (owns_lt t r ls h l hl))

theorem ownsL_onlyNew {m m' : Mem} {ts : List Val} {rs : List Ref} {ls : List Nat} (h : OwnsL m ts rs ls)
    (hn : OnlyNew m m') : OwnsL m' ts rs ls :=
  ownsL_intact ts rs ls h (fun t _ r ls' h1 h2 => owns_intact t r ls' h1 h2) (fun l hl => hn l (ownsL_lt h l hl))

theorem ownsC_onlyNew {m m' : Mem} {ts : List (Comp × Val)} {rs : List (Comp × Ref)} {ls : List Nat}
    (h : OwnsC m ts rs ls) (hn : OnlyNew m m') : OwnsC m' ts rs ls := by
  obtain ⟨h1, h2⟩ := ownsC_iff.mp h
  exact ownsC_iff.mpr ⟨h1, ownsL_onlyNew h2 hn⟩

theorem ownsC_lt {m : Mem} {ts : List (Comp × Val)} {rs : List (Comp × Ref)} {ls : List Nat} (h : OwnsC m ts rs ls) :
    ∀ l ∈ ls, l < m.length := ownsL_lt (ownsC_iff.mp h).2

theorem ownCs_later {m0 m m' : Mem} {ts : List (Comp × Val)} {rs : List (Comp × Ref)} (h : OwnCs m0 m ts rs)
    (hn : OnlyNew m m') : OwnCs m0 m' ts rs := by
  obtain ⟨ls, h1, h2⟩ := h
  exact ⟨ls, ownsC_onlyNew h1 hn, h2⟩

/-- The same outcome for the value of a slot or an item. -/
def SameN (m : Mem) : Except Exc Val → Mem × Except Exc Ref → Prop
  | .error e, q => q.2 = .error e
  | .ok j, q => ∃ y, q.2 = .ok y ∧ Own m q.1 j y

def SameLs (m : Mem) : Except Exc (List Val) → Mem × Except Exc (List Ref) → Prop
  | .error e, q => q.2 = .error e
  | .ok j, q => ∃ y, q.2 = .ok y ∧ OwnLs m q.1 j y

def SameCs (m0 : Mem) : Except Exc (List (Comp × Val)) → Mem × Except Exc (List (Comp × Ref)) → Prop
  | .error e, q => q.2 = .error e
  | .ok j, q => ∃ y, q.2 = .ok y ∧ OwnCs m0 q.1 j y

/-- A conversion that changes nothing and does the same as the one of trees. -/
def Does (f : Conv) (g : Val → Except Exc Val) (t : Val) : Prop :=
  ∀ m r, Looks m t r → m.length ≤ (f m r).1.length ∧ OnlyNew m (f m r).1 ∧ SameN m (g t) (f m r)

theorem disj_append {l1 l2 : List Nat} {k : Nat} (h1 : l1.Nodup) (h2 : l2.Nodup) (ha : ∀ l ∈ l1, l < k)
    (hb : ∀ l ∈ l2, k ≤ l) : (l1 ++ l2).Nodup := by
  rw [List.nodup_append]
  refine ⟨h1, h2, ?_⟩
  intro a ha' b hb' hab
  have := ha a ha'
  have := hb b hb'
  omega

theorem outL_same {J : Json.Setup} {e : Bool} {f : Conv} (ts : List Val)
    (hf : ∀ t ∈ ts, Does f (Json.jsonData J e) t) : ∀ m rs, List.Forall₂ (Looks m) ts rs →
    m.length ≤ (outL f rs m).1.length ∧ OnlyNew m (outL f rs m).1 ∧ SameLs m (Json.dataL J e ts) (outL f rs m) := by
  induction ts with
  | nil =>
    intro m rs h
    cases h
    refine ⟨Nat.le_refl _, fun _ _ => rfl, ?_⟩
    simp only [Json.dataL, SameLs, outL]
    exact ⟨[], rfl, [], by simp [OwnsL], by simp, by simp⟩
  | cons t ts ih =>
    intro m rs h
    cases h with
    | @cons _ r _ rs hr hrs =>
      have h1 := hf t (by simp) m r hr
      simp only [outL, Json.dataL]
      generalize f m r = q at h1
      obtain ⟨m1, q⟩ := q
      obtain ⟨hl1, hn1, h1⟩ := h1
      cases hj : Json.jsonData J e t with
      | error x =>
        rw [hj] at h1
        simp only [SameN] at h1
        subst h1
        exact ⟨hl1, hn1, rfl⟩
      | ok j =>
        rw [hj] at h1
        obtain ⟨y, hy, l1, ho1, hnd1, hge1⟩ := h1
        simp only at hy ho1
        subst hy
        have h2 := ih (fun t ht => hf t (by simp [ht])) m1 rs (hrs.imp (fun _ _ h => looks_onlyNew h hn1))
        simp only
        generalize outL f rs m1 = q at h2
        obtain ⟨m2, q⟩ := q
        obtain ⟨hl2, hn2, h2⟩ := h2
        have hnn := OnlyNew.trans hn1 hl1 hn2
        cases hjs : Json.dataL J e ts with
        | error x =>
          rw [hjs] at h2
          simp only [SameLs] at h2
          subst h2
          exact ⟨Nat.le_trans hl1 hl2, hnn, rfl⟩
        | ok js =>
          rw [hjs] at h2
          obtain ⟨ys, hys, l2, ho2, hnd2, hge2⟩ := h2
          simp only at hys ho2
          subst hys
          refine ⟨Nat.le_trans hl1 hl2, hnn, y :: ys, rfl, l1 ++ l2, ?_, ?_, ?_⟩
          · rw [OwnsL]
            exact ⟨y, ys, l1, l2, rfl, owns_onlyNew ho1 hn2, ho2, rfl⟩
          · exact disj_append hnd1 hnd2 (owns_lt _ _ _ ho1) hge2
          · intro l hl
            rcases List.mem_append.mp hl with hl | hl
            · exact hge1 l hl
            · exact Nat.le_trans hl1 (hge2 l hl)

/-- Entries that look alike. -/
def EntryLooks (m : Mem) (a : Comp × Val) (b : Comp × Ref) : Prop := a.1 = b.1 ∧ Looks m a.2 b.2

theorem outC_same {J : Json.Setup} {e : Bool} {f : Conv} (ts : List (Comp × Val))
    (hf : ∀ t ∈ ts, Does f (Json.jsonData J e) t.2) : ∀ m rs, List.Forall₂ (EntryLooks m) ts rs →
    m.length ≤ (outC f rs m).1.length ∧ OnlyNew m (outC f rs m).1 ∧ SameCs m (Json.dataC J e ts) (outC f rs m) := by
  induction ts with
  | nil =>
    intro m rs h
    cases h
    refine ⟨Nat.le_refl _, fun _ _ => rfl, ?_⟩
    simp only [Json.dataC, SameCs, outC]
    exact ⟨[], rfl, [], by simp [OwnsC], by simp, by simp⟩
  | cons t ts ih =>
    obtain ⟨k, t⟩ := t
    intro m rs h
    cases h with
    | @cons _ r _ rs hr hrs =>
      obtain ⟨k', r⟩ := r
      obtain ⟨hk, hr⟩ := hr
      simp only at hk hr
      subst hk
      have h1 := hf (k, t) (by simp) m r hr
      simp only [outC, Json.dataC]
      generalize f m r = q at h1
      obtain ⟨m1, q⟩ := q
      obtain ⟨hl1, hn1, h1⟩ := h1
      simp only at h1
      cases hj : Json.jsonData J e t with
      | error x =>
        rw [hj] at h1
        simp only [SameN] at h1
        subst h1
        exact ⟨hl1, hn1, rfl⟩
      | ok j =>
        rw [hj] at h1
        obtain ⟨y, hy, l1, ho1, hnd1, hge1⟩ := h1
        simp only at hy ho1
        subst hy
        have h2 := ih (fun t ht => hf t (by simp [ht])) m1 rs
          (hrs.imp (fun _ _ h => ⟨h.1, looks_onlyNew h.2 hn1⟩))
        simp only
        generalize outC f rs m1 = q at h2
        obtain ⟨m2, q⟩ := q
        obtain ⟨hl2, hn2, h2⟩ := h2
        have hnn := OnlyNew.trans hn1 hl1 hn2
        cases hjs : Json.dataC J e ts with
        | error x =>
          rw [hjs] at h2
          simp only [SameCs] at h2
          subst h2
          exact ⟨Nat.le_trans hl1 hl2, hnn, rfl⟩
        | ok js =>
          rw [hjs] at h2
          obtain ⟨ys, hys, l2, ho2, hnd2, hge2⟩ := h2
          simp only at hys ho2
          subst hys
          refine ⟨Nat.le_trans hl1 hl2, hnn, (k, y) :: ys, rfl, l1 ++ l2, ?_, ?_, ?_⟩
          · rw [OwnsC]
            exact ⟨y, ys, l1, l2, rfl, owns_onlyNew ho1 hn2, ho2, rfl⟩
          · exact disj_append hnd1 hnd2 (owns_lt _ _ _ ho1) hge2
          · intro l hl
            rcases List.mem_append.mp hl with hl | hl
            · exact hge1 l hl
            · exact Nat.le_trans hl1 (hge2 l hl)

/-- Setting a key. -/
theorem ownsC_aset {m : Mem} {k : Comp} {j : Val} {y : Ref} {l1 : List Nat} (hy : Owns m j y l1) (hnd : l1.Nodup)
    (ts : List (Comp × Val)) : ∀ (rs : List (Comp × Ref)) (ls : List Nat), OwnsC m ts rs ls → ls.Nodup →
    (∀ l ∈ ls, l ∉ l1) → ∃ ls', OwnsC m (aset ts k j) (aset rs k y) ls' ∧ ls'.Nodup ∧
      ∀ l ∈ ls', l ∈ ls ∨ l ∈ l1 := by
  induction ts with
  | nil =>
    intro rs ls h _ _
    rw [OwnsC] at h
    obtain ⟨rfl, rfl⟩ := h
    refine ⟨l1, ?_, hnd, fun l hl => Or.inr hl⟩
    simp only [aset, OwnsC]
    exact ⟨y, [], l1, [], rfl, hy, ⟨rfl, rfl⟩, by simp⟩
  | cons t ts ih =>
    obtain ⟨k', t⟩ := t
    intro rs ls h hls hd
    rw [OwnsC] at h
    obtain ⟨r, rs', la, lb, rfl, h1, h2, rfl⟩ := h
    rw [List.nodup_append] at hls
    obtain ⟨ha, hb, hab⟩ := hls
    simp only [aset]
    by_cases hk : k' = k
    · simp only [hk, if_true]
      refine ⟨l1 ++ lb, ?_, ?_, ?_⟩
      · rw [OwnsC]
        exact ⟨y, rs', l1, lb, rfl, hy, h2, rfl⟩
      · rw [List.nodup_append]
        refine ⟨hnd, hb, ?_⟩
        intro a ha' b hb' hab'
        subst hab'
        exact hd a (by simp [hb']) ha'
      · intro l hl
        rcases List.mem_append.mp hl with hl | hl
        · exact Or.inr hl
        · exact Or.inl (by simp [hl])
    · simp only [hk, if_false]
      obtain ⟨lb', h3, h4, h5⟩ := ih rs' lb h2 hb (fun l hl => hd l (by simp [hl]))
      refine ⟨la ++ lb', ?_, ?_, ?_⟩
      · rw [OwnsC]
        exact ⟨r, _, la, lb', rfl, h1, h3, rfl⟩
      · rw [List.nodup_append]
        refine ⟨ha, h4, ?_⟩
        intro a ha' b hb' hab'
        subst hab'
        rcases h5 a hb' with h | h
        · exact hab a ha' a h rfl
        · exact hd a (by simp [ha']) h
      · intro l hl
        rcases List.mem_append.mp hl with hl | hl
        · exact Or.inl (by simp [hl])
        · rcases h5 l hl with h | h
          · exact Or.inl (by simp [h])
          · exact Or.inr h

theorem ownCs_aset {m0 m m1 : Mem} {k : Comp} {j : Val} {y : Ref} {ts : List (Comp × Val)} {rs : List (Comp × Ref)}
    (h : OwnCs m0 m ts rs) (hn : OnlyNew m m1) (hl : m0.length ≤ m.length) (hy : Own m m1 j y) :
    OwnCs m0 m1 (aset ts k j) (aset rs k y) := by
  obtain ⟨ls, h1, h2, h3⟩ := h
  obtain ⟨l1, h4, h5, h6⟩ := hy
  obtain ⟨ls', h7, h8, h9⟩ := ownsC_aset (k := k) h4 h5 ts rs ls (ownsC_onlyNew h1 hn) h2 (by
    intro l hl1 hl2
    have := ownsC_lt h1 l hl1
    have := h6 l hl2
    omega)
  refine ⟨ls', h7, h8, ?_⟩
  intro l hl'
  rcases h9 l hl' with h | h
  · exact h3 l h
  · exact Nat.le_trans hl (h6 l h)

theorem ownsC_isSome {m : Mem} {ts : List (Comp × Val)} {rs : List (Comp × Ref)} {ls : List Nat}
    (h : OwnsC m ts rs ls) (k : Comp) : (alookup rs k).isSome = (alookup ts k).isSome := by
  induction ts generalizing rs ls with
  | nil =>
    rw [OwnsC] at h
    obtain ⟨rfl, rfl⟩ := h
    rfl
  | cons t ts ih =>
    obtain ⟨k', t⟩ := t
    rw [OwnsC] at h
    obtain ⟨r, rs', la, lb, rfl, h1, h2, rfl⟩ := h
    simp only [alookup]
    split
    · rfl
    · exact ih h2

/-- What the tree's slots are on the way out. -/
theorem alookup_outs {J : Json.Setup} {e : Bool} (s : List (String × Val)) (k : String) :
    alookup (Json.outs J e s) k = (alookup s k).map
      (fun x => { val := x, data := Json.jsonData J e x, entries := Json.entriesOf J e x }) := by
  induction s with
  | nil => simp [Json.outs, alookup]
  | cons x s ih =>
    obtain ⟨k', x⟩ := x
    simp only [Json.outs, alookup]
    split
    · rfl
    · exact ih

theorem alookup_sub {κ α : Type} [DecidableEq κ] {s : List (κ × α)} {k : κ} {t : α} (h : alookup s k = some t) :
    t ∈ s.map (·.2) := by
  induction s with
  | nil => cases h
  | cons x s ih =>
    obtain ⟨k', x⟩ := x
    simp only [alookup] at h
    split at h
    · cases h; simp
    · simp only [List.map_cons, List.mem_cons]
      exact Or.inr (ih h)

/-- The record at `r` has these slots. -/
def Has (m : Mem) (r : Ref) (c : String) (s : List (String × Val)) : Prop :=
  ∃ rs, deref m r = .rcd c rs ∧ (∀ l, r = .ptr l → l < m.length) ∧ ∀ nm, LooksO m (alookup s nm) (alookup rs nm)

theorem has_later {m m' : Mem} {r : Ref} {c : String} {s : List (String × Val)} (h : Has m r c s) (hn : OnlyNew m m')
    (hl : m.length ≤ m'.length) : Has m' r c s := by
  obtain ⟨rs, h1, h2, h3⟩ := h
  refine ⟨rs, ?_, fun l hl' => Nat.lt_of_lt_of_le (h2 l hl') hl, ?_⟩
  · cases r with
    | atom a => exact h1
    | ptr l =>
      simp only [deref] at h1 ⊢
      rw [hn l (h2 l rfl)]
      exact h1
  · intro nm
    have := h3 nm
    revert this
    cases alookup s nm <;> cases alookup rs nm <;> intro h
    · exact h
    · exact h
    · exact h
    · exact looks_onlyNew h hn

theorem has_slot {m : Mem} {r : Ref} {c : String} {s : List (String × Val)} (h : Has m r c s) (nm : String) :
    LooksO m (alookup s nm) (slotOf (deref m r) nm) := by
  obtain ⟨rs, h1, _, h3⟩ := h
  rw [h1]
  exact h3 nm

theorem writeProp_same {W : World} (hW : Simple W) {f : Conv} {e : Bool} {c : String} {r : Ref}
    {s : List (String × Val)} (hf : ∀ t ∈ s.map (·.2), Does f (Json.jsonData W.J e) t) {p : IProp} {m0 m : Mem}
    {rv : List (Comp × Ref)} {rvt : List (Comp × Val)} (hr : Has m r c s) (hl : m0.length ≤ m.length)
    (hrv : OwnCs m0 m rvt rv) :
    m.length ≤ (writeProp W f e c r p m rv).1.length ∧ OnlyNew m (writeProp W f e c r p m rv).1 ∧
      SameCs m0 (Json.writeProp W.J e c (Json.outs W.J e s) rvt p) (writeProp W f e c r p m rv) := by
  have hnil : m.length ≤ (m, (Except.ok rv : Except Exc _)).1.length ∧ OnlyNew m (m, (Except.ok rv : Except Exc _)).1 ∧
      SameCs m0 (.ok rvt) (m, .ok rv) := ⟨Nat.le_refl _, fun _ _ => rfl, rv, rfl, hrv⟩
  have hraise : Json.slotRaises W.J c (Json.outs W.J e s) p = none := by
    unfold Json.slotRaises
    rw [hW.empty]
    cases alookup (Json.outs W.J e s) p.name <;> rfl
  unfold writeProp Json.writeProp
  rw [hraise]
  split
  · exact hnil
  · simp only
    cases hnm : Json.jsonName W.J c p with
    | none => exact hnil
    | some nm =>
      simp only
      have hs := has_slot hr p.name
      unfold readProp Json.slotOut Json.propOut
      rw [alookup_outs, hW.lazy, hW.empty, hW.json]
      cases ha : alookup s p.name with
      | none =>
        rw [ha] at hs
        cases hb : slotOf (deref m r) p.name with
        | none => exact hnil
        | some x => rw [hb] at hs; cases hs
      | some t =>
        rw [ha] at hs
        cases hb : slotOf (deref m r) p.name with
        | none => rw [hb] at hs; cases hs
        | some x =>
          rw [hb] at hs
          have h1 := hf t (alookup_sub ha) m x hs
          simp only [convOf, hW.jout, Option.map_some]
          generalize f m x = q at h1
          obtain ⟨m1, q⟩ := q
          obtain ⟨hl1, hn1, h1⟩ := h1
          cases hj : Json.jsonData W.J e t with
          | error z =>
            rw [hj] at h1
            simp only [SameN] at h1
            subst h1
            refine ⟨hl1, hn1, ?_⟩
            simp only [swallow, Json.writeKey]
            split
            · exact ⟨rv, rfl, ownCs_later hrv hn1⟩
            · rfl
          | ok j =>
            rw [hj] at h1
            obtain ⟨y, hy, ho⟩ := h1
            simp only at hy ho
            subst hy
            exact ⟨hl1, hn1, _, rfl, ownCs_aset hrv hn1 hl ho⟩

theorem writeProps_same {W : World} (hW : Simple W) {f : Conv} {e : Bool} {c : String} {r : Ref}
    {s : List (String × Val)} (hf : ∀ t ∈ s.map (·.2), Does f (Json.jsonData W.J e) t) {m0 : Mem} (ps : List IProp) :
    ∀ (m : Mem) (rv : List (Comp × Ref)) (rvt : List (Comp × Val)), Has m r c s → m0.length ≤ m.length →
    OwnCs m0 m rvt rv →
    m.length ≤ (writeProps W f e c r ps m rv).1.length ∧ OnlyNew m (writeProps W f e c r ps m rv).1 ∧
      SameCs m0 (Json.writeProps W.J e c (Json.outs W.J e s) ps rvt) (writeProps W f e c r ps m rv) := by
  induction ps with
  | nil => exact fun m rv rvt _ _ h => ⟨Nat.le_refl _, fun _ _ => rfl, rv, rfl, h⟩
  | cons p ps ih =>
    intro m rv rvt hr hl hrv
    have h1 := writeProp_same hW hf (p := p) hr hl hrv
    simp only [writeProps, Json.writeProps]
    generalize writeProp W f e c r p m rv = q at h1
    obtain ⟨m1, q⟩ := q
    obtain ⟨hl1, hn1, h1⟩ := h1
    cases hj : Json.writeProp W.J e c (Json.outs W.J e s) rvt p with
    | error x =>
      rw [hj] at h1
      simp only [SameCs] at h1
      subst h1
      exact ⟨hl1, hn1, rfl⟩
    | ok rvt' =>
      rw [hj] at h1
      obtain ⟨rv', hy, ho⟩ := h1
      simp only at hy ho
      subst hy
      have h2 := ih m1 rv' rvt' (has_later hr hn1 hl1) (Nat.le_trans hl hl1) ho
      exact ⟨Nat.le_trans hl1 h2.1, OnlyNew.trans hn1 hl1 h2.2.1, h2.2.2⟩

theorem mergeUnknown_same {J : Json.Setup} {f : Conv} {e : Bool} {m0 : Mem} (us : List (Comp × Val))
    (hf : ∀ t ∈ us, Does f (Json.toJson J e) t.2) :
    ∀ (m : Mem) (rs jd : List (Comp × Ref)) (jdt : List (Comp × Val)), List.Forall₂ (EntryLooks m) us rs →
    m0.length ≤ m.length → OwnCs m0 m jdt jd →
    m.length ≤ (mergeUnknown f rs m jd).1.length ∧ OnlyNew m (mergeUnknown f rs m jd).1 ∧
      SameCs m0 (Json.mergeUnknown (Json.eachEntry J e us) jdt) (mergeUnknown f rs m jd) := by
  induction us with
  | nil =>
    intro m rs jd jdt h _ hjd
    cases h
    exact ⟨Nat.le_refl _, fun _ _ => rfl, jd, rfl, hjd⟩
  | cons u us ih =>
    obtain ⟨k, t⟩ := u
    intro m rs jd jdt h hl hjd
    cases h with
    | @cons _ r _ rs hr hrs =>
      obtain ⟨k', r⟩ := r
      obtain ⟨hk, hr⟩ := hr
      simp only at hk hr
      subst hk
      simp only [mergeUnknown, Json.eachEntry, Json.mergeUnknown]
      have hsome : (alookup jd k).isSome = (alookup jdt k).isSome := by
        obtain ⟨ls, hls, _⟩ := hjd
        exact ownsC_isSome hls k
      rw [hsome]
      by_cases hs : (alookup jdt k).isSome = true
      · rw [if_pos hs, if_pos hs]
        exact ih (fun t ht => hf t (by simp [ht])) m rs jd jdt hrs hl hjd
      · rw [if_neg hs, if_neg hs]
        have h1 := hf (k, t) (by simp) m r hr
        generalize f m r = q at h1
        obtain ⟨m1, q⟩ := q
        obtain ⟨hl1, hn1, h1⟩ := h1
        simp only at h1
        cases hj : Json.toJson J e t with
        | error x =>
          rw [hj] at h1
          simp only [SameN] at h1
          subst h1
          exact ⟨hl1, hn1, rfl⟩
        | ok j =>
          rw [hj] at h1
          obtain ⟨y, hy, ho⟩ := h1
          simp only at hy ho
          subst hy
          have h2 := ih (fun t ht => hf t (by simp [ht])) m1 rs (aset jd k y) (aset jdt k j)
            (hrs.imp (fun _ _ h => ⟨h.1, looks_onlyNew h.2 hn1⟩)) (Nat.le_trans hl hl1)
            (ownCs_aset hjd hn1 hl ho)
          exact ⟨Nat.le_trans hl1 h2.1, OnlyNew.trans hn1 hl1 h2.2.1, h2.2.2⟩

theorem ownsC_entries {m : Mem} {ts : List (Comp × Val)} {rs : List (Comp × Ref)} {ls : List Nat}
    (h : OwnsC m ts rs ls) : List.Forall₂ (EntryLooks m) ts rs := by
  induction ts generalizing rs ls with
  | nil =>
    rw [OwnsC] at h
    obtain ⟨rfl, rfl⟩ := h
    exact .nil
  | cons t ts ih =>
    obtain ⟨k', t⟩ := t
    rw [OwnsC] at h
    obtain ⟨r, rs', la, lb, rfl, h1, h2, rfl⟩ := h
    exact .cons ⟨rfl, la, h1⟩ (ih h2)

theorem ownsS_slots {m : Mem} {ts : List (String × Val)} {rs : List (String × Ref)} {ls : List Nat}
    (h : OwnsS m ts rs ls) (nm : String) : LooksO m (alookup ts nm) (alookup rs nm) := by
  induction ts generalizing rs ls with
  | nil =>
    rw [OwnsS] at h
    obtain ⟨rfl, rfl⟩ := h
    exact trivial
  | cons t ts ih =>
    obtain ⟨k', t⟩ := t
    rw [OwnsS] at h
    obtain ⟨r, rs', la, lb, rfl, h1, h2, rfl⟩ := h
    simp only [alookup]
    split
    · exact ⟨la, h1⟩
    · exact ih h2

theorem addUnknown_same {W : World} {f : Conv} {e : Bool} {c : String} {r : Ref}
    {s : List (String × Val)} (hf : ∀ t ∈ s.map (·.2), ∀ u ∈ subs t, Does f (Json.toJson W.J e) u) {m0 m : Mem}
    {jd : List (Comp × Ref)} {jdt : List (Comp × Val)} (hr : Has m r c s) (hl : m0.length ≤ m.length)
    (hjd : OwnCs m0 m jdt jd) :
    m.length ≤ (addUnknown W f e c r m jd).1.length ∧ OnlyNew m (addUnknown W f e c r m jd).1 ∧
      SameCs m0 (Json.addUnknown W.J e c (Json.outs W.J e s) jdt) (addUnknown W f e c r m jd) := by
  have hnil : m.length ≤ (m, (Except.ok jd : Except Exc _)).1.length ∧ OnlyNew m (m, (Except.ok jd : Except Exc _)).1 ∧
      SameCs m0 (.ok jdt) (m, .ok jd) := ⟨Nat.le_refl _, fun _ _ => rfl, jd, rfl, hjd⟩
  have herr : m.length ≤ (m, (Except.error Exc.attributeError : Except Exc (List (Comp × Ref)))).1.length ∧
      OnlyNew m (m, (Except.error Exc.attributeError : Except Exc (List (Comp × Ref)))).1 ∧
      SameCs m0 (.error .attributeError) (m, .error .attributeError) := ⟨Nat.le_refl _, fun _ _ => rfl, rfl⟩
  have hs := has_slot hr Json.unknownKeys
  unfold addUnknown Json.addUnknown
  rw [alookup_outs]
  cases ha : alookup s Json.unknownKeys with
  | none =>
    rw [ha] at hs
    cases hb : slotOf (deref m r) Json.unknownKeys with
    | none => exact hnil
    | some x => rw [hb] at hs; cases hs
  | some t =>
    rw [ha] at hs
    cases hb : slotOf (deref m r) Json.unknownKeys with
    | none => rw [hb] at hs; cases hs
    | some u =>
      rw [hb] at hs
      simp only [Option.map_some]
      split
      · have hf' := hf t (alookup_sub ha)
        obtain ⟨ls, hs⟩ := hs
        cases t with
        | atom a =>
          rw [Owns] at hs
          rw [hs.1]
          simp only [deref, Json.entriesOf]
          exact herr
        | list ts =>
          rw [Owns] at hs
          obtain ⟨l, rs, ls', rfl, h1, h2, _⟩ := hs
          simp only [deref, h1, Option.getD_some, Json.entriesOf]
          exact herr
        | lcoll cls ts =>
          rw [Owns] at hs
          obtain ⟨l, rs, ls', rfl, h1, h2, _⟩ := hs
          simp only [deref, h1, Option.getD_some, Json.entriesOf]
          exact herr
        | rcd cls ts =>
          rw [Owns] at hs
          obtain ⟨l, rs, ls', rfl, h1, h2, _⟩ := hs
          simp only [deref, h1, Option.getD_some, Json.entriesOf]
          exact herr
        | dict ts =>
          rw [Owns] at hs
          obtain ⟨l, rs, ls', rfl, h1, h2, _⟩ := hs
          simp only [deref, h1, Option.getD_some, Json.entriesOf]
          exact mergeUnknown_same ts (fun u hu => hf' u.2 (List.mem_map.mpr ⟨u, hu, rfl⟩)) m rs jd jdt
            (ownsC_entries h2) hl hjd
        | dcoll cls ts =>
          rw [Owns] at hs
          obtain ⟨l, rs, ls', rfl, h1, h2, _⟩ := hs
          simp only [deref, h1, Option.getD_some, Json.entriesOf]
          exact mergeUnknown_same ts (fun u hu => hf' u.2 (List.mem_map.mpr ⟨u, hu, rfl⟩)) m rs jd jdt
            (ownsC_entries h2) hl hjd
      · exact hnil

theorem own_alloc {m0 m : Mem} {o : Obj} {t : Val} {ls : List Nat} (hl : m0.length ≤ m.length) (hnd : ls.Nodup)
    (hge : ∀ l ∈ ls, m0.length ≤ l) (hlt : ∀ l ∈ ls, l < m.length)
    (h : Owns (alloc m o).1 t (alloc m o).2 (m.length :: ls)) : Own m0 (alloc m o).1 t (alloc m o).2 := by
  refine ⟨_, h, ?_, ?_⟩
  · refine List.nodup_cons.mpr ⟨?_, hnd⟩
    intro hc
    have := hlt _ hc
    omega
  · intro l hl'
    rcases List.mem_cons.mp hl' with rfl | hl'
    · exact hl
    · exact hge l hl'

theorem alloc_onlyNew (m : Mem) (o : Obj) : OnlyNew m (alloc m o).1 := by
  intro l hl
  simp only [alloc]
  rw [List.getElem?_append_left hl]

theorem newList_same {m : Mem} {g : Except Exc (List Val)} {q : Mem × Except Exc (List Ref)}
    (h : m.length ≤ q.1.length ∧ OnlyNew m q.1 ∧ SameLs m g q) :
    m.length ≤ (newList q).1.length ∧ OnlyNew m (newList q).1 ∧ SameN m (g.map Val.list) (newList q) := by
  obtain ⟨m1, q⟩ := q
  obtain ⟨hl, hn, h⟩ := h
  cases g with
  | error x =>
    simp only [SameLs] at h
    subst h
    exact ⟨hl, hn, rfl⟩
  | ok js =>
    obtain ⟨ys, hy, ls, h1, h2, h3⟩ := h
    simp only at hy h1
    subst hy
    refine ⟨Nat.le_trans hl (by simp [newList, alloc]), OnlyNew.trans hn hl (alloc_onlyNew m1 _), _, rfl, ?_⟩
    refine own_alloc hl h2 h3 (ownsL_lt h1) ?_
    rw [Owns]
    exact ⟨m1.length, ys, ls, rfl, by simp [alloc], ownsL_onlyNew h1 (alloc_onlyNew m1 _), rfl⟩

theorem newDict_same {m : Mem} {g : Except Exc (List (Comp × Val))} {q : Mem × Except Exc (List (Comp × Ref))}
    (h : m.length ≤ q.1.length ∧ OnlyNew m q.1 ∧ SameCs m g q) :
    m.length ≤ (newDict q).1.length ∧ OnlyNew m (newDict q).1 ∧ SameN m (g.map Val.dict) (newDict q) := by
  obtain ⟨m1, q⟩ := q
  obtain ⟨hl, hn, h⟩ := h
  cases g with
  | error x =>
    simp only [SameCs] at h
    subst h
    exact ⟨hl, hn, rfl⟩
  | ok js =>
    obtain ⟨ys, hy, ls, h1, h2, h3⟩ := h
    simp only at hy h1
    subst hy
    refine ⟨Nat.le_trans hl (by simp [newDict, alloc]), OnlyNew.trans hn hl (alloc_onlyNew m1 _), _, rfl, ?_⟩
    refine own_alloc hl h2 h3 (ownsC_lt h1) ?_
    rw [Owns]
    exact ⟨m1.length, ys, ls, rfl, by simp [alloc], ownsC_onlyNew h1 (alloc_onlyNew m1 _), rfl⟩

theorem rcdOut_same {W : World} (hW : Simple W) {f g : Conv} {e d : Bool} {c : String} {r : Ref}
    {s : List (String × Val)} (hf : ∀ t ∈ s.map (·.2), Does f (Json.jsonData W.J e) t)
    (hg : ∀ t ∈ s.map (·.2), ∀ u ∈ subs t, Does g (Json.toJson W.J e) u) {m : Mem} (hr : Has m r c s) :
    m.length ≤ (rcdOut W f g e d c r m).1.length ∧ OnlyNew m (rcdOut W f g e d c r m).1 ∧
      SameCs m (if d then Json.dataOut W.J e c (Json.outs W.J e s) else Json.recordOut W.J e c (Json.outs W.J e s))
        (rcdOut W f g e d c r m) := by
  have h1 := writeProps_same hW hf (m0 := m) (W.J.S.cls c).props m [] [] hr (Nat.le_refl _)
    ⟨[], by simp [OwnsC], by simp, by simp⟩
  unfold rcdOut Json.dataOut Json.recordOut
  generalize writeProps W f e c r (W.J.S.cls c).props m [] = q at h1
  obtain ⟨m1, q⟩ := q
  obtain ⟨hl1, hn1, h1⟩ := h1
  cases hj : Json.writeProps W.J e c (Json.outs W.J e s) (W.J.S.cls c).props [] with
  | error x =>
    rw [hj] at h1
    simp only [SameCs] at h1
    subst h1
    cases d <;> exact ⟨hl1, hn1, rfl⟩
  | ok rvt =>
    rw [hj] at h1
    obtain ⟨rv, hy, ho⟩ := h1
    simp only at hy ho
    subst hy
    cases d with
    | false => exact ⟨hl1, hn1, rv, rfl, ho⟩
    | true =>
      simp only [Bool.true_and, if_true]
      cases hjs : W.J.isJson c with
      | false => exact ⟨hl1, hn1, rv, rfl, ho⟩
      | true =>
        have h2 := addUnknown_same (W := W) (e := e) hg (has_later hr hn1 hl1) hl1 ho
        simp only [if_true]
        exact ⟨Nat.le_trans hl1 h2.1, OnlyNew.trans hn1 hl1 h2.2.1, h2.2.2⟩

/-- `_json_data` or `to_json` of a tree. -/
def treeOut (J : Json.Setup) (e : Bool) : Bool → Val → Except Exc Val
  | true, t => Json.jsonData J e t
  | false, t => Json.toJson J e t

theorem atom_same {W : World} {m : Mem} (a : Atom) : SameN m (Json.atomJson W.J a) (m, atomOut W a) := by
  have key : ∀ b : Atom, Own m m (.atom b) (.atom b) := fun b =>
    ⟨[], by rw [Owns]; exact ⟨rfl, rfl⟩, by simp, by simp⟩
  unfold atomOut
  cases a with
  | int i =>
    simp only [Json.atomJson]
    split
    · exact ⟨_, rfl, key _⟩
    · exact ⟨_, rfl, key _⟩
  | opq t =>
    simp only [Json.atomJson]
    split
    · exact ⟨_, rfl, key _⟩
    · rfl
  | none => exact ⟨_, rfl, key _⟩
  | bool b => exact ⟨_, rfl, key _⟩
  | str s => exact ⟨_, rfl, key _⟩

/-- Enough depth. -/
def Deep (W : World) (e : Bool) (t : Val) : Prop := ∃ n0, ∀ n, n0 ≤ n → ∀ d, Does (out W e n d) (treeOut W.J e d) t

theorem deep_all {W : World} {e : Bool} (ts : List Val) (h : ∀ t ∈ ts, Deep W e t) :
    ∃ n0, ∀ n, n0 ≤ n → ∀ t ∈ ts, ∀ d, Does (out W e n d) (treeOut W.J e d) t := by
  induction ts with
  | nil => exact ⟨0, fun _ _ t ht => (nomatch ht)⟩
  | cons t ts ih =>
    obtain ⟨n1, h1⟩ := h t (by simp)
    obtain ⟨n2, h2⟩ := ih (fun t ht => h t (by simp [ht]))
    refine ⟨max n1 n2, ?_⟩
    intro n hn t' ht' d
    rcases List.mem_cons.mp ht' with rfl | ht'
    · exact h1 n (by omega) d
    · exact h2 n (by omega) t' ht' d

theorem deep {W : World} (hW : Simple W) {e : Bool} (t : Val) : Deep W e t := by
  have key : ∀ t : Val, Deep W e t ∧ ∀ s ∈ subs t, Deep W e s := by
    intro t
    induction t using val_ind with
    | h t ih =>
      refine ⟨?_, fun s hs => (ih s hs).1⟩
      obtain ⟨n1, h1⟩ := deep_all (subs t) (fun s hs => (ih s hs).1)
      obtain ⟨n2, h2⟩ := deep_all ((subs t).flatMap subs) (by
        intro u hu
        obtain ⟨s, hs, hu⟩ := List.mem_flatMap.mp hu
        exact (ih s hs).2 u hu)
      refine ⟨max n1 n2 + 1, ?_⟩
      intro n hn d m r hlk
      obtain ⟨n, rfl⟩ : ∃ k, n = k + 1 := ⟨n - 1, by omega⟩
      have h1' := h1 n (by omega)
      have h2' := h2 n (by omega)
      have hdata : ∀ s ∈ subs t, Does (out W e n true) (Json.jsonData W.J e) s := fun s hs => h1' s hs true
      obtain ⟨ls, hlk⟩ := hlk
      cases t with
      | atom a =>
        rw [Owns] at hlk
        rw [hlk.1]
        simp only [out, deref]
        refine ⟨Nat.le_refl _, fun _ _ => rfl, ?_⟩
        have := atom_same (W := W) (m := m) a
        cases d
        · simpa [treeOut, Json.toJson] using this
        · simpa [treeOut, Json.jsonData] using this
      | list ts =>
        rw [Owns] at hlk
        obtain ⟨l, rs, ls', rfl, ho, hk, _⟩ := hlk
        have h := newList_same (outL_same ts hdata m rs (ownsL_forall2.mp ⟨_, hk⟩))
        simp only [out, deref, ho, Option.getD_some]
        cases d
        · simpa only [treeOut, Json.toJson, Bool.false_eq_true, if_false] using h
        · simpa only [treeOut, Json.jsonData, if_true] using h
      | lcoll cls ts =>
        rw [Owns] at hlk
        obtain ⟨l, rs, ls', rfl, ho, hk, _⟩ := hlk
        have h := newList_same (outL_same ts hdata m rs (ownsL_forall2.mp ⟨_, hk⟩))
        simp only [out, deref, ho, Option.getD_some]
        cases d
        · simpa only [treeOut, Json.toJson, Bool.false_eq_true, if_false] using h
        · simpa only [treeOut, Json.jsonData, if_true] using h
      | dict ts =>
        rw [Owns] at hlk
        obtain ⟨l, rs, ls', rfl, ho, hk, _⟩ := hlk
        have h := newDict_same (outC_same ts (fun u hu => hdata u.2 (List.mem_map.mpr ⟨u, hu, rfl⟩)) m rs
          (ownsC_entries hk))
        simp only [out, deref, ho, Option.getD_some]
        cases d
        · simpa only [treeOut, Json.toJson, Bool.false_eq_true, if_false] using h
        · simpa only [treeOut, Json.jsonData, if_true] using h
      | dcoll cls ts =>
        rw [Owns] at hlk
        obtain ⟨l, rs, ls', rfl, ho, hk, _⟩ := hlk
        have h := newDict_same (outC_same ts (fun u hu => hdata u.2 (List.mem_map.mpr ⟨u, hu, rfl⟩)) m rs
          (ownsC_entries hk))
        simp only [out, deref, ho, Option.getD_some]
        cases d
        · simpa only [treeOut, Json.toJson, Bool.false_eq_true, if_false] using h
        · simpa only [treeOut, Json.jsonData, if_true] using h
      | rcd c ts =>
        rw [Owns] at hlk
        obtain ⟨l, rs, ls', rfl, ho, hk, _⟩ := hlk
        have hd : deref m (.ptr l) = .rcd c rs := by simp [deref, ho]
        have hH : Has m (.ptr l) c ts := by
          refine ⟨rs, hd, ?_, fun nm => ownsS_slots hk nm⟩
          intro l' h'
          cases h'
          exact (List.getElem?_eq_some_iff.mp ho).1
        have h := newDict_same (rcdOut_same hW (f := out W e n true) (g := out W e n false) (d := d) hdata
          (fun s hs u hu => h2' u (List.mem_flatMap.mpr ⟨s, hs, hu⟩) false) hH)
        simp only [out, hd]
        cases d
        · simpa only [treeOut, Json.toJson, Bool.false_eq_true, if_false] using h
        · simpa only [treeOut, Json.jsonData, if_true] using h
  exact (key t).1

end Normalize.JsonMem
