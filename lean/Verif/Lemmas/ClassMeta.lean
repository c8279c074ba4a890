import Verif.Spec.ClassMeta
import Verif.Lemmas.Access
import Mathlib.Data.List.Nodup

/-!
# Lemmas on class declarations
-/

namespace Normalize.ClassMeta
open Spec

/-! ## Dicts -/

/-- Keys are there once. -/
def Keys {α : Type} (d : List (String × α)) : Prop := (d.map (·.1)).Nodup

theorem mem_of_alookup {α : Type} {d : List (String × α)} {k : String} {v : α} (h : alookup d k = some v) : (k, v) ∈ d := by
  induction d with
  | nil => cases h
  | cons x d ih =>
    simp only [alookup] at h
    split at h
    · rename_i hk
      cases h; subst hk; exact List.mem_cons_self
    · exact List.mem_cons_of_mem _ (ih h)

theorem alookup_none {α : Type} {d : List (String × α)} {k : String} : alookup d k = none ↔ k ∉ d.map (·.1) := by
  induction d with
  | nil => simp [alookup]
  | cons x d ih =>
    simp only [alookup, List.map_cons, List.mem_cons, not_or]
    split
    · rename_i hk; simp [hk]
    · rename_i hk
      rw [ih]
      exact ⟨fun h => ⟨fun e => hk e.symm, h⟩, fun h => h.2⟩

theorem mem_keys {α : Type} {d : List (String × α)} {k : String} {v : α} (h : (k, v) ∈ d) : k ∈ d.map (·.1) :=
  List.mem_map_of_mem h

theorem Keys.unique {α : Type} {d : List (String × α)} (h : Keys d) {k : String} {v w : α} (hv : (k, v) ∈ d) (hw : (k, w) ∈ d) :
    v = w := by
  induction d with
  | nil => cases hv
  | cons x d ih =>
    simp only [Keys, List.map_cons, List.nodup_cons] at h
    rcases List.mem_cons.1 hv with hv | hv <;> rcases List.mem_cons.1 hw with hw | hw
    · exact (Prod.mk.inj (hv.trans hw.symm)).2
    · rw [← hv] at h; exact absurd (mem_keys hw) h.1
    · rw [← hw] at h; exact absurd (mem_keys hv) h.1
    · exact ih h.2 hv hw

theorem Keys.mem_iff {α : Type} {d : List (String × α)} (h : Keys d) {k : String} {v : α} : (k, v) ∈ d ↔ alookup d k = some v := by
  constructor
  · intro hm
    cases hl : alookup d k with
    | none => exact absurd (mem_keys hm) (alookup_none.1 hl)
    | some w => rw [h.unique hm (mem_of_alookup hl)]
  · exact mem_of_alookup

theorem aset_keys {α : Type} (d : List (String × α)) (k : String) (v : α) :
    (aset d k v).map (·.1) = if k ∈ d.map (·.1) then d.map (·.1) else d.map (·.1) ++ [k] := by
  induction d with
  | nil => simp [aset]
  | cons x d ih =>
    simp only [aset, List.map_cons, List.mem_cons]
    by_cases hk : x.1 = k
    · simp [hk]
    · have hk' : ¬ k = x.1 := fun e => hk e.symm
      simp only [hk, if_false, List.map_cons, ih, hk', false_or]
      split <;> simp

theorem Keys.aset {α : Type} {d : List (String × α)} (h : Keys d) (k : String) (v : α) : Keys (aset d k v) := by
  unfold Keys
  rw [aset_keys]
  split
  · exact h
  · rename_i hk
    rw [List.nodup_append]
    refine ⟨h, by simp, ?_⟩
    rintro a ha b hb rfl
    rw [List.mem_singleton] at hb
    exact hk (hb ▸ ha)

theorem Keys.mem_aset {α : Type} {d : List (String × α)} (h : Keys d) {k k' : String} {v w : α} :
    (k', w) ∈ Normalize.aset d k v ↔ (k = k' ∧ w = v) ∨ (k ≠ k' ∧ (k', w) ∈ d) := by
  rw [(h.aset k v).mem_iff, Normalize.alookup_aset, h.mem_iff]
  split
  · rename_i hk
    simp only [hk, true_and, ne_eq, not_true_eq_false, false_and, or_false, Option.some.injEq]
    exact eq_comm
  · rename_i hk; simp [hk]

theorem aset_new {α : Type} {d : List (String × α)} {k : String} (h : alookup d k = none) (v : α) : aset d k v = d ++ [(k, v)] := by
  induction d with
  | nil => rfl
  | cons x d ih =>
    simp only [alookup] at h
    split at h
    · cases h
    · rename_i hk
      simp [aset, hk, ih h]

/-! ## The method resolution order -/

theorem pick_spec {all : List (List Nat)} : ∀ {seqs : List (List Nat)} {c : Nat}, pick all seqs = some c →
    goodHead c all = true ∧ ∃ t, (c :: t) ∈ seqs
  | [], c, h => by cases h
  | [] :: rest, c, h => by
    simp only [pick] at h
    obtain ⟨h1, t, h2⟩ := pick_spec h
    exact ⟨h1, t, List.mem_cons_of_mem _ h2⟩
  | (a :: s) :: rest, c, h => by
    simp only [pick] at h
    split at h
    · rename_i hg
      cases h
      exact ⟨hg, s, List.mem_cons_self⟩
    · obtain ⟨h1, t, h2⟩ := pick_spec h
      exact ⟨h1, t, List.mem_cons_of_mem _ h2⟩

theorem not_mem_takeOff {c : Nat} {all : List (List Nat)} (hg : goodHead c all = true) {s : List Nat} (hs : s ∈ all) :
    c ∉ takeOff c s := by
  have h : c ∉ s.tail := by
    have := List.all_eq_true.1 hg s hs
    simpa using this
  unfold takeOff
  split
  · exact h
  · rename_i hh
    cases s with
    | nil => simp
    | cons a s =>
      simp only [List.head?_cons, Option.some.injEq] at hh
      simp only [List.tail_cons] at h
      simp only [List.mem_cons, not_or]
      exact ⟨fun e => hh e.symm, h⟩

theorem takeOff_length (c : Nat) (s : List Nat) : (takeOff c s).length ≤ s.length := by
  unfold takeOff
  split
  · simp
  · exact Nat.le_refl _

theorem total_takeOff_le (c : Nat) : ∀ (seqs : List (List Nat)), total (seqs.map (takeOff c)) ≤ total seqs
  | [] => Nat.le_refl _
  | s :: seqs => by
    have := total_takeOff_le c seqs
    have h2 := takeOff_length c s
    simp only [total, List.map_cons, List.sum_cons] at *
    omega

theorem total_takeOff {c : Nat} {t : List Nat} : ∀ {seqs : List (List Nat)}, (c :: t) ∈ seqs →
    total (seqs.map (takeOff c)) < total seqs
  | s :: seqs, h => by
    have h2 := takeOff_length c s
    have h3 := total_takeOff_le c seqs
    rcases List.mem_cons.1 h with h | h
    · subst h
      simp only [total, List.map_cons, List.sum_cons, takeOff, List.head?_cons, if_true, List.tail_cons, List.length_cons] at *
      omega
    · have := total_takeOff h
      simp only [total, List.map_cons, List.sum_cons] at *
      omega

theorem length_le_total {s : List Nat} : ∀ {seqs : List (List Nat)}, s ∈ seqs → s.length ≤ total seqs
  | t :: seqs, h => by
    rcases List.mem_cons.1 h with h | h
    · subst h
      simp only [total, List.map_cons, List.sum_cons]
      omega
    · have := length_le_total h
      simp only [total, List.map_cons, List.sum_cons] at *
      omega

theorem merge_spec : ∀ {n : Nat} {seqs : List (List Nat)} {l : List Nat}, total seqs ≤ n → merge n seqs = some l →
    l.Nodup ∧ (∀ s ∈ seqs, s.Sublist l) ∧ ∀ x ∈ l, ∃ s ∈ seqs, x ∈ s := by
  intro n
  induction n with
  | zero =>
    intro seqs l hn h
    cases h
    refine ⟨List.nodup_nil, ?_, by simp⟩
    intro s hs
    have := length_le_total hs
    have h0 : s = [] := List.length_eq_zero_iff.1 (by omega)
    rw [h0]
  | succ n ih =>
    intro seqs l hn h
    unfold merge at h
    split at h
    · rename_i he
      cases h
      refine ⟨List.nodup_nil, ?_, by simp⟩
      intro s hs
      have := List.all_eq_true.1 he s hs
      rw [List.isEmpty_iff.1 this]
    · split at h
      · cases h
      · rename_i c hc
        obtain ⟨hg, t, ht⟩ := pick_spec hc
        split at h
        · cases h
        · rename_i l' hl'
          cases h
          have hlt := total_takeOff ht
          obtain ⟨h1, h2, h3⟩ := ih (by omega) hl'
          refine ⟨List.nodup_cons.2 ⟨?_, h1⟩, ?_, ?_⟩
          · intro hm
            obtain ⟨s', hs', hcs⟩ := h3 c hm
            obtain ⟨s, hs, rfl⟩ := List.mem_map.1 hs'
            exact not_mem_takeOff hg hs hcs
          · intro s hs
            have := h2 _ (List.mem_map_of_mem hs)
            unfold takeOff at this
            split at this
            · rename_i hh
              cases s with
              | nil => cases hh
              | cons a s => cases hh; exact this.cons_cons c
            · exact this.cons c
          · intro x hx
            rcases List.mem_cons.1 hx with rfl | hx
            · exact ⟨_, ht, List.mem_cons_self⟩
            · obtain ⟨s', hs', hxs⟩ := h3 x hx
              obtain ⟨s, hs, rfl⟩ := List.mem_map.1 hs'
              refine ⟨s, hs, ?_⟩
              unfold takeOff at hxs
              split at hxs
              · exact List.mem_of_mem_tail hxs
              · exact hxs

theorem newMro_spec {s : State} {bases m : List Nat} (h : newMro s bases = some m) :
    m.Nodup ∧ bases.Sublist m ∧ (∀ b ∈ bases, (mroOf s b).Sublist m) ∧ ∀ x ∈ m, x ∈ bases ∨ ∃ b ∈ bases, x ∈ mroOf s b := by
  obtain ⟨h1, h2, h3⟩ := merge_spec (Nat.le_refl _) h
  refine ⟨h1, h2 _ (by simp), fun b hb => h2 _ ?_, ?_⟩
  · exact List.mem_append_left _ (List.mem_map_of_mem hb)
  · intro x hx
    obtain ⟨s', hs', hxs⟩ := h3 x hx
    rcases List.mem_append.1 hs' with hs' | hs'
    · obtain ⟨b, hb, rfl⟩ := List.mem_map.1 hs'
      exact .inr ⟨b, hb, hxs⟩
    · rw [List.mem_singleton] at hs'
      subst hs'
      exact .inl hxs

/-! ## Finding attributes -/

theorem find_cons_own {s : State} {nm : String} {c : Nat} {cs : List Nat} {v : AVal} (h : OwnAttr s c nm v) :
    find s nm (c :: cs) = some v := by
  obtain ⟨cl, h1, h2⟩ := h
  simp [find, h1, h2]

theorem find_cons_not {s : State} {nm : String} {c : Nat} {cs : List Nat} (h : ∀ v, ¬ OwnAttr s c nm v) :
    find s nm (c :: cs) = find s nm cs := by
  rw [find]
  cases hc : s.classes[c]? with
  | none => rfl
  | some cl =>
    cases hl : alookup cl.dict nm with
    | none => simp only [hl]
    | some v => exact absurd ⟨cl, hc, hl⟩ (h v)

theorem own_or_not (s : State) (c : Nat) (nm : String) : (∃ v, OwnAttr s c nm v) ∨ ∀ v, ¬ OwnAttr s c nm v := by
  by_cases h : ∃ v, OwnAttr s c nm v
  · exact .inl h
  · exact .inr (fun v hv => h ⟨v, hv⟩)

theorem ownAttr_unique {s : State} {c : Nat} {nm : String} {v w : AVal} (h : OwnAttr s c nm v) (h' : OwnAttr s c nm w) : v = w := by
  obtain ⟨cl, h1, h2⟩ := h
  obtain ⟨cl', h3, h4⟩ := h'
  rw [h1] at h3
  cases h3
  rw [h2] at h4
  exact Option.some.inj h4

theorem find_iff {s : State} {nm : String} {v : AVal} : ∀ {l : List Nat}, find s nm l = some v ↔
    ∃ i d : Nat, l[i]? = some d ∧ OwnAttr s d nm v ∧ ∀ j < i, ∀ e, l[j]? = some e → ∀ w, ¬ OwnAttr s e nm w
  | [] => by simp [find]
  | c :: cs => by
    rcases own_or_not s c nm with ⟨w, hw⟩ | hn
    · rw [find_cons_own hw]
      constructor
      · rintro ⟨⟩
        exact ⟨0, c, rfl, hw, fun j hj => by omega⟩
      · rintro ⟨i, d, h1, h2, h3⟩
        cases i with
        | zero => cases h1; rw [ownAttr_unique hw h2]
        | succ i => exact absurd hw (h3 0 (by omega) c rfl w)
    · rw [find_cons_not hn, find_iff]
      constructor
      · rintro ⟨i, d, h1, h2, h3⟩
        refine ⟨i + 1, d, h1, h2, ?_⟩
        intro j hj e he
        cases j with
        | zero => cases he; exact hn
        | succ j => exact h3 j (by omega) e he
      · rintro ⟨i, d, h1, h2, h3⟩
        cases i with
        | zero => cases h1; exact absurd h2 (hn v)
        | succ i => exact ⟨i, d, h1, h2, fun j hj e he => h3 (j + 1) (by omega) e he⟩

theorem find_sublist {s : State} {nm : String} {v : AVal} {A L : List Nat} (h : A.Sublist L) (hn : L.Nodup)
    (hf : find s nm A = some v) (hd : ∀ e ∈ L, ∀ w, OwnAttr s e nm w → e ∈ A) : find s nm L = some v := by
  induction h with
  | slnil => exact hf
  | @cons A L a hs ih =>
    have ha : a ∉ A := fun hm => (List.nodup_cons.1 hn).1 (hs.subset hm)
    rw [find_cons_not (fun w hw => ha (hd a List.mem_cons_self w hw))]
    exact ih (List.nodup_cons.1 hn).2 hf (fun e he w hw => hd e (List.mem_cons_of_mem _ he) w hw)
  | @cons_cons A L a hs ih =>
    rcases own_or_not s a nm with ⟨w, hw⟩ | hno
    · rw [find_cons_own hw] at hf ⊢
      exact hf
    · rw [find_cons_not hno] at hf ⊢
      refine ih (List.nodup_cons.1 hn).2 hf (fun e he w hw => ?_)
      rcases List.mem_cons.1 (hd e (List.mem_cons_of_mem _ he) w hw) with rfl | h
      · exact absurd hw (hno w)
      · exact h

/-! ## The loops of the metaclass -/

theorem addBase_eq : ∀ {acc ps : List (String × Nat)}, Keys acc →
    (Keys (acc ++ ps) → addBase acc ps = .ok (acc ++ ps)) ∧ (¬ Keys (acc ++ ps) → addBase acc ps = .error .multipleInheritanceClash)
  | acc, [], h => by
    simp only [List.append_nil, addBase]
    exact ⟨fun _ => trivial, fun hn => absurd h hn⟩
  | acc, (k, p) :: ps, h => by
    simp only [addBase]
    cases hl : alookup acc k with
    | some q =>
      refine ⟨fun hk => ?_, fun _ => rfl⟩
      exfalso
      simp only [Keys, List.map_append, List.map_cons] at hk
      exact (List.nodup_append.1 hk).2.2 k (mem_keys (mem_of_alookup hl)) k List.mem_cons_self rfl
    | none =>
      have := addBase_eq (acc := aset acc k p) (ps := ps) (h.aset k p)
      rw [aset_new hl, List.append_assoc, List.singleton_append] at this
      rw [aset_new hl]
      exact this

/-- The properties of the bases. -/
def inherited (s : State) (bases : List Nat) : List (String × Nat) := bases.flatMap (propsOf s)

theorem Keys.left {α : Type} {a b : List (String × α)} (h : Keys (a ++ b)) : Keys a := by
  simp only [Keys, List.map_append] at h
  exact (List.nodup_append.1 h).1

theorem addBases_eq {s : State} : ∀ {bases : List Nat} {acc : List (String × Nat)}, Keys acc →
    (Keys (acc ++ inherited s bases) → addBases s acc bases = .ok (acc ++ inherited s bases)) ∧
    (¬ Keys (acc ++ inherited s bases) → addBases s acc bases = .error .multipleInheritanceClash)
  | [], acc, h => by
    simp only [inherited, List.flatMap_nil, List.append_nil, addBases]
    exact ⟨fun _ => trivial, fun hn => absurd h hn⟩
  | b :: bs, acc, h => by
    have e : acc ++ inherited s (b :: bs) = (acc ++ propsOf s b) ++ inherited s bs := by
      simp [inherited, List.append_assoc]
    rw [e]
    simp only [addBases]
    by_cases hk : Keys (acc ++ propsOf s b)
    · rw [(addBase_eq h).1 hk]
      exact addBases_eq hk
    · rw [(addBase_eq h).2 hk]
      exact ⟨fun hk' => absurd hk'.left hk, fun _ => rfl⟩

theorem hasProp_iff {s : State} {b : Nat} {k : String} {p : Nat} : HasProp s b k p ↔ (k, p) ∈ propsOf s b := by
  unfold propsOf
  constructor
  · rintro ⟨r, ⟨cl, h1, h2⟩, h3⟩
    simp only [h1, h2, h3]
  · intro h
    cases hc : s.classes[b]? with
    | none => rw [hc] at h; cases h
    | some cl =>
      rw [hc] at h
      simp only at h
      cases hi : cl.info with
      | none => rw [hi] at h; cases h
      | some r => rw [hi] at h; exact ⟨r, ⟨cl, hc, hi⟩, h⟩

theorem mem_inherited {s : State} {bases : List Nat} {k : String} {p : Nat} :
    (k, p) ∈ inherited s bases ↔ ∃ b ∈ bases, HasProp s b k p := by
  simp only [inherited, List.mem_flatMap, hasProp_iff]

theorem keys_inherited {s : State} : ∀ {bases : List Nat}, (∀ b, Keys (propsOf s b)) → (Keys (inherited s bases) ↔ ¬ Clashing s bases)
  | [], _ => by
    constructor
    · rintro _ ⟨i, j, b, c, k, p, q, _, h, _⟩
      cases h
    · intro _; exact List.nodup_nil
  | b :: bs, hk => by
    have ih := keys_inherited (bases := bs) hk
    have e : inherited s (b :: bs) = propsOf s b ++ inherited s bs := rfl
    rw [e]
    simp only [Keys, List.map_append, List.nodup_append]
    constructor
    · rintro ⟨_, h2, h3⟩ ⟨i, j, x, y, k, p, q, hij, hx, hy, hp, hq⟩
      cases j with
      | zero => omega
      | succ j =>
        cases i with
        | zero =>
          cases hx
          refine h3 k (mem_keys (hasProp_iff.1 hp)) k ?_ rfl
          exact mem_keys (mem_inherited.2 ⟨y, List.mem_of_getElem? hy, hq⟩)
        | succ i => exact ih.1 h2 ⟨i, j, x, y, k, p, q, by omega, hx, hy, hp, hq⟩
    · intro hc
      refine ⟨hk b, ih.2 ?_, ?_⟩
      · rintro ⟨i, j, x, y, k, p, q, hij, hx, hy, hp, hq⟩
        exact hc ⟨i + 1, j + 1, x, y, k, p, q, by omega, hx, hy, hp, hq⟩
      · rintro k hk1 _ hk2 rfl
        obtain ⟨⟨_, p⟩, h1, rfl⟩ := List.mem_map.1 hk1
        obtain ⟨⟨k', q⟩, h2, h3⟩ := List.mem_map.1 hk2
        simp only at h3
        subst h3
        obtain ⟨y, hy, hq⟩ := mem_inherited.1 h2
        obtain ⟨j, hj⟩ := List.getElem?_of_mem hy
        exact hc ⟨0, j + 1, b, y, _, p, q, by omega, rfl, hj, hasProp_iff.2 h1, hq⟩

/-- What does not change. -/
structure Same (o o' : PObj) : Prop where
  required : o'.required = o.required
  hasDefault : o'.hasDefault = o.hasDefault
  lazy : o'.lazy = o.lazy
  extraneous : o'.extraneous = o.extraneous
  bound : o.bound = true → o' = o

theorem Same.rfl {o : PObj} : Same o o := ⟨.refl _, .refl _, .refl _, .refl _, fun _ => .refl _⟩

theorem Same.trans {o o' o'' : PObj} (h : Same o o') (h' : Same o' o'') : Same o o'' :=
  ⟨h'.1.trans h.1, h'.2.trans h.2, h'.3.trans h.3, h'.4.trans h.4, fun hb => by
    have := h.bound hb
    subst this
    exact h'.bound hb⟩

/-- The property objects later on. -/
def PLater (ps ps' : List PObj) : Prop := ps.length ≤ ps'.length ∧ ∀ (i : Nat) o, ps[i]? = some o → ∃ o', ps'[i]? = some o' ∧ Same o o'

theorem PLater.rfl {ps : List PObj} : PLater ps ps := ⟨Nat.le_refl _, fun _ o h => ⟨o, h, .rfl⟩⟩

theorem PLater.trans {a b c : List PObj} (h : PLater a b) (h' : PLater b c) : PLater a c :=
  ⟨Nat.le_trans h.1 h'.1, fun i o ho => by
    obtain ⟨o', ho', hs⟩ := h.2 i o ho
    obtain ⟨o'', ho'', hs'⟩ := h'.2 i o' ho'
    exact ⟨o'', ho'', hs.trans hs'⟩⟩

theorem PLater.set {ps : List PObj} {i : Nat} {o o' : PObj} (ho : ps[i]? = some o) (hs : Same o o') : PLater ps (ps.set i o') := by
  refine ⟨by simp, ?_⟩
  intro j x hx
  by_cases hij : i = j
  · subst hij
    rw [ho] at hx
    cases hx
    obtain ⟨hlt, _⟩ := List.getElem?_eq_some_iff.1 ho
    exact ⟨o', by simp [hlt], hs⟩
  · exact ⟨x, by simp [hij, hx], .rfl⟩

theorem setName_same {o : PObj} (h : o.bound = false) (nm : String) : Same o (o.setName nm) :=
  ⟨.refl _, .refl _, .refl _, .refl _, fun hb => by rw [h] at hb; cases hb⟩

/-- Are the properties of the body there, and no reserved names? -/
structure Fine (n : Nat) (attrs : List (String × AVal)) : Prop where
  exist : ∀ k p, OwnProp attrs k p → p < n
  free : ¬ UsesReserved attrs

theorem usesReserved_cons {x : String × AVal} {rest : List (String × AVal)} :
    UsesReserved (x :: rest) ↔ (x.1 = "properties" ∨ x.1 = "eager_properties") ∨ UsesReserved rest := by
  obtain ⟨k, v⟩ := x
  unfold UsesReserved
  constructor
  · rintro ⟨w, h | h⟩ <;> rcases List.mem_cons.1 h with h | h
    · exact .inl (.inl (Prod.mk.inj h).1.symm)
    · exact .inr ⟨w, .inl h⟩
    · exact .inl (.inr (Prod.mk.inj h).1.symm)
    · exact .inr ⟨w, .inr h⟩
  · rintro ((h | h) | ⟨w, h | h⟩)
    · simp only at h; subst h; exact ⟨v, .inl List.mem_cons_self⟩
    · simp only at h; subst h; exact ⟨v, .inr List.mem_cons_self⟩
    · exact ⟨w, .inl (List.mem_cons_of_mem _ h)⟩
    · exact ⟨w, .inr (List.mem_cons_of_mem _ h)⟩

/-- What one round of the loop does with a property. -/
def step (l : Loop) (nm : String) (i : Nat) (p : PObj) : Loop :=
  if p.bound then { l with properties := aset l.properties nm i }
  else
    { props := l.props.set i (p.setName nm)
      properties := aset l.properties nm i
      localProps := aset l.localProps nm i
      auxProps := addAux l.auxProps i (p.setName nm) }

theorem addAttrs_prop {l : Loop} {nm : String} {i : Nat} {rest : List (String × AVal)} {p : PObj}
    (h : ¬ (nm = "properties" ∨ nm = "eager_properties")) (hp : l.props[i]? = some p) :
    addAttrs l ((nm, .prop i) :: rest) = addAttrs (step l nm i p) rest := by
  simp only [addAttrs, h, if_false, hp, step]
  split <;> rfl

theorem addAttrs_skip {l : Loop} {nm : String} {v : AVal} {rest : List (String × AVal)}
    (h : ¬ (nm = "properties" ∨ nm = "eager_properties")) (hv : ∀ i, v ≠ .prop i) :
    addAttrs l ((nm, v) :: rest) = addAttrs l rest := by
  cases v with
  | prop i => exact absurd rfl (hv i)
  | _ => simp only [addAttrs, h, if_false]

theorem step_props {l : Loop} {nm : String} {i : Nat} {p : PObj} (hp : l.props[i]? = some p) : PLater l.props (step l nm i p).props := by
  unfold step
  split
  · exact .rfl
  · rename_i hb
    exact .set hp (setName_same (by simpa using hb) nm)

theorem step_length {l : Loop} {nm : String} {i : Nat} {p : PObj} : (step l nm i p).props.length = l.props.length := by
  unfold step
  split
  · rfl
  · simp

theorem step_properties {l : Loop} {nm : String} {i : Nat} {p : PObj} : (step l nm i p).properties = aset l.properties nm i := by
  unfold step
  split <;> rfl

/-- The loop is an induction. -/
theorem addAttrs_ind {P : Loop → List (String × AVal) → Except CErr Loop × List PObj → Prop}
    (nil : ∀ l, P l [] (.ok l, l.props))
    (reserved : ∀ l nm v rest, (nm = "properties" ∨ nm = "eager_properties") → P l ((nm, v) :: rest) (.error .reservedPropertyName, l.props))
    (bad : ∀ l nm i rest, ¬ (nm = "properties" ∨ nm = "eager_properties") → l.props[i]? = none →
      P l ((nm, .prop i) :: rest) (.error .badId, l.props))
    (prop : ∀ l nm i p rest, ¬ (nm = "properties" ∨ nm = "eager_properties") → l.props[i]? = some p →
      P (step l nm i p) rest (addAttrs (step l nm i p) rest) → P l ((nm, .prop i) :: rest) (addAttrs (step l nm i p) rest))
    (skip : ∀ l nm v rest, ¬ (nm = "properties" ∨ nm = "eager_properties") → (∀ i, v ≠ .prop i) →
      P l rest (addAttrs l rest) → P l ((nm, v) :: rest) (addAttrs l rest)) :
    ∀ l attrs, P l attrs (addAttrs l attrs) := by
  intro l attrs
  induction attrs generalizing l with
  | nil => exact nil l
  | cons x rest ih =>
    obtain ⟨nm, v⟩ := x
    by_cases h : nm = "properties" ∨ nm = "eager_properties"
    · have : addAttrs l ((nm, v) :: rest) = (.error .reservedPropertyName, l.props) := by
        simp only [addAttrs, h, if_true]
      rw [this]
      exact reserved l nm v rest h
    · by_cases hv : ∃ i, v = .prop i
      · obtain ⟨i, rfl⟩ := hv
        cases hp : l.props[i]? with
        | none =>
          have : addAttrs l ((nm, .prop i) :: rest) = (.error .badId, l.props) := by
            simp only [addAttrs, h, if_false, hp]
          rw [this]
          exact bad l nm i rest h hp
        | some p =>
          rw [addAttrs_prop h hp]
          exact prop l nm i p rest h hp (ih _)
      · have hv : ∀ i, v ≠ .prop i := fun i hi => hv ⟨i, hi⟩
        rw [addAttrs_skip h hv]
        exact skip l nm v rest h hv (ih l)

/-- The objects after the loop. -/
theorem addAttrs_later (l : Loop) (attrs : List (String × AVal)) : PLater l.props (addAttrs l attrs).2 ∧
    (addAttrs l attrs).2.length = l.props.length ∧ ∀ l', (addAttrs l attrs).1 = .ok l' → l'.props = (addAttrs l attrs).2 := by
  refine addAttrs_ind (P := fun l _ r => PLater l.props r.2 ∧ r.2.length = l.props.length ∧ ∀ l', r.1 = .ok l' → l'.props = r.2)
    ?_ ?_ ?_ ?_ ?_ l attrs
  · exact fun l => ⟨.rfl, rfl, by rintro l' ⟨⟩; rfl⟩
  · exact fun l nm v rest _ => ⟨.rfl, rfl, by rintro l' ⟨⟩⟩
  · exact fun l nm i rest _ _ => ⟨.rfl, rfl, by rintro l' ⟨⟩⟩
  · rintro l nm i p rest _ hp ⟨h1, h2, h3⟩
    exact ⟨(step_props hp).trans h1, h2.trans step_length, h3⟩
  · exact fun l nm v rest _ _ h => h

/-- When the loop ends well. -/
theorem addAttrs_ok (l : Loop) (attrs : List (String × AVal)) :
    (Fine l.props.length attrs → ∃ l', (addAttrs l attrs).1 = .ok l') ∧
    (∀ l', (addAttrs l attrs).1 = .ok l' → Fine l.props.length attrs) ∧
    ((∀ k p, OwnProp attrs k p → p < l.props.length) → UsesReserved attrs → (addAttrs l attrs).1 = .error .reservedPropertyName) := by
  refine addAttrs_ind (P := fun l attrs r => (Fine l.props.length attrs → ∃ l', r.1 = .ok l') ∧
    (∀ l', r.1 = .ok l' → Fine l.props.length attrs) ∧
    ((∀ k p, OwnProp attrs k p → p < l.props.length) → UsesReserved attrs → r.1 = .error .reservedPropertyName)) ?_ ?_ ?_ ?_ ?_ l attrs
  · intro l
    have hno : ¬ UsesReserved [] := by rintro ⟨v, h | h⟩ <;> cases h
    exact ⟨fun _ => ⟨l, rfl⟩, fun _ _ => ⟨fun k p h => (by cases h), hno⟩, fun _ h => absurd h hno⟩
  · intro l nm v rest h
    exact ⟨fun hf => absurd (usesReserved_cons.2 (.inl h)) hf.free, fun _ hl => (by cases hl), fun _ _ => rfl⟩
  · intro l nm i rest h hp
    have hlt : ¬ i < l.props.length := by simpa using hp
    exact ⟨fun hf => absurd (hf.exist nm i List.mem_cons_self) hlt, fun _ hl => (by cases hl),
      fun he _ => absurd (he nm i List.mem_cons_self) hlt⟩
  · rintro l nm i p rest h hp ⟨h1, h2, h3⟩
    rw [step_length] at h1 h2 h3
    have hlt : i < l.props.length := (List.getElem?_eq_some_iff.1 hp).1
    refine ⟨fun hf => h1 ⟨fun k q hq => hf.exist k q (List.mem_cons_of_mem _ hq), fun hr => hf.free (usesReserved_cons.2 (.inr hr))⟩, ?_, ?_⟩
    · intro l' hl'
      have := h2 l' hl'
      refine ⟨?_, ?_⟩
      · intro k q hq
        rcases List.mem_cons.1 hq with hq | hq
        · cases hq; exact hlt
        · exact this.exist k q hq
      · intro hr
        rcases usesReserved_cons.1 hr with hr | hr
        · exact h hr
        · exact this.free hr
    · intro he hr
      rcases usesReserved_cons.1 hr with hr | hr
      · exact absurd hr h
      · exact h3 (fun k q hq => he k q (List.mem_cons_of_mem _ hq)) hr
  · rintro l nm v rest h hv ⟨h1, h2, h3⟩
    refine ⟨fun hf => h1 ⟨fun k q hq => hf.exist k q (List.mem_cons_of_mem _ hq), fun hr => hf.free (usesReserved_cons.2 (.inr hr))⟩, ?_, ?_⟩
    · intro l' hl'
      have := h2 l' hl'
      refine ⟨?_, ?_⟩
      · intro k q hq
        rcases List.mem_cons.1 hq with hq | hq
        · cases hq; exact absurd rfl (hv q)
        · exact this.exist k q hq
      · intro hr
        rcases usesReserved_cons.1 hr with hr | hr
        · exact h hr
        · exact this.free hr
    · intro he hr
      rcases usesReserved_cons.1 hr with hr | hr
      · exact absurd hr h
      · exact h3 (fun k q hq => he k q (List.mem_cons_of_mem _ hq)) hr

theorem ownProp_cons {nm k : String} {v : AVal} {q : Nat} {rest : List (String × AVal)} :
    OwnProp ((nm, v) :: rest) k q ↔ (k = nm ∧ v = .prop q) ∨ OwnProp rest k q := by
  unfold OwnProp
  rw [List.mem_cons, Prod.mk.injEq]
  constructor
  · rintro (⟨h1, h2⟩ | h)
    · exact .inl ⟨h1, h2.symm⟩
    · exact .inr h
  · rintro (⟨h1, h2⟩ | h)
    · exact .inl ⟨h1, h2.symm⟩
    · exact .inr h

/-- The properties after the loop. -/
theorem addAttrs_properties (l : Loop) (attrs : List (String × AVal)) : Keys l.properties → Keys attrs →
    ∀ l', (addAttrs l attrs).1 = .ok l' → Keys l'.properties ∧
    ∀ k p, (k, p) ∈ l'.properties ↔ OwnProp attrs k p ∨ ((∀ q, ¬ OwnProp attrs k q) ∧ (k, p) ∈ l.properties) := by
  refine addAttrs_ind (P := fun l attrs r => Keys l.properties → Keys attrs → ∀ l', r.1 = .ok l' → Keys l'.properties ∧
    ∀ k p, (k, p) ∈ l'.properties ↔ OwnProp attrs k p ∨ ((∀ q, ¬ OwnProp attrs k q) ∧ (k, p) ∈ l.properties)) ?_ ?_ ?_ ?_ ?_ l attrs
  · rintro l hk _ l' ⟨⟩
    refine ⟨hk, fun k p => ?_⟩
    simp [OwnProp]
  · rintro l nm v rest _ _ _ l' ⟨⟩
  · rintro l nm i rest _ _ _ _ l' ⟨⟩
  · intro l nm i p rest _ _ ih hk ha l' hl'
    simp only [Keys, List.map_cons, List.nodup_cons] at ha
    obtain ⟨h1, h2⟩ := ih (by rw [step_properties]; exact hk.aset nm i) ha.2 l' hl'
    refine ⟨h1, fun k q => ?_⟩
    rw [h2, step_properties, hk.mem_aset]
    simp only [ownProp_cons, AVal.prop.injEq]
    have hno : ∀ q, ¬ OwnProp rest nm q := fun q hq => ha.1 (mem_keys hq)
    by_cases hkn : nm = k
    · subst hkn
      simp only [hno, not_false_eq_true, implies_true, true_and, ne_eq, not_true_eq_false, false_and, or_false, false_or]
      constructor
      · intro h; exact .inl h.symm
      · rintro (h | ⟨h, _⟩)
        · exact h.symm
        · exact absurd rfl (h i)
    · have hkn' : ¬ k = nm := fun e => hkn e.symm
      simp [hkn, hkn']
  · intro l nm v rest _ hv ih hk ha l' hl'
    simp only [Keys, List.map_cons, List.nodup_cons] at ha
    obtain ⟨h1, h2⟩ := ih hk ha.2 l' hl'
    refine ⟨h1, fun k q => ?_⟩
    rw [h2]
    simp only [ownProp_cons, hv, and_false, false_or]

/-- The property exists and is bound to no class. -/
def Unbound (ps : List PObj) (i : Nat) : Prop := ∃ o, ps[i]? = some o ∧ o.bound = false

theorem step_unbound {l : Loop} {nm : String} {i : Nat} {p : PObj} (hp : l.props[i]? = some p) (j : Nat) :
    Unbound (step l nm i p).props j ↔ Unbound l.props j := by
  unfold step
  split
  · exact Iff.rfl
  · rename_i hb
    unfold Unbound
    simp only
    by_cases hij : i = j
    · subst hij
      have hlt := (List.getElem?_eq_some_iff.1 hp).1
      simp only [List.getElem?_set_self hlt, hp, Option.some.injEq, exists_eq_left', Bool.not_eq_true] at *
      exact ⟨fun _ => hb, fun _ => hb⟩
    · simp [hij]

theorem step_local {l : Loop} {nm : String} {i : Nat} {p : PObj} (hp : l.props[i]? = some p) (hk : Keys l.localProps)
    (hn : nm ∉ l.localProps.map (·.1)) (k : String) (j : Nat) : Keys (step l nm i p).localProps ∧
    ((k, j) ∈ (step l nm i p).localProps ↔ (k, j) ∈ l.localProps ∨ (k = nm ∧ j = i ∧ Unbound l.props i)) := by
  unfold step
  split
  · rename_i hb
    refine ⟨hk, ?_⟩
    constructor
    · exact .inl
    · rintro (h | ⟨_, _, o, ho, hu⟩)
      · exact h
      · rw [hp] at ho; cases ho; rw [hb] at hu; cases hu
  · rename_i hb
    refine ⟨hk.aset _ _, ?_⟩
    simp only
    rw [hk.mem_aset]
    constructor
    · rintro (⟨h1, h2⟩ | ⟨_, h⟩)
      · exact .inr ⟨h1.symm, h2, p, hp, by simpa using hb⟩
      · exact .inl h
    · rintro (h | ⟨h1, h2, _⟩)
      · refine .inr ⟨?_, h⟩
        rintro rfl
        exact hn (mem_keys h)
      · exact .inl ⟨h1.symm, h2⟩

/-- `local_props` after the loop: the properties of the body that are not bound. -/
theorem addAttrs_local (l : Loop) (attrs : List (String × AVal)) : Keys l.localProps → Keys attrs →
    (∀ k ∈ l.localProps.map (·.1), k ∉ attrs.map (·.1)) → ∀ l', (addAttrs l attrs).1 = .ok l' →
    ∀ k i, (k, i) ∈ l'.localProps ↔ (k, i) ∈ l.localProps ∨ (OwnProp attrs k i ∧ Unbound l.props i) := by
  refine addAttrs_ind (P := fun l attrs r => Keys l.localProps → Keys attrs →
    (∀ k ∈ l.localProps.map (·.1), k ∉ attrs.map (·.1)) → ∀ l', r.1 = .ok l' →
    ∀ k i, (k, i) ∈ l'.localProps ↔ (k, i) ∈ l.localProps ∨ (OwnProp attrs k i ∧ Unbound l.props i)) ?_ ?_ ?_ ?_ ?_ l attrs
  · rintro l _ _ _ l' ⟨⟩ k i
    simp [OwnProp]
  · rintro l nm v rest _ _ _ _ l' ⟨⟩
  · rintro l nm i rest _ _ _ _ _ l' ⟨⟩
  · intro l nm i p rest _ hp ih hk ha hd l' hl' k j
    simp only [Keys, List.map_cons, List.nodup_cons] at ha
    have hn : nm ∉ l.localProps.map (·.1) := fun h => hd nm h (by simp)
    have hs := step_local hp hk hn
    rw [ih (hs k j).1 ha.2 ?_ l' hl' k j, (hs k j).2, step_unbound hp, ownProp_cons]
    · constructor
      · rintro ((h | ⟨h1, h2, h3⟩) | ⟨h1, h2⟩)
        · exact .inl h
        · subst h2; exact .inr ⟨.inl ⟨h1, rfl⟩, h3⟩
        · exact .inr ⟨.inr h1, h2⟩
      · rintro (h | ⟨⟨h1, h2⟩ | h1, h3⟩)
        · exact .inl (.inl h)
        · cases h2; exact .inl (.inr ⟨h1, rfl, h3⟩)
        · exact .inr ⟨h1, h3⟩
    · intro x hx hx'
      obtain ⟨⟨x', y⟩, hy, rfl⟩ := List.mem_map.1 hx
      rcases (hs x' y).2.1 hy with h | ⟨h, _, _⟩
      · exact hd x' (mem_keys h) (by simp [hx'])
      · simp only at hx'
        rw [h] at hx'
        exact ha.1 hx'
  · intro l nm v rest _ hv ih hk ha hd l' hl' k j
    simp only [Keys, List.map_cons, List.nodup_cons] at ha
    rw [ih hk ha.2 (fun x hx hx' => hd x hx (by simp [hx'])) l' hl' k j, ownProp_cons]
    simp [hv]

theorem addAux_aux {l : List (String × AVal)} {i : Nat} {p : PObj} (h : ∀ k v, (k, v) ∈ l → ∃ q, v = .aux q) :
    ∀ k v, (k, v) ∈ addAux l i p → ∃ q, v = .aux q := by
  intro k v hm
  unfold addAux at hm
  split at hm
  · rename_i a _
    clear * - hm h
    induction l with
    | nil =>
      simp only [aset, List.mem_singleton, Prod.mk.injEq] at hm
      exact ⟨i, hm.2⟩
    | cons x l ih =>
      simp only [aset] at hm
      split at hm
      · rcases List.mem_cons.1 hm with hm | hm
        · exact ⟨i, (Prod.mk.inj hm).2⟩
        · exact h k v (List.mem_cons_of_mem _ hm)
      · rcases List.mem_cons.1 hm with hm | hm
        · exact h k v (hm ▸ List.mem_cons_self)
        · exact ih (fun k v h' => h k v (List.mem_cons_of_mem _ h')) hm
  · exact h k v hm

theorem addAttrs_aux (l : Loop) (attrs : List (String × AVal)) : (∀ k v, (k, v) ∈ l.auxProps → ∃ q, v = .aux q) →
    ∀ l', (addAttrs l attrs).1 = .ok l' → ∀ k v, (k, v) ∈ l'.auxProps → ∃ q, v = .aux q := by
  refine addAttrs_ind (P := fun l attrs r => (∀ k v, (k, v) ∈ l.auxProps → ∃ q, v = .aux q) →
    ∀ l', r.1 = .ok l' → ∀ k v, (k, v) ∈ l'.auxProps → ∃ q, v = .aux q) ?_ ?_ ?_ ?_ ?_ l attrs
  · rintro l h l' ⟨⟩; exact h
  · rintro l nm v rest _ _ l' ⟨⟩
  · rintro l nm i rest _ _ _ l' ⟨⟩
  · intro l nm i p rest _ hp ih h l' hl'
    refine ih ?_ l' hl'
    unfold step
    split
    · exact h
    · exact addAux_aux h
  · intro l nm v rest _ hv ih h l' hl'
    exact ih h l' hl'

theorem addAttrs_other (l : Loop) (attrs : List (String × AVal)) (p : Nat) : (∀ k, ¬ OwnProp attrs k p) →
    (addAttrs l attrs).2[p]? = l.props[p]? := by
  refine addAttrs_ind (P := fun l attrs r => (∀ k, ¬ OwnProp attrs k p) → r.2[p]? = l.props[p]?) ?_ ?_ ?_ ?_ ?_ l attrs
  · exact fun l _ => rfl
  · exact fun l nm v rest _ _ => rfl
  · exact fun l nm i rest _ _ _ => rfl
  · intro l nm i o rest _ hp ih h
    rw [ih (fun k hk => h k (List.mem_cons_of_mem _ hk))]
    have hip : i ≠ p := by rintro rfl; exact h nm List.mem_cons_self
    unfold step
    split
    · rfl
    · simp [hip]
  · intro l nm v rest _ hv ih h
    exact ih (fun k hk => h k (List.mem_cons_of_mem _ hk))

/-- The names after the loop, if no property is there twice. -/
theorem addAttrs_name (l : Loop) (attrs : List (String × AVal)) (p : Nat) : Keys attrs →
    (∀ k k', OwnProp attrs k p → OwnProp attrs k' p → k' = k) → Unbound l.props p →
    ∀ l', (addAttrs l attrs).1 = .ok l' → ∀ k, OwnProp attrs k p → ∃ o, l'.props[p]? = some o ∧ o.name = some k := by
  refine addAttrs_ind (P := fun l attrs r => Keys attrs →
    (∀ k k', OwnProp attrs k p → OwnProp attrs k' p → k' = k) → Unbound l.props p →
    ∀ l', r.1 = .ok l' → ∀ k, OwnProp attrs k p → ∃ o, l'.props[p]? = some o ∧ o.name = some k) ?_ ?_ ?_ ?_ ?_ l attrs
  · intro l _ _ _ l' _ k hk; cases hk
  · rintro l nm v rest _ _ _ _ l' ⟨⟩
  · rintro l nm i rest _ _ _ _ _ l' ⟨⟩
  · intro l nm i o rest _ hp ih ha hu hub l' hl' k hk
    simp only [Keys, List.map_cons, List.nodup_cons] at ha
    by_cases hip : i = p
    · subst hip
      have hnm : k = nm := hu _ _ List.mem_cons_self hk
      subst hnm
      have hrest : ∀ k', ¬ OwnProp rest k' i := by
        intro k' hk'
        have := hu k k' List.mem_cons_self (List.mem_cons_of_mem _ hk')
        subst this
        exact ha.1 (mem_keys hk')
      rw [(addAttrs_later _ _).2.2 l' hl', addAttrs_other _ _ _ hrest]
      obtain ⟨o', ho', hb⟩ := hub
      rw [hp] at ho'
      cases ho'
      have hlt := (List.getElem?_eq_some_iff.1 hp).1
      exact ⟨o.setName k, by simp [step, hb, hlt], rfl⟩
    · have hk' : OwnProp rest k p := by
        rcases ownProp_cons.1 hk with ⟨_, h⟩ | h
        · cases h; exact absurd rfl hip
        · exact h
      exact ih ha.2 (fun a b h1 h2 => hu a b (List.mem_cons_of_mem _ h1) (List.mem_cons_of_mem _ h2))
        ((step_unbound hp p).2 hub) l' hl' k hk'
  · intro l nm v rest _ hv ih ha hu hub l' hl' k hk
    simp only [Keys, List.map_cons, List.nodup_cons] at ha
    have hk' : OwnProp rest k p := by
      rcases ownProp_cons.1 hk with ⟨_, h⟩ | h
      · exact absurd h (hv p)
      · exact h
    exact ih ha.2 (fun a b h1 h2 => hu a b (List.mem_cons_of_mem _ h1) (List.mem_cons_of_mem _ h2)) hub l' hl' k hk'

/-- The loop binds nothing. -/
theorem addAttrs_cls (l : Loop) (attrs : List (String × AVal)) (p : Nat) :
    (addAttrs l attrs).2[p]?.map (·.cls) = l.props[p]?.map (·.cls) := by
  refine addAttrs_ind (P := fun l attrs r => r.2[p]?.map (·.cls) = l.props[p]?.map (·.cls)) ?_ ?_ ?_ ?_ ?_ l attrs
  · exact fun l => rfl
  · exact fun l nm v rest _ => rfl
  · exact fun l nm i rest _ _ => rfl
  · intro l nm i o rest _ hp ih
    rw [ih]
    unfold step
    split
    · rfl
    · simp only
      by_cases hip : i = p
      · subst hip
        rw [List.getElem?_set_self (List.getElem?_eq_some_iff.1 hp).1, hp]
        rfl
      · simp [hip]
  · exact fun l nm v rest _ _ ih => ih

/-- Bound to the class. -/
def PObj.bindTo (c : Nat) (o : PObj) : PObj := { o with cls := some c }

theorem bindOne_get (ps : List PObj) (i c j : Nat) :
    (bindOne ps i c)[j]? = if j = i then ps[j]?.map (PObj.bindTo c) else ps[j]? := by
  unfold bindOne
  cases h : ps[i]? with
  | none =>
    simp only
    split
    · rename_i hj; subst hj; simp [h]
    · rfl
  | some o =>
    simp only
    split
    · rename_i hj
      subst hj
      have hlt := (List.getElem?_eq_some_iff.1 h).1
      rw [List.getElem?_set_self hlt, h]
      rfl
    · rename_i hj
      have : ¬ i = j := fun e => hj e.symm
      simp [this]

theorem bindAll_get (c : Nat) : ∀ (loc : List (String × Nat)) (ps : List PObj) (j : Nat),
    (bindAll c ps loc)[j]? = if j ∈ loc.map (·.2) then ps[j]?.map (PObj.bindTo c) else ps[j]?
  | [], ps, j => by simp [bindAll]
  | (k, i) :: loc, ps, j => by
    simp only [bindAll, List.map_cons, List.mem_cons]
    rw [bindAll_get c loc, bindOne_get]
    by_cases hji : j = i
    · subst hji
      cases hp : ps[j]? with
      | none => simp
      | some o => simp [PObj.bindTo]
    · simp only [hji, if_false, false_or]

theorem bindAll_length (c : Nat) : ∀ (loc : List (String × Nat)) (ps : List PObj), (bindAll c ps loc).length = ps.length
  | [], ps => rfl
  | (k, i) :: loc, ps => by
    simp only [bindAll]
    rw [bindAll_length c loc]
    unfold bindOne
    split <;> simp

theorem bindAll_later {c : Nat} {loc : List (String × Nat)} {ps : List PObj} (h : ∀ k i, (k, i) ∈ loc → Unbound ps i) :
    PLater ps (bindAll c ps loc) := by
  refine ⟨Nat.le_of_eq (bindAll_length c loc ps).symm, ?_⟩
  intro i o ho
  rw [bindAll_get]
  split
  · rename_i hm
    obtain ⟨⟨k, i'⟩, hk, rfl⟩ := List.mem_map.1 hm
    obtain ⟨o', ho', hb⟩ := h k i' hk
    rw [ho] at ho'
    cases ho'
    exact ⟨o.bindTo c, by simp [ho], ⟨rfl, rfl, rfl, rfl, fun hb' => by rw [hb] at hb'; cases hb'⟩⟩
  · exact ⟨o, ho, .rfl⟩

theorem update_some : ∀ {e d : List (String × AVal)} {k : String} {v : AVal}, alookup (update d e) k = some v →
    (k, v) ∈ e ∨ alookup d k = some v
  | [], d, k, v, h => .inr h
  | (k', w) :: e, d, k, v, h => by
    simp only [update] at h
    rcases update_some h with h | h
    · exact .inl (List.mem_cons_of_mem _ h)
    · rw [Normalize.alookup_aset] at h
      split at h
      · rename_i hk
        cases h; subst hk
        exact .inl List.mem_cons_self
      · exact .inr h

theorem update_keeps : ∀ {e d : List (String × AVal)} {k : String} {v : AVal}, alookup d k = some v →
    ∃ w, alookup (update d e) k = some w
  | [], d, k, v, h => ⟨v, h⟩
  | (k', w) :: e, d, k, v, h => by
    simp only [update]
    have : ∃ x, alookup (aset d k' w) k = some x := by
      rw [Normalize.alookup_aset]
      split
      · exact ⟨w, rfl⟩
      · exact ⟨v, h⟩
    obtain ⟨x, hx⟩ := this
    exact update_keeps hx

theorem classDict_prop {attrs aux : List (String × AVal)} {k : String} {p : Nat} (ha : ∀ k v, (k, v) ∈ aux → ∃ q, v = .aux q)
    (h : alookup (classDict attrs aux) k = some (.prop p)) : OwnProp attrs k p := by
  unfold classDict at h
  rcases update_some h with h | h
  · simp at h
  · rcases update_some h with h | h
    · obtain ⟨q, hq⟩ := ha _ _ h
      cases hq
    · exact mem_of_alookup h

theorem classDict_keeps {attrs aux : List (String × AVal)} {k : String} {p : Nat} (hk : Keys attrs) (h : OwnProp attrs k p) :
    ∃ w, alookup (classDict attrs aux) k = some w := by
  obtain ⟨w, hw⟩ := update_keeps (e := aux) (hk.mem_iff.1 h)
  exact update_keeps hw

theorem coercePk_iff {has : List (String × Nat)} (hk : Keys has) : ∀ {es : List PkEntry} {pk : List Nat},
    coercePk has es = .ok pk ↔ List.Forall₂ (StandsFor (fun k p => (k, p) ∈ has)) es pk
  | [], pk => by
    simp only [coercePk, List.forall₂_nil_left_iff, Except.ok.injEq]
    exact eq_comm
  | e :: es, pk => by
    have ih := @coercePk_iff has hk es
    rw [List.forall₂_cons_left_iff]
    cases e with
    | name s =>
      simp only [coercePk, StandsFor]
      cases hl : alookup has s with
      | none =>
        simp only [reduceCtorEq, false_iff]
        rintro ⟨p, _, hp, _, _⟩
        rw [hk.mem_iff, hl] at hp
        cases hp
      | some p =>
        simp only
        cases hc : coercePk has es with
        | error e =>
          simp only [reduceCtorEq, false_iff]
          rintro ⟨_, ps, _, hps, _⟩
          rw [← ih, hc] at hps
          cases hps
        | ok ps =>
          simp only [Except.ok.injEq]
          constructor
          · rintro rfl
            exact ⟨p, ps, hk.mem_iff.2 hl, ih.1 hc, rfl⟩
          · rintro ⟨p', ps', hp, hps, rfl⟩
            rw [hk.mem_iff, hl] at hp
            rw [← ih, hc] at hps
            cases hp; cases hps; rfl
    | prop q =>
      simp only [coercePk, StandsFor]
      split
      · rename_i hq
        cases hc : coercePk has es with
        | error e =>
          simp only [reduceCtorEq, false_iff]
          rintro ⟨_, ps, _, hps, _⟩
          rw [← ih, hc] at hps
          cases hps
        | ok ps =>
          simp only [Except.ok.injEq]
          constructor
          · rintro rfl
            obtain ⟨⟨k, q'⟩, h1, rfl⟩ := List.mem_map.1 hq
            exact ⟨q', ps, ⟨rfl, k, h1⟩, ih.1 hc, rfl⟩
          · rintro ⟨p', ps', ⟨rfl, _⟩, hps, rfl⟩
            rw [← ih, hc] at hps
            cases hps; rfl
      · rename_i hq
        simp only [reduceCtorEq, false_iff]
        rintro ⟨p', ps', ⟨rfl, k, hkq⟩, _⟩
        exact hq (List.mem_map.2 ⟨_, hkq, rfl⟩)
    | other =>
      simp only [coercePk, StandsFor, reduceCtorEq, false_iff]
      rintro ⟨_, _, h, _⟩
      exact h

theorem primaryKey_iff {has : List (String × Nat)} (hk : Keys has) {attrs : List (String × AVal)} (ha : Keys attrs) {pk : List Nat} :
    primaryKey attrs has = .ok pk ↔ AsksForPk (fun k p => (k, p) ∈ has) attrs pk := by
  unfold primaryKey AsksForPk
  cases hl : alookup attrs "primary_key" with
  | none =>
    have hno : ∀ v, ("primary_key", v) ∉ attrs := fun v hv => alookup_none.1 hl (mem_keys hv)
    simp only [Except.ok.injEq]
    constructor
    · rintro rfl; exact .inl ⟨hno, rfl⟩
    · rintro (⟨_, h⟩ | ⟨es, h, _⟩)
      · exact h.symm
      · exact absurd h (hno _)
  | some v =>
    have hv := mem_of_alookup hl
    have hn : ∀ (P : Prop), (((∀ v, ("primary_key", v) ∉ attrs) ∧ pk = []) ∨ P) ↔ P :=
      fun P => ⟨fun h => h.elim (fun h => absurd hv (h.1 v)) id, .inr⟩
    rw [hn]
    have hu : ∀ es, ("primary_key", AVal.pk es) ∈ attrs ↔ v = .pk es :=
      fun es => ⟨fun h => (ha.unique h hv).symm, fun h => h ▸ hv⟩
    cases v with
    | pk es =>
      simp only [hu, AVal.pk.injEq, exists_eq_left']
      exact coercePk_iff hk
    | _ => simp [hu]

theorem insertBy_perm (le : Nat → Nat → Bool) (x : Nat) : ∀ l : List Nat, (insertBy le x l).Perm (x :: l)
  | [] => .refl _
  | y :: ys => by
    simp only [insertBy]
    split
    · exact .refl _
    · exact ((insertBy_perm le x ys).cons y).trans (.swap x y ys)

theorem sortBy_perm (le : Nat → Nat → Bool) : ∀ l : List Nat, (sortBy le l).Perm l
  | [] => .refl _
  | x :: xs => (insertBy_perm le x _).trans ((sortBy_perm le xs).cons x)

theorem insertBy_sorted {le : Nat → Nat → Bool} (tr : ∀ a b c, le a b = true → le b c = true → le a c = true)
    (tot : ∀ a b, le a b = true ∨ le b a = true) (x : Nat) : ∀ {l : List Nat}, l.Pairwise (fun a b => le a b = true) →
    (insertBy le x l).Pairwise (fun a b => le a b = true)
  | [], _ => by simp [insertBy]
  | y :: ys, h => by
    rw [List.pairwise_cons] at h
    simp only [insertBy]
    split
    · rename_i hxy
      refine List.pairwise_cons.2 ⟨?_, List.pairwise_cons.2 h⟩
      intro z hz
      rcases List.mem_cons.1 hz with rfl | hz
      · exact hxy
      · exact tr _ _ _ hxy (h.1 z hz)
    · rename_i hxy
      refine List.pairwise_cons.2 ⟨?_, insertBy_sorted tr tot x h.2⟩
      intro z hz
      rcases List.mem_cons.1 ((insertBy_perm le x ys).mem_iff.1 hz) with rfl | hz
      · exact (tot _ _).resolve_left hxy
      · exact h.1 z hz

theorem sortBy_sorted {le : Nat → Nat → Bool} (tr : ∀ a b c, le a b = true → le b c = true → le a c = true)
    (tot : ∀ a b, le a b = true ∨ le b a = true) : ∀ l : List Nat, (sortBy le l).Pairwise (fun a b => le a b = true)
  | [] => .nil
  | x :: xs => insertBy_sorted tr tot x (sortBy_sorted tr tot xs)

end Normalize.ClassMeta
