import Verif.Props.DiffAssert
import Verif.Lemmas.DiffAgree

/-!
# Comparisons that run to their end
-/

namespace Normalize.Diff
open Ident (IProp ICls Ty ItemTy CollKind Schema readAttr)
open Gen

variable {E F : Type} [DecidableEq E] [DecidableEq F] {H : Hooks E F} {o : Opts} {T : Val → Prop}

/-- A member of a container, or a value in the instance dict of a record. -/
def Part (w v : Val) : Prop :=
  (∃ xs k, tuplesOf (some v) = .ok xs ∧ (k, w) ∈ xs) ∨ ∃ c s k, v = .rcd c s ∧ (k, w) ∈ s

/-- The object is less than `n` levels deep. -/
def Shallow : Nat → Val → Prop
  | 0, _ => False
  | n + 1, v => ∀ w, Part w v → Shallow n w

theorem shallow_succ : ∀ {n : Nat} {v : Val}, Shallow n v → Shallow (n + 1) v
  | 0, _, h => h.elim
  | _ + 1, _, h => fun w hw => shallow_succ (h w hw)

theorem shallow_mono {n m : Nat} (hnm : n ≤ m) {v : Val} (h : Shallow n v) : Shallow m v := by
  induction hnm with
  | refl => exact h
  | step _ ih => exact shallow_succ ih

/-- A common bound. -/
theorem bound_list {α : Type} {P : Nat → α → Prop} (hmono : ∀ n m a, n ≤ m → P n a → P m a) {l : List α}
    (h : ∀ a ∈ l, ∃ n, P n a) : ∃ n, ∀ a ∈ l, P n a := by
  induction l with
  | nil => exact ⟨0, by simp⟩
  | cons a as ih =>
    obtain ⟨n, hn⟩ := h a (by simp)
    obtain ⟨m, hm⟩ := ih (fun b hb => h b (by simp [hb]))
    refine ⟨max n m, fun b hb => ?_⟩
    rcases List.mem_cons.1 hb with rfl | hb
    · exact hmono n _ _ (by omega) hn
    · exact hmono m _ _ (by omega) (hm b hb)

theorem shallow_exists (v : Val) : ∃ n, Shallow n v := by
  have hl : ∀ {xs : List Val}, (∀ x ∈ xs, ∃ n, Shallow n x) → ∃ n, ∀ x ∈ xs, Shallow n x :=
    fun h => bound_list (P := fun n x => Shallow n x) (fun n m a hnm ha => shallow_mono hnm ha) h
  have hc : ∀ {κ : Type} {xs : List (κ × Val)}, (∀ x ∈ xs, ∃ n, Shallow n x.2) → ∃ n, ∀ x ∈ xs, Shallow n x.2 :=
    fun {κ} {xs} h => bound_list (α := κ × Val) (P := fun n x => Shallow n x.2) (fun n m a hnm ha => shallow_mono hnm ha) h
  induction v using Val.ind with
  | atom a =>
    refine ⟨1, ?_⟩
    rintro w (⟨xs, k, h, -⟩ | ⟨c, s, k, h, -⟩)
    · simp [tuplesOf] at h
    · cases h
  | list xs ih =>
    obtain ⟨n, hn⟩ := hl ih
    refine ⟨n + 1, ?_⟩
    rintro w (⟨ys, k, h, hm⟩ | ⟨c, s, k, h, -⟩)
    · simp only [tuplesOf, Except.ok.injEq] at h
      subst h
      exact hn w (enum_mem_list hm)
    · cases h
  | lcoll c xs ih =>
    obtain ⟨n, hn⟩ := hl ih
    refine ⟨n + 1, ?_⟩
    rintro w (⟨ys, k, h, hm⟩ | ⟨c, s, k, h, -⟩)
    · simp only [tuplesOf, Except.ok.injEq] at h
      subst h
      exact hn w (enum_mem_list hm)
    · cases h
  | dict xs ih =>
    obtain ⟨n, hn⟩ := hc ih
    refine ⟨n + 1, ?_⟩
    rintro w (⟨ys, k, h, hm⟩ | ⟨c, s, k, h, -⟩)
    · simp only [tuplesOf, Except.ok.injEq] at h
      subst h
      exact hn _ hm
    · cases h
  | dcoll c xs ih =>
    obtain ⟨n, hn⟩ := hc ih
    refine ⟨n + 1, ?_⟩
    rintro w (⟨ys, k, h, hm⟩ | ⟨c, s, k, h, -⟩)
    · simp only [tuplesOf, Except.ok.injEq] at h
      subst h
      exact hn _ hm
    · cases h
  | rcd c xs ih =>
    obtain ⟨n, hn⟩ := hc ih
    refine ⟨n + 1, ?_⟩
    rintro w (⟨ys, k, h, hm⟩ | ⟨c, s, k, h, hm⟩)
    · simp [tuplesOf] at h
    · cases h
      exact hn _ hm

/-- A family of objects whose comparison meets nothing that raises. -/
structure Smooth (H : Hooks E F) (T : Val → Prop) : Prop where
  good : GoodHooks H
  ord : OrdOK H
  /-- the normalised value of a slot -/
  slot : ∀ x p, T x → ∃ v, H.normSlot (readAttr H.S x p.name) p (some x) = .ok v ∧
    ∀ w, v = some w → T w ∧ (comparable w = true → Part w x)
  member : ∀ x xs k v, T x → tuplesOf (some x) = .ok xs → (k, v) ∈ xs → T v
  equal : ∀ x y, T x → T y → ∃ b, H.itemsEqual x y = .ok b
  item : ∀ c x, T x → ∃ i, H.itemId c x = .ok i
  /-- a collection has one type of items -/
  coll : ∀ x c xs, T x → clsOf x = some c → tuplesOf (some x) = .ok xs →
    ∃ k t, (H.S.cls c).coll = some (k, .one t) ∧
      ∀ n, t = .cls n → ∀ k v, (k, v) ∈ xs → clsOf v = some n ∧ ∃ ks, H.recId none none v = .ok (.tup ks)
  record : ∀ c s, T (.rcd c s) → (H.S.cls c).coll = none

/-- The two sides of a comparison are in the family, not too deep, and of the same type. -/
structure Sides (T : Val → Prop) (n : Nat) (a b : Option Val) : Prop where
  left : ∀ v, a = some v → T v ∧ Shallow n v
  right : ∀ v, b = some v → T v ∧ Shallow n v
  any : a ≠ none ∨ b ≠ none
  tags : ∀ x y, a = some x → b = some y → tagOf x = tagOf y

theorem net_runs {fa fb : FS} {g : Gen} (h : g.exc = none) (hf : Fine (net o fa fb g)) : (net o fa fb g).exc = none := by
  unfold net at hf ⊢
  simp only [h] at hf ⊢
  split
  · cases o.unchanged <;> simp
  · simp
  · rename_i h1 h2
    split at hf
    · rename_i h3; exact absurd h3 h1
    · rename_i t h3; exact absurd h3 (h2 t)
    · exact absurd rfl hf

variable {n : Nat}

/-- What the comparison functions know of the recursive calls. -/
structure RecRuns (T : Val → Prop) (n : Nat) (rec : Rec) : Prop where
  ok : ∀ a b fa fb, OK a b (rec a b fa fb)
  runs : ∀ a b fa fb, Sides T n a b → (rec a b fa fb).exc = none

theorem runs_vals (hT : Smooth H T) (hd : o.duckType = false) {rec : Rec} (hr : RecRuns T n rec) {va vb : Option Val} {fa fb : FS}
    (ha : ∀ w, va = some w → T w ∧ (comparable w = true → Shallow n w))
    (hb : ∀ w, vb = some w → T w ∧ (comparable w = true → Shallow n w)) :
    (compareVals H o rec va vb fa fb).exc = none := by
  have hok : Fine (compareVals H o rec va vb fa fb) := (ok_vals hT.good hr.ok).fine
  match va, vb, ha, hb, hok with
  | none, none, _, _, _ => rfl
  | some x, some y, ha, hb, _ =>
    simp only [compareVals]
    split
    · rename_i hc
      by_cases ht : tagOf x = tagOf y
      · have hx : comparable x = true ∧ comparable y = true := by
          simp only [comparable, ht] at hc ⊢
          simp only [Bool.or_self, Bool.and_eq_true] at hc
          exact ⟨hc.1, hc.1⟩
        refine hr.runs _ _ _ _ ⟨?_, ?_, .inl (by simp), ?_⟩
        · rintro v ⟨⟩; exact ⟨(ha x rfl).1, (ha x rfl).2 hx.1⟩
        · rintro v ⟨⟩; exact ⟨(hb y rfl).1, (hb y rfl).2 hx.2⟩
        · rintro u w ⟨⟩ ⟨⟩; exact ht
      · simp [ht, hd] at hc
    · obtain ⟨b, hb'⟩ := hT.equal x y (ha x rfl).1 (hb y rfl).1
      rw [hb', bindE_ok]
      split
      · cases o.unchanged <;> simp
      · simp
  | none, some y, _, hb, hok =>
    simp only [compareVals] at hok ⊢
    split
    · rename_i hc
      rw [if_pos hc] at hok
      simp only [Bool.and_eq_true] at hc
      refine net_runs (hr.runs _ _ _ _ ⟨by simp, ?_, .inr (by simp), by simp⟩) hok
      rintro v ⟨⟩; exact ⟨(hb y rfl).1, (hb y rfl).2 hc.1⟩
    · simp
  | some x, none, ha, _, hok =>
    simp only [compareVals] at hok ⊢
    split
    · rename_i hc
      rw [if_pos hc] at hok
      simp only [Bool.and_eq_true] at hc
      refine net_runs (hr.runs _ _ _ _ ⟨?_, by simp, .inl (by simp), by simp⟩) hok
      rintro v ⟨⟩; exact ⟨(ha x rfl).1, (ha x rfl).2 hc.1⟩
    · simp

theorem runs_prop (hT : Smooth H T) (hd : o.duckType = false) {rec : Rec} (hr : RecRuns T n rec) {a b : Option Val}
    {fa fb : FS} {p : IProp} (hs : Sides T (n + 1) a b) : (compareProp H o rec a b fa fb p).exc = none := by
  have key : ∀ x, (∀ v, x = some v → T v ∧ Shallow (n + 1) v) → ∃ va, H.normSlot (readSlot H x p.name) p x = .ok va ∧
      ∀ w, va = some w → T w ∧ (comparable w = true → Shallow n w) := by
    intro x hx
    cases x with
    | none => exact ⟨none, hT.good.unset _ _, by simp⟩
    | some v =>
      obtain ⟨va, h1, h2⟩ := hT.slot v p (hx v rfl).1
      exact ⟨va, h1, fun w hw => ⟨(h2 w hw).1, fun hc => (hx v rfl).2 w ((h2 w hw).2 hc)⟩⟩
  obtain ⟨va, ha, ha'⟩ := key a hs.left
  obtain ⟨vb, hb, hb'⟩ := key b hs.right
  unfold compareProp
  rw [exc_when, ha, hb]
  intro _
  exact runs_vals hT hd hr ha' hb'

theorem runs_record (hT : Smooth H T) (hd : o.duckType = false) {rec : Rec} (hr : RecRuns T n rec) {a b : Option Val}
    {fa fb : FS} (hs : Sides T (n + 1) a b) : (compareRecord H o rec a b fa fb).exc = none := by
  unfold compareRecord
  rw [if_neg]
  · exact exc_forEach.2 fun p _ => runs_prop hT hd hr hs
  · cases a with
    | none => simp [typeClash]
    | some x =>
      cases b with
      | none => simp [typeClash]
      | some y => simp [typeClash, hs.tags x y rfl rfl]

theorem matched_runs {fa fb : FS} {k : Comp × Comp} : (matched o fa fb k).exc = none := by
  unfold matched
  split
  · rfl
  · cases o.unchanged <;> rfl

theorem bags_run {fa fb : FS} {A B : List (Ent (Option F))} : (compareBags H o fa fb A B).exc = none := by
  unfold compareBags
  simp only [exc_append, exc_when, exc_forEach, exc_yield, matched_runs, implies_true, and_self]

theorem simple_runs (hT : Smooth H T) {a b : Option Val} {fa fb : FS}
    (ha : ∀ v, a = some v → T v ∧ ∃ xs, tuplesOf (some v) = .ok xs)
    (hb : ∀ v, b = some v → T v ∧ ∃ xs, tuplesOf (some v) = .ok xs) : (compareSimple H o a b fa fb).exc = none := by
  have key : ∀ x, (∀ v, x = some v → T v ∧ ∃ xs, tuplesOf (some v) = .ok xs) → ∃ A, simpleBag H o a x = .ok A := by
    intro x hx
    cases x with
    | none => exact ⟨_, simpleBag_none⟩
    | some v =>
      obtain ⟨hv, xs, hxs⟩ := hx v rfl
      unfold simpleBag
      rw [hxs]
      obtain ⟨ys, hys⟩ := Normalize.mapE_total (l := xs)
        (f := fun kv => (H.itemId (if o.duckType then a else some v) kv.2).map (fun i => (i, kv.1)))
        (fun kv hkv => by
          obtain ⟨i, hi⟩ := hT.item (if o.duckType then a else some v) kv.2 (hT.member v xs kv.1 kv.2 hv hxs hkv)
          exact ⟨(i, kv.1), by rw [hi]; rfl⟩)
      exact ⟨_, by simp only [hys]; rfl⟩
  obtain ⟨A, hA⟩ := key a ha
  obtain ⟨B, hB⟩ := key b hb
  unfold compareSimple
  rw [hA, hB, bindE_ok, bindE_ok]
  exact bags_run

/-- One side of a collection of records. -/
structure CollSide (H : Hooks E F) (T : Val → Prop) (n : Nat) (m : String) (a : Option Val) (A : List (Ent (Id E))) : Prop where
  tup : ∀ e ∈ A, ∃ ks, e.1.1 = .tup ks
  item : ∀ e ∈ A, ∃ w, itemAt a e.2 = .ok w ∧ T w ∧ Shallow n w ∧ clsOf w = some m

theorem coll_side (hT : Smooth H T) {m : String} {k : CollKind} {c : String} {a : Option Val} {fa : FS}
    (hc : (H.S.cls c).coll = some (k, .one (.cls m)))
    (ha : ∀ v, a = some v → T v ∧ Shallow (n + 1) v ∧ clsOf v = some c ∧ ∃ xs, tuplesOf (some v) = .ok xs) :
    ∃ A, collBag H o none (.fixed none) fa a = .ok A ∧ CollSide H T n m a A := by
  cases a with
  | none => exact ⟨[], collBag_none, ⟨by simp, by simp⟩⟩
  | some v =>
    obtain ⟨hv, hw, hcv, xs, hxs⟩ := ha v rfl
    obtain ⟨k', t, hc', hm⟩ := hT.coll v c xs hv hcv hxs
    rw [hc] at hc'
    cases hc'
    have hm := hm m rfl
    have hbag : ∃ A, collBag H o none (.fixed none) fa (some v) = .ok A := by
      unfold collBag
      rw [hxs]
      obtain ⟨ys, hys⟩ := Normalize.mapE_total
        (l := xs.filter (fun kv => (IdArgs.fixed none).looksAt fa kv.1))
        (f := fun kv => (H.recId none ((IdArgs.fixed none).selector kv.1) kv.2).map (fun i => (i, kv.1)))
        (fun kv hkv => by
          obtain ⟨-, ks, hks⟩ := hm kv.1 kv.2 (List.mem_filter.1 hkv).1
          exact ⟨(.tup ks, kv.1), by
            have : (IdArgs.fixed none).selector kv.1 = none := rfl
            rw [this, hks]; rfl⟩)
      exact ⟨_, by simp only [hys]; rfl⟩
    obtain ⟨A, hA⟩ := hbag
    obtain ⟨la, hla, rfl⟩ := collBag_members hA
    refine ⟨_, hA, ⟨fun e he => ?_, fun e he => ?_⟩⟩
    · obtain ⟨u, hu, h1, h2⟩ := mem_of_entry he
      obtain ⟨xs', hxs', hmem, hid⟩ := members_mem hla hu
      rw [hxs] at hxs'
      cases hxs'
      obtain ⟨-, ks, hks⟩ := hm u.2.1 u.2.2 hmem
      rw [hks, Except.ok.injEq] at hid
      exact ⟨ks, by rw [← h1, ← hid]⟩
    · obtain ⟨u, hu, h1, h2⟩ := mem_of_entry he
      obtain ⟨xs', hxs', hmem, hid⟩ := members_mem hla hu
      rw [hxs] at hxs'
      cases hxs'
      rw [← h2]
      obtain ⟨w, hw'⟩ := getItem_tuples hxs hmem
      obtain ⟨ys, j, hys, hj⟩ := getItem_member hw'
      rw [hxs] at hys
      cases hys
      exact ⟨w, hw', hT.member v xs j w hv hxs hj, hw w (.inl ⟨xs, j, hxs, hj⟩), (hm j w hj).1⟩

theorem tag_of_cls {x y : Val} {m : String} (hx : clsOf x = some m) (hy : clsOf y = some m) : tagOf x = tagOf y := by
  cases x <;> cases y <;> simp_all [clsOf, tagOf]

theorem fuzzy_runs {A B : List (Ent (Id E))} (ho : OrdOK H) (hA : ∀ e ∈ A, ∃ ks, e.1.1 = .tup ks)
    (hB : ∀ e ∈ B, ∃ ks, e.1.1 = .tup ks) : ∃ ps, fuzzyMatch H A B = .ok ps := by
  unfold fuzzyMatch
  obtain ⟨l, hl⟩ := Normalize.mapE_total (f := scoreOne H) (l := (H.ord _ A).product (H.ord _ B)) (fun p hp => by
    obtain ⟨e, f⟩ := p
    have hp := List.pair_mem_product.1 hp
    obtain ⟨xs, hxs⟩ := hA _ (ho.mem.1 hp.1)
    obtain ⟨ys, hys⟩ := hB _ (ho.mem.1 hp.2)
    exact ⟨_, by simp only [scoreOne, hxs, hys, score]; rfl⟩)
  exact ⟨_, by rw [hl]⟩

theorem descend_runs {rec : Rec} (hr : RecRuns T n rec) {m : String} {a b : Option Val} {fa fb : FS}
    {A B : List (Ent (Id E))} (hA : CollSide H T n m a A) (hB : CollSide H T n m b B) {e f : Ent (Id E)} (he : e ∈ A) (hf : f ∈ B) :
    (descend rec a b fa fb (e.2, f.2)).exc = none := by
  obtain ⟨x, hx, tx, wx, cx⟩ := hA.item e he
  obtain ⟨y, hy, ty, wy, cy⟩ := hB.item f hf
  unfold descend
  rw [hx, hy, bindE_ok, bindE_ok]
  refine hr.runs _ _ _ _ ⟨?_, ?_, .inl (by simp), ?_⟩
  · rintro v ⟨⟩; exact ⟨tx, wx⟩
  · rintro v ⟨⟩; exact ⟨ty, wy⟩
  · rintro u w ⟨⟩ ⟨⟩; exact tag_of_cls cx cy

theorem mem_common_ents {J : Type} [DecidableEq J] {A B : List (Ent J)} {k : Comp × Comp} (h : k ∈ common A B) :
    ∃ e ∈ A, ∃ f ∈ B, k = (e.2, f.2) := by
  unfold common at h
  obtain ⟨e, he, hk⟩ := List.mem_filterMap.1 h
  unfold commonEnt at hk
  split at hk
  · rename_i kb hkb
    cases hk
    exact ⟨e, he, (e.1, kb), alookup_mem' hkb, rfl⟩
  · cases hk

theorem members_run (hT : Smooth H T) {rec : Rec} (hr : RecRuns T n rec) {m : String} {a b : Option Val} {fa fb : FS}
    {A B : List (Ent (Id E))} (hA : CollSide H T n m a A) (hB : CollSide H T n m b B) :
    (compareMembers H o rec a b fa fb A B).exc = none := by
  unfold compareMembers
  split
  · unfold compareKeys
    simp only [exc_append, exc_forEach, exc_yield, exc_when, hT.ord.mem, implies_true, and_true]
    intro k hk hs
    simp only [List.mem_filter, List.mem_dedup, List.mem_map, decide_eq_true_eq] at hk
    obtain ⟨⟨e, he, rfl⟩, f, hf, hfe⟩ := hk
    have := descend_runs (fa := fa) (fb := fb) hr hA hB he hf
    rw [hfe] at this
    exact this
  · split
    · rename_i hn
      unfold compareOne
      refine exc_forEach.2 fun e he => ?_
      rw [hT.ord.mem, List.mem_append] at he
      unfold descendOne
      cases a with
      | none =>
        have hA0 : A = [] := by
          rw [List.eq_nil_iff_forall_not_mem]
          intro e he
          obtain ⟨w, hw, -⟩ := hA.item e he
          simp [itemAt] at hw
        subst hA0
        have heB : e ∈ B := by
          rcases he with he | he
          · simp [minus] at he
          · exact (mem_minus.1 he).1
        obtain ⟨y, hy, ty, wy, -⟩ := hB.item e heB
        simp only [hy, bindE_ok]
        refine hr.runs _ _ _ _ ⟨by simp, ?_, .inr (by simp), by simp⟩
        rintro v ⟨⟩; exact ⟨ty, wy⟩
      | some x =>
        have hb : b = none := by simpa using hn
        subst hb
        have hB0 : B = [] := by
          rw [List.eq_nil_iff_forall_not_mem]
          intro e he
          obtain ⟨w, hw, -⟩ := hB.item e he
          simp [itemAt] at hw
        subst hB0
        have heA : e ∈ A := by
          rcases he with he | he
          · exact (mem_minus.1 he).1
          · simp [minus] at he
        obtain ⟨y, hy, ty, wy, -⟩ := hA.item e heA
        simp only [hy, bindE_ok]
        refine hr.runs _ _ _ _ ⟨?_, by simp, .inl (by simp), by simp⟩
        rintro v ⟨⟩; exact ⟨ty, wy⟩
    · unfold compareIds
      have hps : ∃ ps, pairsOf H o A B = .ok ps := by
        unfold pairsOf
        split
        · exact fuzzy_runs hT.ord (fun e he => hA.tup e (mem_minus.1 he).1) (fun e he => hB.tup e (mem_minus.1 he).1)
        · exact ⟨[], rfl⟩
      obtain ⟨ps, hps⟩ := hps
      rw [hps, bindE_ok]
      simp only [exc_append, exc_forEach, exc_yield, exc_when, hT.ord.mem, matched_runs, implies_true, and_true]
      refine ⟨fun _ k hk => ?_, fun p hp => ?_⟩
      · obtain ⟨e, he, f, hf, rfl⟩ := mem_common_ents hk
        exact descend_runs hr hA hB he hf
      · have hpm := pairs_mem hps hp
        unfold fuzzyPair
        refine exc_append.2 ⟨descend_runs hr hA hB (mem_minus.1 hpm.1).1 (mem_minus.1 hpm.2).1, ?_⟩
        split
        · rfl
        · rw [exc_when]; intro _; rfl

theorem runs_coll (hT : Smooth H T) (hd : o.duckType = false) (hf : o.compareFilter = none) {rec : Rec}
    (hr : RecRuns T n rec) {c : String} {a b : Option Val} {fa fb : FS} (hs : Sides T (n + 1) a b)
    (hc : ∀ v, a = some v ∨ b = some v → clsOf v = some c ∧ ∃ xs, tuplesOf (some v) = .ok xs) :
    (compareColl H o rec c a b fa fb).exc = none := by
  have h1 : ∃ k t, (H.S.cls c).coll = some (k, .one t) := by
    have : ∃ v, (a = some v ∨ b = some v) ∧ T v := by
      rcases hs.any with h | h
      · obtain ⟨v, hv⟩ := Option.ne_none_iff_exists'.1 h
        exact ⟨v, .inl hv, (hs.left v hv).1⟩
      · obtain ⟨v, hv⟩ := Option.ne_none_iff_exists'.1 h
        exact ⟨v, .inr hv, (hs.right v hv).1⟩
    obtain ⟨v, hv, tv⟩ := this
    obtain ⟨hcv, xs, hxs⟩ := hc v hv
    obtain ⟨k, t, h, -⟩ := hT.coll v c xs tv hcv hxs
    exact ⟨k, t, h⟩
  obtain ⟨k, t, hcoll⟩ := h1
  unfold compareColl
  rw [hcoll]
  cases t with
  | other m =>
    exact simple_runs hT (fun v hv => ⟨(hs.left v hv).1, (hc v (.inl hv)).2⟩) (fun v hv => ⟨(hs.right v hv).1, (hc v (.inr hv)).2⟩)
  | cls m =>
    simp only [compareRecords, idArgs_none hf, idType_none hd, bindE_ok]
    obtain ⟨A, hA, sA⟩ := coll_side (o := o) (fa := fa) hT hcoll (a := a) (n := n)
      (fun v hv => ⟨(hs.left v hv).1, (hs.left v hv).2, hc v (.inl hv)⟩)
    obtain ⟨B, hB, sB⟩ := coll_side (o := o) (fa := fa) hT hcoll (a := b) (n := n)
      (fun v hv => ⟨(hs.right v hv).1, (hs.right v hv).2, hc v (.inr hv)⟩)
    rw [exc_when, hA, bindE_ok, hB, bindE_ok]
    intro _
    exact members_run hT hr sA sB

theorem runs_diffIter (hT : Smooth H T) (hd : o.duckType = false) (hf : o.compareFilter = none) :
    ∀ (n : Nat), RecRuns T n (diffIter H o n)
  | 0 => ⟨fun _ _ _ _ => ok_raise (by simp), fun a b fa fb hs => by
      rcases hs.any with h | h
      · obtain ⟨v, hv⟩ := Option.ne_none_iff_exists'.1 h
        exact (hs.left v hv).2.elim
      · obtain ⟨v, hv⟩ := Option.ne_none_iff_exists'.1 h
        exact (hs.right v hv).2.elim⟩
  | n + 1 => by
    refine ⟨ok_diffIter hT.good hT.ord (by simp [hf]) (n + 1), fun a b fa fb hs => ?_⟩
    have ih := runs_diffIter hT hd hf n
    obtain ⟨u, hu⟩ : ∃ u, a.orElse (fun _ => b) = some u := by
      cases a with
      | some x => exact ⟨x, rfl⟩
      | none =>
        rcases hs.any with h | h
        · exact absurd rfl h
        · obtain ⟨v, hv⟩ := Option.ne_none_iff_exists'.1 h
          exact ⟨v, hv⟩
    have htag : ∀ v, a = some v ∨ b = some v → tagOf v = tagOf u := by
      intro v hv
      cases a with
      | some x =>
        cases hu
        rcases hv with hv | hv
        · cases hv; rfl
        · exact (hs.tags u v rfl hv).symm
      | none =>
        have hu : b = some u := hu
        rcases hv with hv | hv
        · cases hv
        · rw [hu] at hv; cases hv; rfl
    have hTv : ∀ v, a = some v ∨ b = some v → T v := fun v hv => hv.elim (fun h => (hs.left v h).1) (fun h => (hs.right v h).1)
    have hTu : T u := by
      cases a with
      | some x => cases hu; exact (hs.left _ rfl).1
      | none => exact (hs.right _ hu).1
    simp only [diffIter, dispatch]
    rw [hu]
    have hsimple : (tagOf u = some .list ∨ tagOf u = some .dict) → (compareSimple H o a b fa fb).exc = none := by
      intro h
      have : ∀ v, a = some v ∨ b = some v → ∃ xs, tuplesOf (some v) = .ok xs := by
        intro v hv
        rw [← htag v hv] at h
        cases v <;> simp_all [tagOf, tuplesOf]
      exact simple_runs hT (fun v hv => ⟨hTv v (.inl hv), this v (.inl hv)⟩) (fun v hv => ⟨hTv v (.inr hv), this v (.inr hv)⟩)
    have hcoll : ∀ c, tagOf u = some (.cls c) → (H.S.cls c).coll ≠ none →
        (compareColl H o (diffIter H o n) c a b fa fb ++ compareRecord H o (diffIter H o n) a b fa fb).exc = none := by
      intro c h hne
      refine exc_append.2 ⟨runs_coll hT hd hf ih hs fun v hv => ?_, runs_record hT hd ih hs⟩
      rw [← htag v hv] at h
      have tv := hTv v hv
      cases v with
      | rcd c' s =>
        have := hT.record c' s tv
        simp only [tagOf, Option.some.injEq, Tag.cls.injEq] at h
        subst h
        exact absurd this hne
      | _ => simp_all [tagOf, tuplesOf, clsOf]
    cases u with
    | atom a => rfl
    | list xs => exact hsimple (.inl rfl)
    | dict xs => exact hsimple (.inr rfl)
    | rcd c s => exact runs_record hT hd ih hs
    | lcoll c xs =>
      obtain ⟨k, t, h, -⟩ := hT.coll _ c _ hTu rfl rfl
      exact hcoll c rfl (by simp [h])
    | dcoll c xs =>
      obtain ⟨k, t, h, -⟩ := hT.coll _ c _ hTu rfl rfl
      exact hcoll c rfl (by simp [h])

end Normalize.Diff
