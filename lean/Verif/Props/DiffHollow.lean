import Verif.Spec.DiffHollow
import Verif.Props.DiffEmpty

/-!
# C113: `ignore_empty_items`, for items that hold records and collections
-/

namespace Normalize.Diff
open Ident (IProp ICls Ty ItemTy CollKind Schema readAttr Key collTuples itemTy)
open Spec

variable {o : Opts}

theorem bestKey_post {idOf : String → Except Exc Key} {ts : List Ty} (h : ∀ n, Ty.cls n ∉ ts) (b : List Key) (n : Nat) :
    Ident.bestKey idOf ts b n = .ok b := by
  induction ts with
  | nil => rfl
  | cons t ts ih =>
    cases t with
    | cls c => exact absurd List.mem_cons_self (h c)
    | other _ => exact ih fun m hm => h m (List.mem_cons_of_mem _ hm)

theorem bestKey_one {idOf : String → Except Exc Key} {p : IProp} {c : String} (h : OneRecordType p c) {r : List Key}
    (hr : Ident.bestKey idOf p.types [] 0 = .ok r) : ∃ k, idOf c = .ok k ∧ r = k.members := by
  obtain ⟨pre, post, ht, h1, h2⟩ := h
  rw [ht] at hr
  clear ht
  induction pre with
  | nil =>
    simp only [List.nil_append, Ident.bestKey] at hr
    cases hi : idOf c with
    | error e => simp [hi] at hr
    | ok k =>
      simp only [hi, List.isEmpty_nil, Bool.true_or, if_true] at hr
      rw [bestKey_post h2] at hr
      cases hr
      exact ⟨k, rfl, rfl⟩
  | cons t ts ih =>
    cases t with
    | cls c => exact absurd List.mem_cons_self (h1 c)
    | other _ => exact ih hr (fun m hm => h1 m (List.mem_cons_of_mem _ hm))

theorem oneRecordType_mem {p : IProp} {n : String} (h : OneRecordType p n) : Ty.cls n ∈ p.types := by
  obtain ⟨pre, post, ht, _⟩ := h
  simp [ht]

theorem oneRecordType_unique {p : IProp} {n m : String} (h : OneRecordType p n) (h' : OneRecordType p m) : n = m := by
  obtain ⟨pre, post, ht, h1, h2⟩ := h
  have := oneRecordType_mem h'
  rw [ht] at this
  simp only [List.mem_append, List.mem_cons, Ty.cls.injEq] at this
  rcases this with h | h | h
  · exact absurd h (h1 m)
  · exact h.symm
  · exact absurd h (h2 m)

theorem normalize_class {U : Unicode} {t : TextOpts} {w : Val} (h : clsOf w ≠ none) :
    normalizeVal U t (some w) = some w := by
  cases w <;> simp [clsOf] at h <;> simp [normalizeVal, scrub, valueIsEmpty]

/-- What a record is identified by. -/
def ridAt (D : Setup) (n : Nat) (c : String) (v : Val) : Except Exc Key := Ident.rid D.S (some (slotHook D)) n (.cls c) none v

theorem slot_hollow (D : Setup) (hc : ∀ p, D.compareAs p = none) {n : Nat} {v : Val} {p : IProp} {c : String} {w : Val}
    (ht : OneRecordType p c) (hw : readAttr D.S v p.name = some w) (hcw : clsOf w ≠ none) {k : Key}
    (h : Ident.slotKey D.S (some (slotHook D)) (fun c' s w => Ident.rid D.S (some (slotHook D)) n (.cls c') s w)
      (fun k => Ident.khash D.S n k) none v p = .ok k) :
    ∃ q, ridAt D n c w = .ok q ∧ k = if q.members.isEmpty then .raw w else .tup q.members := by
  have hook : ∀ x, slotHook D x p v = .ok ((normalizeVal D.U D.text (some x)).getD nothingVal) := by
    intro x
    simp [slotHook, normalizeObjectSlot, hc p]
  have hne : p.types ≠ [] := by
    intro e
    have := oneRecordType_mem ht
    rw [e] at this
    cases this
  unfold Ident.slotKey at h
  simp only [hw, Option.getD_some, Ident.runHook, hook, normalize_class hcw] at h
  rw [if_pos] at h
  · simp only [Ident.subSel] at h
    generalize hb : Ident.bestKey _ p.types [] 0 = r at h
    cases r with
    | error e => simp at h
    | ok best =>
      obtain ⟨q, hq, rfl⟩ := bestKey_one ht hb
      refine ⟨q, hq, ?_⟩
      simp only [Ident.checkedKey] at h
      split at h
      · exact (Except.ok.inj h).symm
      · split at h <;> cases h
  · refine ⟨?_, hne⟩
    have hv : normalizeVal D.U D.text (some Val.none) = none ∨ normalizeVal D.U D.text (some Val.none) = some .none := by
      have hs : scrub D.U D.text Val.none = .none := rfl
      simp only [normalizeVal, hs]
      split
      · exact .inl rfl
      · exact .inr rfl
    rcases hv with e | e <;> rw [e] <;> rintro rfl <;> simp [clsOf, nothingVal, Val.none] at hcw

theorem slot_none (D : Setup) (hc : ∀ p, D.compareAs p = none) {n : Nat} {v : Val} {p : IProp}
    (hw : readAttr D.S v p.name = none ∨ readAttr D.S v p.name = some .none) {k : Key}
    (h : Ident.slotKey D.S (some (slotHook D)) (fun c' s w => Ident.rid D.S (some (slotHook D)) n (.cls c') s w)
      (fun k => Ident.khash D.S n k) none v p = .ok k) :
    nestedEmpty k = true ∧ NoContent D (readAttr D.S v p.name) := by
  have hook : ∀ x, slotHook D x p v = .ok ((normalizeVal D.U D.text (some x)).getD nothingVal) := by
    intro x
    simp [slotHook, normalizeObjectSlot, hc p]
  have hg : (readAttr D.S v p.name).getD .none = .none := by
    rcases hw with e | e <;> rw [e] <;> rfl
  have hv : normalizeVal D.U D.text (some Val.none) = none ∨ normalizeVal D.U D.text (some Val.none) = some .none := by
    have hs : scrub D.U D.text Val.none = .none := rfl
    simp only [normalizeVal, hs]
    split
    · exact .inl rfl
    · exact .inr rfl
  unfold Ident.slotKey at h
  simp only [hg, Ident.runHook, hook] at h
  rw [if_neg (by simp)] at h
  cases h
  constructor
  · rcases hv with e | e <;> simp [e, nestedEmpty]
  · rcases hw with e | e <;> rw [e]
    · exact .inl rfl
    · rcases hv with e | e
      · exact .inl e
      · exact .inr (.inl e)

theorem no_one_type {p : IProp} (h : ∀ n, Ty.cls n ∉ p.types) (n : String) : ¬ OneRecordType p n :=
  fun h' => h n (oneRecordType_mem h')

/-- Which identities are empty. -/
theorem rid_hollow (D : Setup) (hc : ∀ p, D.compareAs p = none) (he : o.extraneous = false) : ∀ (n : Nat) (c : String)
    (v : Val) (k : Key), ridAt D n c v = .ok k → OneTyped D o c v →
    ∃ ks, k = .tup ks ∧ (ks = [] ↔ ¬ HasParts D.S o c v) ∧ (nestedEmptyL ks = true ↔ Hollow D o c v)
  | 0, c, v, k, h, _ => by simp [ridAt, Ident.rid] at h
  | n + 1, c, v, k, h, ht => by
    have hpk : Ident.pkCols (D.S.cls c) none = (D.S.cls c).pk := by simp [Ident.pkCols, Ident.passes]
    cases ht with
    | @members _ _ kd it xs hcoll hpk0 hxs hnm hsub =>
      unfold ridAt at h
      simp only [Ident.rid, hcoll, hpk, hpk0, List.isEmpty_nil, hxs, Ident.passes, List.filter_true, Ident.subSel] at h
      generalize hm : mapE (fun x : Comp × Val => Ident.rid D.S (some (slotHook D)) n (itemTy it x.2) none x.2) xs = r at h
      cases r with
      | error e => simp [Ident.asTuple] at h
      | ok ks =>
        simp only [Ident.asTuple, Except.ok.injEq] at h
        have hmem := mem_of_mapE hm
        refine ⟨ks, h.symm, ?_, ?_⟩
        · constructor
          · rintro rfl (⟨hb, _⟩ | ⟨k', it', e, xs', h1, h2, h3, h4⟩)
            · rcases hb with hb | hb
              · rw [hcoll] at hb; cases hb
              · exact hb hpk0
            · rw [hcoll] at h1
              cases h1
              rw [hxs] at h3
              cases h3
              obtain ⟨y, hy, _⟩ := hmem.2 e h4
              cases hy
          · intro hn
            rw [List.eq_nil_iff_forall_not_mem]
            intro k' hk'
            obtain ⟨x, hx, _⟩ := hmem.1 k' hk'
            exact hn (.inr ⟨_, _, x, xs, hcoll, hpk0, hxs, hx⟩)
        · have hone : ∀ e ∈ xs, ∀ q, Ident.rid D.S (some (slotHook D)) n (itemTy it e.2) none e.2 = .ok q →
              (nestedEmpty q = true ↔ (∀ m, itemTy it e.2 = .other m → e.2 = .none ∨ e.2 = .str "") ∧
                ∀ m, itemTy it e.2 = .cls m → Hollow D o m e.2) := by
            intro e hee q hq
            cases hty : itemTy it e.2 with
            | other m =>
              rw [hty] at hq
              cases n with
              | zero => simp [Ident.rid] at hq
              | succ n =>
                simp only [Ident.rid] at hq
                split at hq
                · cases hq
                  simp [nestedEmpty, hnm e hee]
                · cases hq
            | cls m =>
              rw [hty] at hq
              obtain ⟨ls, rfl, _, h2⟩ := rid_hollow D hc he n m e.2 q hq (hsub e hee m hty)
              simp [nestedEmpty, h2]
          rw [nestedEmptyL_iff]
          constructor
          · intro hall
            have hx : ∀ e ∈ xs, (∀ m, itemTy it e.2 = .other m → e.2 = .none ∨ e.2 = .str "") ∧
                ∀ m, itemTy it e.2 = .cls m → Hollow D o m e.2 := by
              intro e hee
              obtain ⟨q, hq, hr⟩ := hmem.2 e hee
              exact (hone e hee q hr).1 (hall q hq)
            exact .members hcoll hpk0 hxs (fun e hee => (hx e hee).1) (fun e hee => (hx e hee).2)
          · intro hh q hq
            obtain ⟨e, hee, hr⟩ := hmem.1 q hq
            rw [hone e hee q hr]
            cases hh with
            | fields hb =>
              rcases hb with hb | hb
              · rw [hcoll] at hb; cases hb
              · exact absurd hpk0 hb
            | members g1 g2 g3 g4 g5 =>
              rw [hcoll] at g1
              cases g1
              rw [hxs] at g3
              cases g3
              exact ⟨g4 e hee, g5 e hee⟩
    | fields hb hnm hty hval hsub =>
      have hrid : ridAt D (n + 1) c v = Ident.asTuple (mapE (Ident.slotKey D.S (some (slotHook D))
          (fun c' s w => Ident.rid D.S (some (slotHook D)) n (.cls c') s w) (fun k => Ident.khash D.S n k) none v)
          (Ident.idProps (D.S.cls c) none)) := by
        unfold ridAt
        simp only [Ident.rid, hpk]
        rcases hb with hb | hb
        · rw [hb]
        · have : (D.S.cls c).pk.isEmpty = false := by simpa using hb
          rw [this]
          cases (D.S.cls c).coll <;> rfl
      rw [hrid] at h
      generalize hm : mapE (Ident.slotKey D.S (some (slotHook D))
          (fun c' s w => Ident.rid D.S (some (slotHook D)) n (.cls c') s w) (fun k => Ident.khash D.S n k) none v)
          (Ident.idProps (D.S.cls c) none) = r at h
      cases r with
      | error e => simp [Ident.asTuple] at h
      | ok ks =>
        simp only [Ident.asTuple, Except.ok.injEq] at h
        have hmem := mem_of_mapE hm
        have hnc : ∀ k it, (D.S.cls c).coll = some (k, it) → (D.S.cls c).pk ≠ [] := by
          intro k it h1
          rcases hb with hb | hb
          · rw [hb] at h1; cases h1
          · exact hb
        refine ⟨ks, h.symm, ?_, ?_⟩
        · constructor
          · rintro rfl (⟨_, p, hp⟩ | ⟨k', it', e, xs', h1, h2, _⟩)
            · obtain ⟨y, hy, _⟩ := hmem.2 p ((mem_idProps he).2 hp)
              cases hy
            · exact hnc _ _ h1 h2
          · intro hn
            rw [List.eq_nil_iff_forall_not_mem]
            intro k' hk'
            obtain ⟨p, hp, _⟩ := hmem.1 k' hk'
            exact hn (.inl ⟨hb, p, (mem_idProps he).1 hp⟩)
        · have hone : ∀ p, KeyField D.S o c p → ∀ q, Ident.slotKey D.S (some (slotHook D))
              (fun c' s w => Ident.rid D.S (some (slotHook D)) n (.cls c') s w) (fun k => Ident.khash D.S n k) none v p = .ok q →
              (nestedEmpty q = true ↔
                ((∀ m, ¬ OneRecordType p m) ∨ (∀ w, readAttr D.S v p.name = some w → clsOf w = none) →
                  NoContent D (readAttr D.S v p.name)) ∧
                (∀ m w, OneRecordType p m → readAttr D.S v p.name = some w → clsOf w ≠ none → HasParts D.S o m w) ∧
                ∀ m w, OneRecordType p m → readAttr D.S v p.name = some w → clsOf w ≠ none → Hollow D o m w) := by
            intro p hp q hq
            rcases hty p hp with hno | ⟨m, hm1⟩
            · rw [slot_empty D hc hno (hnm p hp) hq]
              constructor
              · intro hn
                exact ⟨fun _ => hn, fun m _ h => absurd h (no_one_type hno m), fun m _ h => absurd h (no_one_type hno m)⟩
              · intro hn
                exact hn.1 (.inl (no_one_type hno))
            · by_cases hcw : ∃ w, readAttr D.S v p.name = some w ∧ clsOf w ≠ none
              · obtain ⟨w, hw, hcw⟩ := hcw
                obtain ⟨q', hq1, hq2⟩ := slot_hollow D hc hm1 hw hcw hq
                obtain ⟨ls, rfl, g1, g2⟩ := rid_hollow D hc he n m w q' hq1 (hsub p m w hp hm1 hw hcw)
                have hnot : ¬ ((∀ m, ¬ OneRecordType p m) ∨ ∀ w, readAttr D.S v p.name = some w → clsOf w = none) := by
                  rintro (h | h)
                  · exact h m hm1
                  · exact hcw (h w hw)
                have hall : (∀ m' w', OneRecordType p m' → readAttr D.S v p.name = some w' → clsOf w' ≠ none →
                    HasParts D.S o m' w') ↔ HasParts D.S o m w := by
                  constructor
                  · intro h; exact h m w hm1 hw hcw
                  · intro h m' w' h1 h2 _
                    rw [hw] at h2
                    cases h2
                    rw [← oneRecordType_unique hm1 h1]
                    exact h
                have hall2 : (∀ m' w', OneRecordType p m' → readAttr D.S v p.name = some w' → clsOf w' ≠ none →
                    Hollow D o m' w') ↔ Hollow D o m w := by
                  constructor
                  · intro h; exact h m w hm1 hw hcw
                  · intro h m' w' h1 h2 _
                    rw [hw] at h2
                    cases h2
                    rw [← oneRecordType_unique hm1 h1]
                    exact h
                rw [hall, hall2, ← g2, hq2]
                simp only [Key.members]
                cases ls with
                | nil =>
                  have := g1.1 rfl
                  simp only [List.isEmpty_nil, if_true, nestedEmpty, decide_eq_true_eq]
                  constructor
                  · rintro (rfl | rfl | rfl) <;> simp [clsOf, nothingVal, Val.none, Val.str] at hcw
                  · exact fun h => absurd h.2.1 this
                | cons l ls =>
                  have : HasParts D.S o m w := Classical.byContradiction fun h => by simpa using g1.2 h
                  simp only [List.isEmpty_cons, Bool.false_eq_true, if_false, nestedEmpty]
                  exact ⟨fun h => ⟨fun h' => absurd h' hnot, this, h⟩, fun h => h.2.2⟩
              · have hw : readAttr D.S v p.name = none ∨ readAttr D.S v p.name = some .none := by
                  cases hr : readAttr D.S v p.name with
                  | none => exact .inl rfl
                  | some w =>
                    rcases hval p m w hp hm1 hr with rfl | h
                    · exact .inr rfl
                    · exact absurd ⟨w, hr, h⟩ hcw
                obtain ⟨h1, h2⟩ := slot_none D hc hw hq
                rw [h1]
                simp only [true_iff]
                exact ⟨fun _ => h2, fun m' w' _ h3 h4 => absurd ⟨w', h3, h4⟩ hcw,
                  fun m' w' _ h3 h4 => absurd ⟨w', h3, h4⟩ hcw⟩
          rw [nestedEmptyL_iff]
          constructor
          · intro hall
            have hq : ∀ p, KeyField D.S o c p → ∃ q, nestedEmpty q = true ∧ Ident.slotKey D.S (some (slotHook D))
                (fun c' s w => Ident.rid D.S (some (slotHook D)) n (.cls c') s w) (fun k => Ident.khash D.S n k) none v p =
                  .ok q := fun p hp => by
              obtain ⟨q, hq, hr⟩ := hmem.2 p ((mem_idProps he).2 hp)
              exact ⟨q, hall q hq, hr⟩
            refine .fields hb (fun p hp => ?_) (fun p m w hp => ?_) (fun p m w hp => ?_)
            · obtain ⟨q, h1, h2⟩ := hq p hp
              exact ((hone p hp q h2).1 h1).1
            · obtain ⟨q, h1, h2⟩ := hq p hp
              exact ((hone p hp q h2).1 h1).2.1 m w
            · obtain ⟨q, h1, h2⟩ := hq p hp
              exact ((hone p hp q h2).1 h1).2.2 m w
          · intro hh q hq
            obtain ⟨p, hp, hr⟩ := hmem.1 q hq
            have hp := (mem_idProps he).1 hp
            rw [hone p hp q hr]
            cases hh with
            | fields _ g1 g2 g3 => exact ⟨g1 p hp, fun m w => g2 p m w hp, fun m w => g3 p m w hp⟩
            | members g1 g2 => exact absurd g2 (hnc _ _ g1)

/-- The identity of an item is empty iff there is nothing in the item. -/
theorem hollow_iff (D : Setup) (hc : ∀ p, D.compareAs p = none) (he : o.extraneous = false) {v : Val} {c : String}
    (hcv : clsOf v = some c) (hv : OneTyped D o c v) {i : Id Key} (hi : D.hooks.recId none none v = .ok i) :
    idEmpty D.hooks i = true ↔ HollowItem D o v := by
  have hi : recordIdOf D none none v = .ok i := hi
  have hty : Ident.typeOf v = .cls c := by
    cases v <;> simp [clsOf] at hcv <;> subst hcv <;> rfl
  unfold recordIdOf at hi
  simp only [Option.getD_none, hty] at hi
  generalize hr : Ident.rid D.S (some (slotHook D)) D.depth (.cls c) none v = r at hi
  cases r with
  | error e => cases hi
  | ok k =>
    obtain ⟨ks, rfl, _, h2⟩ := rid_hollow D hc he D.depth c v k hr hv
    simp only at hi
    split at hi
    · cases hi
    · simp only [idOfKey, Except.ok.injEq] at hi
      subst hi
      rw [idEmpty_tup, ← nestedEmptyL_iff, h2]
      constructor
      · exact fun h => ⟨c, hcv, h⟩
      · rintro ⟨c', h1, h2⟩
        rw [hcv] at h1
        cases h1
        exact h2

/-- C113, exactly: with `ignore_empty_items` the items with nothing in them are considered to be absent, and no others.
(In the code a field that holds a record or collection counts as empty if there is nothing in that.) -/
theorem C113_rule (D : Setup) (o : Opts) (n : Nat) (x x' y y' : Val) (c m : String)
    (hc : ∀ p, D.compareAs p = none) (ho : OrdOK D.hooks) (hd : o.duckType = false) (hf : o.compareFilter = none)
    (he : o.extraneous = false) (hi : o.ignoreEmptyItems = true) (hr : RecordsPair D.hooks x y c m)
    (hx : Real D.S x) (hx' : Real D.S x') (hy : Real D.S y) (hy' : Real D.S y') (ix : HasIds D x) (iy : HasIds D y)
    (hone : ∀ v, v = x ∨ v = y → ∀ xs, tuplesOf (some v) = .ok xs → ∀ e ∈ xs, ∃ c, clsOf e.2 = some c ∧ OneTyped D o c e.2)
    (wx : WithoutHollow D o x x') (wy : WithoutHollow D o y y') :
    diff D.hooks o (n + 1) x y = diff D.hooks o (n + 1) x' y' ∧
    (tuplesOf (some y) = .ok [] → ∀ xs, tuplesOf (some x) = .ok xs → ∀ e ∈ xs,
      (⟨.removed, [e.1], []⟩ ∈ (diff D.hooks o (n + 1) x y).out ↔ ¬ HollowItem D o e.2)) := by
  have hiff : ∀ v, v = x ∨ v = y → ∀ xs, tuplesOf (some v) = .ok xs → ∀ e ∈ xs, ∀ i, D.hooks.recId none none e.2 = .ok i →
      (idEmpty D.hooks i = true ↔ HollowItem D o e.2) := by
    intro v hv xs hxs e hee i hie
    obtain ⟨c, h1, h2⟩ := hone v hv xs hxs e hee
    exact hollow_iff D hc he h1 h2 hie
  have hmem : ∀ v v', (v = x ∨ v = y) → HasIds D v → WithoutHollow D o v v' →
      ∃ la, Members D.hooks o v la ∧ Members D.hooks o v' la := by
    rintro v v' hv hids ⟨_, xs, xs', h1, h2, hw⟩
    obtain ⟨la, hla⟩ := labels_exist (f := fun kv : Comp × Val => D.hooks.recId none none kv.2)
      (keep := fun i => !(o.ignoreEmptyItems && idEmpty D.hooks i)) (hids xs h1)
    refine ⟨la, ⟨xs, h1, hla⟩, ⟨xs', h2, labels_without hw hla ?_⟩⟩
    intro a ha hP i hia
    rw [hi, (hiff v hv xs h1 a ha i hia).2 hP]
    rfl
  obtain ⟨la, ha, ha'⟩ := hmem x x' (.inl rfl) ix wx
  obtain ⟨lb, hb, hb'⟩ := hmem y y' (.inr rfl) iy wy
  have kx := dictsOK_real hx [] x .here
  have hr' : RecordsPair D.hooks x' y' c m :=
    ⟨by rw [← same_tag_cls wx.1]; exact hr.left, by rw [← same_tag_cls wy.1]; exact hr.right, hr.kind⟩
  refine ⟨diff_members_congr D (.none hc) ho hd hf hr hr' kx (dictsOK_real hx' [] x' .here) (dictsOK_real hy [] y .here)
    (dictsOK_real hy' [] y' .here) ha ha' hb hb' n [] [], ?_⟩
  intro hnil xs hxs e hex
  have hlb : lb = [] := by
    obtain ⟨ys, h1, h2⟩ := hb
    rw [hnil] at h1
    cases h1
    cases h2
    rfl
  subst hlb
  rw [removed_iff D (.none hc) ho hd hf hr kx ha hb]
  obtain ⟨xs', h1, h2⟩ := ha
  rw [hxs] at h1
  cases h1
  obtain ⟨i, hie⟩ := ix xs hxs e hex
  rw [← hiff x (.inl rfl) xs hxs e hex i hie]
  constructor
  · rintro ⟨e', he', hk⟩
    have h3 := labels_mem h2 he'
    have h4 := labels_keep h2 e' he'
    have h5 : e'.2 = e := by
      have g1 := getItem_of_tuple kx hxs h3.1
      have g2 := getItem_of_tuple kx hxs hex
      rw [hk, g2] at g1
      exact Prod.ext hk (Except.ok.inj g1).symm
    rw [h5, hie] at h3
    cases h3.2
    simpa [hi] using h4
  · intro h
    exact ⟨(i, e), labels_all h2 e hex i hie (by simpa [hi] using h), rfl⟩

/-! ## A field that holds a record -/

/-- C113 without `extraneous`. -/
def C113_records_statement : Prop := ∀ (D : Setup) (o : Opts) (n : Nat) (x x' y y' : Val) (c m : String),
    (∀ p, D.compareAs p = none) → Ident.AtomLaws D.S → OrdOK D.hooks → o.duckType = false → o.compareFilter = none →
    o.ignoreEmptyItems = true → o.extraneous = false → RecordsPair D.hooks x y c m →
    Real D.S x → Real D.S x' → Real D.S y → Real D.S y' →
    HasIds D x → HasIds D y → WithoutEmpty D o x x' → WithoutEmpty D o y y' →
    diff D.hooks o (n + 1) x y = diff D.hooks o (n + 1) x' y' ∧
    (tuplesOf (some y) = .ok [] → ∀ xs, tuplesOf (some x) = .ok xs → ∀ e ∈ xs,
      (⟨.removed, [e.1], []⟩ ∈ (diff D.hooks o (n + 1) x y).out ↔ ¬ EmptyItem D o e.2))

namespace Ex

/-- Entries with an author. -/
def entryCls : String → ICls
  | "Person" => { props := [{ name := "id" }, { name := "name" }], pk := [{ name := "id" }] }
  | "Entry" => { props := [{ name := "title" }, { name := "author", types := [.cls "Person"] }] }
  | "Entries" => { coll := some (.list, .one (.cls "Entry")) }
  | _ => {}

/-- The default `DiffOptions` methods. -/
def entrySetup : Setup := { setup {} with S := { schema with cls := entryCls } }

/-- An entry by someone without id. -/
def byAnn : Val := .rcd "Entry" [("author", .rcd "Person" [("name", .str "Ann")])]

/-- An entry with a title. -/
def titled : Val := .rcd "Entry" [("title", .str "x"), ("author", .none)]

theorem person_real : Real entrySetup.S (.rcd "Person" [("name", .str "Ann")]) := by
  refine .rcd (by simp [Ident.Proper, entrySetup, entryCls]) (by simp [entrySetup, entryCls]) ?_
  intro x hx
  simp only [List.mem_singleton] at hx
  subst hx
  exact .atom _

theorem entries_real {l : List Val} (h : ∀ x ∈ l, x = byAnn ∨ x = titled) : Real entrySetup.S (.lcoll "Entries" l) := by
  refine .lcoll ⟨⟨_, rfl⟩, ?_⟩ ?_
  · intro kd n _ x hx
    rcases h x hx with rfl | rfl <;> simp [clsOf, byAnn, titled]
  · intro x hx
    rcases h x hx with rfl | rfl
    · refine .rcd (by simp [Ident.Proper, entrySetup, entryCls]) (by simp [entrySetup, entryCls]) ?_
      intro x hx
      simp only [List.mem_singleton] at hx
      subst hx
      exact person_real
    · refine .rcd (by simp [Ident.Proper, entrySetup, entryCls]) (by simp [entrySetup, entryCls]) ?_
      intro x hx
      simp only [List.mem_cons, List.not_mem_nil, or_false] at hx
      rcases hx with rfl | rfl <;> exact .atom _

end Ex

/-- C113 is false of the code also without `extraneous`: an entry that has an author is left out if the author has no
primary key. -/
theorem C113_records_violated : ¬ C113_records_statement := by
  intro h
  have h1 := h Ex.entrySetup { ignoreEmptyItems := true } 8 (.lcoll "Entries" [Ex.byAnn])
    (.lcoll "Entries" [Ex.byAnn]) (.lcoll "Entries" []) (.lcoll "Entries" []) "Entries" "Entry" (fun _ => rfl)
    ⟨Ex.laws.refl, Ex.laws.symm, Ex.laws.trans⟩ (fun _ _ => List.Perm.refl _) rfl rfl rfl rfl ⟨rfl, rfl, _, rfl⟩
    (Ex.entries_real (by simp)) (Ex.entries_real (by simp)) (Ex.entries_real (by simp)) (Ex.entries_real (by simp))
    (by
      intro xs hxs e he
      simp only [tuplesOf, Except.ok.injEq] at hxs
      subst hxs
      simp only [Ident.enum, List.zipIdx_cons, List.zipIdx_nil, List.map_cons, List.map_nil, List.mem_singleton] at he
      subst he
      exact ⟨.tup [.tup [.raw .none], .raw .none], by decide +kernel⟩)
    (by
      intro xs hxs e he
      simp only [tuplesOf, Except.ok.injEq] at hxs
      subst hxs
      simp [Ident.enum] at he)
    (withoutEmpty_refl _ _ rfl) (withoutEmpty_refl _ _ rfl)
  have h2 := (h1.2 rfl _ rfl (.int 0, Ex.byAnn) (by simp [Ident.enum])).2 (by
    rintro ⟨c, s, e, h3⟩
    simp only [Ex.byAnn, Val.rcd.injEq] at e
    obtain ⟨rfl, rfl⟩ := e
    have h4 := h3 { name := "author", types := [.cls "Person"] } (by
      unfold KeyField
      rw [if_pos (by rfl)]
      exact ⟨by simp [Ex.entrySetup, Ex.entryCls], fun h => by simp⟩)
    revert h4
    unfold NoContent
    decide +kernel)
  revert h2
  decide +kernel

namespace Ex

theorem entry_fields {o : Opts} {p : IProp} (h : KeyField entrySetup.S o "Entry" p) :
    p = { name := "title" } ∨ p = { name := "author", types := [.cls "Person"] } := by
  unfold KeyField at h
  rw [if_pos (by rfl)] at h
  simpa [entrySetup, entryCls] using h.1

theorem person_fields {o : Opts} {p : IProp} (h : KeyField entrySetup.S o "Person" p) : p = { name := "id" } := by
  unfold KeyField at h
  rw [if_neg (by simp [entrySetup, entryCls])] at h
  simpa [entrySetup, entryCls] using h

theorem author_one {n : String} (h : OneRecordType { name := "author", types := [.cls "Person"] } n) : n = "Person" :=
  oneRecordType_unique h ⟨[], [], rfl, by simp, by simp⟩

theorem person_one (o : Opts) (w : Val) (h : readAttr entrySetup.S w "id" ≠ some nothingVal) :
    OneTyped entrySetup o "Person" w := by
  refine .fields (.inl rfl) ?_ ?_ ?_ ?_
  · intro p hp
    rw [person_fields hp]
    exact h
  · intro p hp
    rw [person_fields hp]
    exact .inl (by simp)
  · intro p n w hp h1
    rw [person_fields hp] at h1
    exact absurd h1 (no_one_type (by simp) n)
  · intro p n w hp h1
    rw [person_fields hp] at h1
    exact absurd h1 (no_one_type (by simp) n)

theorem entry_one (o : Opts) (v : Val) (h1 : readAttr entrySetup.S v "title" ≠ some nothingVal)
    (h2 : ∀ w, readAttr entrySetup.S v "author" = some w → w = .none ∨ ∃ s, w = .rcd "Person" s ∧
      readAttr entrySetup.S w "id" ≠ some nothingVal) : OneTyped entrySetup o "Entry" v := by
  refine .fields (.inl rfl) ?_ ?_ ?_ ?_
  · intro p hp
    rcases entry_fields hp with rfl | rfl
    · exact h1
    · intro h
      rcases h2 _ h with h | ⟨s, h, _⟩ <;> simp [nothingVal, Val.none] at h
  · intro p hp
    rcases entry_fields hp with rfl | rfl
    · exact .inl (by simp)
    · exact .inr ⟨"Person", [], [], rfl, by simp, by simp⟩
  · intro p n w hp h3 hw
    rcases entry_fields hp with rfl | rfl
    · exact absurd h3 (no_one_type (by simp) n)
    · rcases h2 w hw with h | ⟨s, h, _⟩
      · exact .inl h
      · exact .inr (by simp [h, clsOf])
  · intro p n w hp h3 hw hc
    rcases entry_fields hp with rfl | rfl
    · exact absurd h3 (no_one_type (by simp) n)
    · rw [author_one h3]
      rcases h2 w hw with rfl | ⟨s, h, h4⟩
      · exact absurd rfl hc
      · exact person_one o w h4

theorem byAnn_hollow (o : Opts) (he : o.extraneous = false) : HollowItem entrySetup o byAnn := by
  have hi : entrySetup.hooks.recId none none byAnn = .ok (.tup [.tup [.raw .none], .raw .none]) := by decide +kernel
  refine (hollow_iff entrySetup (fun _ => rfl) he rfl (entry_one o byAnn (by decide +kernel) ?_) hi).1 (by decide +kernel)
  intro w hw
  have : w = .rcd "Person" [("name", .str "Ann")] := (Option.some.inj hw).symm
  exact .inr ⟨_, this, by rw [this]; decide +kernel⟩

end Ex

/-- `C113_rule` at work: of these two entries the second one is left out. -/
example : diff Ex.entrySetup.hooks { ignoreEmptyItems := true } 9 (.lcoll "Entries" [Ex.titled, Ex.byAnn]) (.lcoll "Entries" []) =
    diff Ex.entrySetup.hooks { ignoreEmptyItems := true } 9 (.lcoll "Entries" [Ex.titled]) (.lcoll "Entries" []) := by
  have hw : WithoutHollow Ex.entrySetup { ignoreEmptyItems := true } (.lcoll "Entries" [Ex.titled, Ex.byAnn])
      (.lcoll "Entries" [Ex.titled]) :=
    ⟨rfl, [(.int 0, Ex.titled), (.int 1, Ex.byAnn)], [(.int 0, Ex.titled)], rfl, rfl,
      .keep (.drop (Ex.byAnn_hollow _ rfl) .nil)⟩
  have hn : WithoutHollow Ex.entrySetup { ignoreEmptyItems := true } (.lcoll "Entries" []) (.lcoll "Entries" []) :=
    ⟨rfl, [], [], rfl, rfl, .nil⟩
  refine (C113_rule Ex.entrySetup { ignoreEmptyItems := true } 8 (.lcoll "Entries" [Ex.titled, Ex.byAnn])
    (.lcoll "Entries" [Ex.titled]) (.lcoll "Entries" []) (.lcoll "Entries" []) "Entries" "Entry" (fun _ => rfl)
    (fun _ _ => List.Perm.refl _) rfl rfl rfl rfl ⟨rfl, rfl, _, rfl⟩
    (Ex.entries_real (by simp)) (Ex.entries_real (by simp)) (Ex.entries_real (by simp)) (Ex.entries_real (by simp))
    ?_ ?_ ?_ hw hn).1
  · intro xs hxs e he
    cases hxs
    simp only [Ident.enum, List.zipIdx_cons, List.zipIdx_nil, List.map_cons, List.map_nil, List.mem_cons, List.not_mem_nil,
      or_false] at he
    rcases he with rfl | rfl
    · exact ⟨.tup [.raw .none, .raw (.str "x")], by decide +kernel⟩
    · exact ⟨.tup [.tup [.raw .none], .raw .none], by decide +kernel⟩
  · intro xs hxs e he
    cases hxs
    cases he
  · intro v hv xs hxs e he
    rcases hv with rfl | rfl
    · cases hxs
      simp only [Ident.enum, List.zipIdx_cons, List.zipIdx_nil, List.map_cons, List.map_nil, List.mem_cons, List.not_mem_nil,
        or_false] at he
      rcases he with rfl | rfl
      · refine ⟨"Entry", rfl, Ex.entry_one _ _ (by decide +kernel) ?_⟩
        intro w hw
        exact .inl (Option.some.inj hw).symm
      · refine ⟨"Entry", rfl, Ex.entry_one _ _ (by decide +kernel) ?_⟩
        intro w hw
        have : w = .rcd "Person" [("name", .str "Ann")] := (Option.some.inj hw).symm
        exact .inr ⟨_, this, by rw [this]; decide +kernel⟩
    · cases hxs
      cases he

end Normalize.Diff
