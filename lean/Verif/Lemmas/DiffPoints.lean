import Verif.Lemmas.DiffYields
import Verif.Lemmas.DiffDefault

/-!
# The selectors of a diff entry lead somewhere
-/

namespace Normalize.Diff
open Ident (IProp ICls Ty ItemTy CollKind Schema readAttr)
open Spec (Follow KeysOK DictsOK PlainSlots Differ)

variable {E F : Type} [DecidableEq E] [DecidableEq F] {H : Hooks E F} {o : Opts}

theorem Follow.trans {S : Schema} {v w u : Val} {p q : FS} (h : Follow S v p w) (h' : Follow S w q u) :
    Follow S v (p ++ q) u := by
  induction h with
  | here => exact h'
  | attr h1 _ ih => exact .attr h1 (ih h')
  | item h1 _ ih => exact .item h1 (ih h')

theorem DictsOK.follow {S : Schema} {v w : Val} {p : FS} (h : DictsOK S v) (hf : Follow S v p w) : DictsOK S w :=
  fun q u hq => h (p ++ q) u (Follow.trans hf hq)

/-- The place `p` inside one side of a comparison. -/
def FollowO (S : Schema) (a : Option Val) (p : FS) (w : Val) : Prop := ∃ x, a = some x ∧ Follow S x p w

/-- `DictsOK` for one side of a comparison. -/
def DictsOKO (S : Schema) (a : Option Val) : Prop := ∀ x, a = some x → DictsOK S x

/-- What C43 claims of an entry. -/
structure Points (H : Hooks E F) (a b : Option Val) (pa pb : FS) (k : DType) : Prop where
  base : k = .removed ∨ k = .modified ∨ k = .moved → ∃ w, FollowO H.S a pa w
  other : k = .added ∨ k = .modified ∨ k = .moved → ∃ w, FollowO H.S b pb w
  leaf : k = .modified → ∃ x y, FollowO H.S a pa x ∧ FollowO H.S b pb y ∧ Differ H x y

theorem getItem_tuples {x v : Val} {k : Comp} {xs : List (Comp × Val)} (h : tuplesOf (some x) = .ok xs)
    (hm : (k, v) ∈ xs) : ∃ w, getItem x k = .ok w := by
  cases x with
  | list ys =>
    simp [tuplesOf] at h
    subst h
    simp [Ident.enum] at hm
    obtain ⟨n, hn, rfl⟩ := hm
    have := (List.mem_zipIdx_iff_getElem? ).1 hn
    simp at this
    refine ⟨v, ?_⟩
    have hlt := (List.getElem?_eq_some_iff.1 this).1
    simp [getItem, getIdx, pyIndex, hlt]
    exact (List.getElem?_eq_some_iff.1 this).2
  | lcoll c ys =>
    simp [tuplesOf] at h
    subst h
    simp [Ident.enum] at hm
    obtain ⟨n, hn, rfl⟩ := hm
    have := (List.mem_zipIdx_iff_getElem? ).1 hn
    simp at this
    refine ⟨v, ?_⟩
    have hlt := (List.getElem?_eq_some_iff.1 this).1
    simp [getItem, getIdx, pyIndex, hlt]
    exact (List.getElem?_eq_some_iff.1 this).2
  | dict ys =>
    simp [tuplesOf] at h
    subst h
    induction ys with
    | nil => simp at hm
    | cons y ys ih =>
      obtain ⟨j, u⟩ := y
      by_cases hj : j = k
      · exact ⟨u, by simp [getItem, alookup, hj]⟩
      · have : (k, v) ∈ ys := by
          simp at hm
          rcases hm with ⟨h, _⟩ | hm
          · exact absurd h.symm hj
          · exact hm
        obtain ⟨w, hw⟩ := ih this
        refine ⟨w, ?_⟩
        simpa [getItem, alookup, hj] using hw
  | dcoll c ys =>
    simp [tuplesOf] at h
    subst h
    induction ys with
    | nil => simp at hm
    | cons y ys ih =>
      obtain ⟨j, u⟩ := y
      by_cases hj : j = k
      · exact ⟨u, by simp [getItem, alookup, hj]⟩
      · have : (k, v) ∈ ys := by
          simp at hm
          rcases hm with ⟨h, _⟩ | hm
          · exact absurd h.symm hj
          · exact hm
        obtain ⟨w, hw⟩ := ih this
        refine ⟨w, ?_⟩
        simpa [getItem, alookup, hj] using hw
  | atom _ => simp [tuplesOf] at h
  | rcd _ _ => simp [tuplesOf] at h

theorem alookup_of_nodup {ys : List (Comp × Val)} {k : Comp} {v : Val} (hn : (ys.map (·.1)).Nodup)
    (hm : (k, v) ∈ ys) : alookup ys k = some v := by
  induction ys with
  | nil => simp at hm
  | cons y ys ih =>
    obtain ⟨j, u⟩ := y
    simp only [List.map_cons, List.nodup_cons] at hn
    simp only [List.mem_cons, Prod.mk.injEq] at hm
    unfold alookup
    rcases hm with ⟨rfl, rfl⟩ | hm
    · simp
    · have : j ≠ k := fun h => hn.1 (by rw [h]; exact List.mem_map.2 ⟨_, hm, rfl⟩)
      simp [this, ih hn.2 hm]

/-- With distinct keys, subscripting gives the member that was iterated over. -/
theorem getItem_tuples_eq {x v : Val} {k : Comp} {xs : List (Comp × Val)} (h : tuplesOf (some x) = .ok xs)
    (hk : KeysOK x) (hm : (k, v) ∈ xs) : getItem x k = .ok v := by
  cases x with
  | list ys =>
    simp [tuplesOf] at h
    subst h
    simp [Ident.enum] at hm
    obtain ⟨n, hn, rfl⟩ := hm
    have := (List.mem_zipIdx_iff_getElem? ).1 hn
    simp at this
    have hlt := (List.getElem?_eq_some_iff.1 this).1
    simp [getItem, getIdx, pyIndex, hlt]
    exact (List.getElem?_eq_some_iff.1 this).2
  | lcoll c ys =>
    simp [tuplesOf] at h
    subst h
    simp [Ident.enum] at hm
    obtain ⟨n, hn, rfl⟩ := hm
    have := (List.mem_zipIdx_iff_getElem? ).1 hn
    simp at this
    have hlt := (List.getElem?_eq_some_iff.1 this).1
    simp [getItem, getIdx, pyIndex, hlt]
    exact (List.getElem?_eq_some_iff.1 this).2
  | dict ys =>
    simp [tuplesOf] at h
    subst h
    simp [getItem, alookup_of_nodup hk hm]
  | dcoll c ys =>
    simp [tuplesOf] at h
    subst h
    simp [getItem, alookup_of_nodup hk hm]
  | atom _ => simp [tuplesOf] at h
  | rcd _ _ => simp [tuplesOf] at h

theorem number_mem_pair {J : Type} [DecidableEq J] {l : List (J × Comp)} {e : Ent J} (h : e ∈ number [] l) :
    (e.1.1, e.2) ∈ l := by
  have := List.mem_map_of_mem (f := fun e : Ent J => (e.1.1, e.2)) h
  rwa [number_pairs] at this

/-- An entry of a simple list or dict comes from a member. -/
theorem simpleBag_mem {a x : Option Val} {A : List (Ent (Option F))} (h : simpleBag H o a x = .ok A)
    {e : Ent (Option F)} (he : e ∈ A) :
    ∃ v xs, tuplesOf x = .ok xs ∧ (e.2, v) ∈ xs ∧ H.itemId (if o.duckType then a else x) v = .ok e.1.1 := by
  unfold simpleBag at h
  split at h
  · simp at h
  · rename_i xs hxs
    split at h
    · simp at h
    · rename_i ys hys
      simp at h
      subst h
      have hm := number_mem_pair he
      rw [List.mem_filter] at hm
      obtain ⟨kv, hkv, hf⟩ := mapE_ok_right hys _ hm.1
      cases hi : H.itemId (if o.duckType then a else x) kv.2 with
      | error e => simp [hi, Except.map] at hf
      | ok i =>
        simp [hi, Except.map] at hf
        refine ⟨kv.2, xs, hxs, ?_, ?_⟩
        · rw [← hf.2]; exact hkv
        · rw [hi, hf.1]

/-- An entry of a collection of records comes from a member. -/
theorem collBag_mem {ty : Option Ty} {ia : IdArgs} {fa : FS} {x : Option Val} {A : List (Ent (Id E))}
    (h : collBag H o ty ia fa x = .ok A) {e : Ent (Id E)} (he : e ∈ A) :
    ∃ v xs, tuplesOf x = .ok xs ∧ (e.2, v) ∈ xs ∧ ia.looksAt fa e.2 = true ∧
      H.recId ty (ia.selector e.2) v = .ok e.1.1 := by
  unfold collBag at h
  split at h
  · simp at h
  · rename_i xs hxs
    split at h
    · simp at h
    · rename_i ys hys
      simp at h
      subst h
      have hm := number_mem_pair he
      rw [List.mem_filter] at hm
      obtain ⟨kv, hkv, hf⟩ := mapE_ok_right hys _ hm.1
      rw [List.mem_filter] at hkv
      cases hi : H.recId ty (ia.selector kv.1) kv.2 with
      | error e => simp [hi, Except.map] at hf
      | ok i =>
        simp [hi, Except.map] at hf
        refine ⟨kv.2, xs, hxs, ?_, ?_, ?_⟩
        · rw [← hf.2]; exact hkv.1
        · rw [← hf.2]; exact hkv.2
        · rw [← hf.2, hi, hf.1]

theorem tuples_none {k : Comp} {v : Val} {xs : List (Comp × Val)} (h : tuplesOf none = .ok xs) : (k, v) ∉ xs := by
  simp [tuplesOf] at h
  subst h
  simp

theorem followO_item {x : Option Val} {k : Comp} {v : Val} {xs : List (Comp × Val)} (h : tuplesOf x = .ok xs)
    (hm : (k, v) ∈ xs) : ∃ w, FollowO H.S x [k] w := by
  cases x with
  | none => exact absurd hm (tuples_none h)
  | some x =>
    obtain ⟨w, hw⟩ := getItem_tuples h hm
    exact ⟨w, x, rfl, .item hw .here⟩

theorem followO_item_eq {x : Option Val} (hk : DictsOKO H.S x) {k : Comp} {v : Val} {xs : List (Comp × Val)}
    (h : tuplesOf x = .ok xs) (hm : (k, v) ∈ xs) : FollowO H.S x [k] v := by
  cases x with
  | none => exact absurd hm (tuples_none h)
  | some x => exact ⟨x, rfl, .item (getItem_tuples_eq h (hk x rfl [] x .here) hm) .here⟩

/-- An entry on both sides cannot be missing on both. -/
theorem minus_ids_ne {J : Type} [DecidableEq J] {la lb : List (J × Comp)} {e e' : Ent J}
    (he : e ∈ minus (number [] la) (number [] lb)) (he' : e' ∈ minus (number [] lb) (number [] la)) :
    e.1.1 ≠ e'.1.1 := by
  intro heq
  rw [mem_minus] at he he'
  obtain ⟨⟨i, m⟩, k⟩ := e
  obtain ⟨⟨i', m'⟩, k'⟩ := e'
  simp only at heq
  subst heq
  have h1 := List.mem_map_of_mem (f := fun e : Ent J => e.1) he.1
  have h2 := List.mem_map_of_mem (f := fun e : Ent J => e.1) he'.1
  have h3 := he.2
  have h4 := he'.2
  simp only at h1 h2 h3 h4
  rw [number_mem] at h1 h2 h3 h4
  simp at h1 h2 h3 h4
  omega

theorem simpleBag_number {a x : Option Val} {A : List (Ent (Option F))} (h : simpleBag H o a x = .ok A) :
    ∃ l, A = number [] l := by
  unfold simpleBag at h
  split at h
  · simp at h
  · split at h
    · simp at h
    · simp at h
      exact ⟨_, h.symm⟩

theorem collBag_number {ty : Option Ty} {ia : IdArgs} {fa : FS} {x : Option Val} {A : List (Ent (Id E))}
    (h : collBag H o ty ia fa x = .ok A) : ∃ l, A = number [] l := by
  unfold collBag at h
  split at h
  · simp at h
  · split at h
    · simp at h
    · simp at h
      exact ⟨_, h.symm⟩

theorem slot_left (hp : PlainSlots H) {a b : Option Val} {fa : FS} {p : IProp} {x : Val} {vb : Option Val}
    (hs : Slot H o a b fa p (some x) vb) :
    ∃ v, FollowO H.S a [.str p.name] v ∧ H.normSlot (some v) p a = .ok (some x) := by
  have h := hs.left
  cases hr : readSlot H a p.name with
  | none =>
    rw [hr, hp.unset] at h
    simp at h
  | some v =>
    rw [hr] at h
    cases a with
    | none => simp [readSlot] at hr
    | some y => exact ⟨v, ⟨y, rfl, .attr (by simpa [readSlot] using hr) .here⟩, h⟩

theorem slot_right (hp : PlainSlots H) {a b : Option Val} {fa : FS} {p : IProp} {y : Val} {va : Option Val}
    (hs : Slot H o a b fa p va (some y)) :
    ∃ v, FollowO H.S b [.str p.name] v ∧ H.normSlot (some v) p b = .ok (some y) := by
  have h := hs.right
  cases hr : readSlot H b p.name with
  | none =>
    rw [hr, hp.unset] at h
    simp at h
  | some v =>
    rw [hr] at h
    cases b with
    | none => simp [readSlot] at hr
    | some y => exact ⟨v, ⟨y, rfl, .attr (by simpa [readSlot] using hr) .here⟩, h⟩

theorem FollowO.trans {S : Schema} {a : Option Val} {p q : FS} {v w : Val} (h : FollowO S a p v)
    (h' : FollowO S (some v) q w) : FollowO S a (p ++ q) w := by
  obtain ⟨x, rfl, h⟩ := h
  obtain ⟨y, hy, h'⟩ := h'
  simp at hy
  subst hy
  exact ⟨x, rfl, Follow.trans h h'⟩

theorem DictsOKO.follow {S : Schema} {a : Option Val} {v : Val} {p : FS} (h : DictsOKO S a) (hf : FollowO S a p v) :
    DictsOKO S (some v) := by
  obtain ⟨x, rfl, hf⟩ := hf
  intro y hy
  simp at hy
  subst hy
  exact DictsOK.follow (h x rfl) hf

theorem Points.extend {a b : Option Val} {p q : FS} {x y : Val} {pa pb : FS} {k : DType}
    (h : Points H (some x) (some y) pa pb k) (ha : FollowO H.S a p x) (hb : FollowO H.S b q y) :
    Points H a b (p ++ pa) (q ++ pb) k where
  base hk := by
    obtain ⟨w, hw⟩ := h.base hk
    exact ⟨w, ha.trans hw⟩
  other hk := by
    obtain ⟨w, hw⟩ := h.other hk
    exact ⟨w, hb.trans hw⟩
  leaf hk := by
    obtain ⟨u, w, h1, h2, h3⟩ := h.leaf hk
    exact ⟨u, w, ha.trans h1, hb.trans h2, h3⟩

theorem followO_none {S : Schema} {p : FS} {w : Val} : ¬ FollowO S none p w := by
  rintro ⟨x, hx, _⟩
  simp at hx

theorem itemAt_follow {a : Option Val} {k : Comp} {x : Val} (h : itemAt a k = .ok x) : FollowO H.S a [k] x := by
  cases a with
  | none => simp [itemAt] at h
  | some v => exact ⟨v, rfl, .item h .here⟩

theorem recs_left {a b : Option Val} {fa : FS} {ia : IdArgs} {A B : List (Ent (Id E))} (h : Recs H o a b fa ia A B)
    {k : Comp} (hk : k ∈ A.map (·.2)) : ∃ w, FollowO H.S a [k] w := by
  obtain ⟨n, _, hA, _⟩ := h.recs
  obtain ⟨e, he, rfl⟩ := List.mem_map.1 hk
  obtain ⟨v, xs, h1, h2, _⟩ := collBag_mem hA he
  exact followO_item h1 h2

theorem recs_right {a b : Option Val} {fa : FS} {ia : IdArgs} {A B : List (Ent (Id E))} (h : Recs H o a b fa ia A B)
    {k : Comp} (hk : k ∈ B.map (·.2)) : ∃ w, FollowO H.S b [k] w := by
  obtain ⟨n, _, _, hB⟩ := h.recs
  obtain ⟨e, he, rfl⟩ := List.mem_map.1 hk
  obtain ⟨v, xs, h1, h2, _⟩ := collBag_mem hB he
  exact followO_item h1 h2

theorem bags_left {a b : Option Val} {A B : List (Ent (Option F))} (h : Bags H o a b A B) {k : Comp}
    (hk : k ∈ A.map (·.2)) : ∃ w, FollowO H.S a [k] w := by
  obtain ⟨e, he, rfl⟩ := List.mem_map.1 hk
  obtain ⟨v, xs, h1, h2, _⟩ := simpleBag_mem h.left he
  exact followO_item h1 h2

theorem bags_right {a b : Option Val} {A B : List (Ent (Option F))} (h : Bags H o a b A B) {k : Comp}
    (hk : k ∈ B.map (·.2)) : ∃ w, FollowO H.S b [k] w := by
  obtain ⟨e, he, rfl⟩ := List.mem_map.1 hk
  obtain ⟨v, xs, h1, h2, _⟩ := simpleBag_mem h.right he
  exact followO_item h1 h2

theorem points_of_yields (hp : PlainSlots H) (hduck : o.duckType = false) {a b : Option Val} {fa fb : FS} {d : DInfo}
    (h : Yields H o a b fa fb d) : DictsOKO H.S a → DictsOKO H.S b →
    ∃ pa pb, d.base = fa ++ pa ∧ d.other = fb ++ pb ∧ Points H a b pa pb d.kind := by
  induction h with
  | added hs =>
    intro _ _
    obtain ⟨v, hv, _⟩ := slot_right hp hs
    exact ⟨_, _, rfl, rfl, ⟨by simp, fun _ => ⟨v, hv⟩, by simp⟩⟩
  | removed hs =>
    intro _ _
    obtain ⟨v, hv, _⟩ := slot_left hp hs
    exact ⟨_, _, rfl, rfl, ⟨fun _ => ⟨v, hv⟩, by simp, by simp⟩⟩
  | modified hs _ heq =>
    intro _ _
    obtain ⟨v, hv, h1⟩ := slot_left hp hs
    obtain ⟨w, hw, h2⟩ := slot_right hp hs
    exact ⟨_, _, rfl, rfl, ⟨fun _ => ⟨v, hv⟩, fun _ => ⟨w, hw⟩, fun _ => ⟨v, w, hv, hw, .slot h1 h2 heq⟩⟩⟩
  | same hs _ _ => intro _ _; exact ⟨_, _, rfl, rfl, ⟨by simp, by simp, by simp⟩⟩
  | @sub a b fa fb p x y d hs hdesc _ ih =>
    intro ha hb
    obtain ⟨v, hv, h1⟩ := slot_left hp hs
    obtain ⟨w, hw, h2⟩ := slot_right hp hs
    have hxy : comparable x = true ∧ comparable y = true := by
      unfold descends at hdesc
      simp only [hduck, Bool.or_false, Bool.and_eq_true, Bool.or_eq_true, decide_eq_true_eq] at hdesc
      unfold comparable at hdesc ⊢
      obtain ⟨h3, h4⟩ := hdesc
      rw [h4] at h3 ⊢
      simpa using h3
    have hx := hp.keeps _ _ _ _ h1 (.inr hxy.1)
    have hy := hp.keeps _ _ _ _ h2 (.inr hxy.2)
    subst hx hy
    obtain ⟨pa, pb, e1, e2, hP⟩ := ih (ha.follow hv) (hb.follow hw)
    exact ⟨.str p.name :: pa, .str p.name :: pb, by rw [e1]; simp, by rw [e2]; simp, hP.extend hv hw⟩
  | netSame hs _ => intro _ _; exact ⟨_, _, rfl, rfl, ⟨by simp, by simp, by simp⟩⟩
  | @netL a b fa fb p x d hs hk hy ih =>
    intro ha hb
    obtain ⟨v, hv, h1⟩ := slot_left hp hs
    refine ⟨_, _, rfl, rfl, ?_⟩
    -- the net difference is a removal
    have hx : d.kind = .removed := by
      by_cases hc : comparable x = true
      · have hx := hp.keeps _ _ _ _ h1 (.inr hc)
        subst hx
        obtain ⟨pa, pb, _, _, hP⟩ := ih (ha.follow hv) (by intro y hy; simp at hy)
        cases hkind : d.kind with
        | noChange => exact absurd hkind hk
        | removed => rfl
        | added =>
          obtain ⟨w, hw⟩ := hP.other (.inl hkind)
          exact absurd hw followO_none
        | modified =>
          obtain ⟨w, hw⟩ := hP.other (.inr (.inl hkind))
          exact absurd hw followO_none
        | moved =>
          obtain ⟨w, hw⟩ := hP.other (.inr (.inr hkind))
          exact absurd hw followO_none
      · exfalso
        obtain ⟨q, rfl⟩ : ∃ q, x = .atom q := by
          cases x <;> simp [comparable, tagOf] at hc
          exact ⟨_, rfl⟩
        cases hy with
        | added hs' => simpa [propsOf, clsOf] using hs'.mem
        | removed hs' => simpa [propsOf, clsOf] using hs'.mem
        | modified hs' => simpa [propsOf, clsOf] using hs'.mem
        | same hs' => simpa [propsOf, clsOf] using hs'.mem
        | sub hs' => simpa [propsOf, clsOf] using hs'.mem
        | netSame hs' => simpa [propsOf, clsOf] using hs'.mem
        | netL hs' => simpa [propsOf, clsOf] using hs'.mem
        | netR hs' => simpa [propsOf, clsOf] using hs'.mem
        | sMoved hb' => cases hb'.simple <;> simp_all
        | sSame hb' => cases hb'.simple <;> simp_all
        | sRemoved hb' => cases hb'.simple <;> simp_all
        | sAdded hb' => cases hb'.simple <;> simp_all
        | sModified hb' => cases hb'.simple <;> simp_all
        | item hr => obtain ⟨n, hi, _⟩ := hr.recs; cases hi <;> simp_all
        | itemL hr => obtain ⟨n, hi, _⟩ := hr.recs; cases hi <;> simp_all
        | rMoved hr => obtain ⟨n, hi, _⟩ := hr.recs; cases hi <;> simp_all
        | rSame hr => obtain ⟨n, hi, _⟩ := hr.recs; cases hi <;> simp_all
        | rRemoved hr => obtain ⟨n, hi, _⟩ := hr.recs; cases hi <;> simp_all
        | rAdded hr => obtain ⟨n, hi, _⟩ := hr.recs; cases hi <;> simp_all
    rw [hx]
    exact ⟨fun _ => ⟨v, hv⟩, by simp, by simp⟩
  | @netR a b fa fb p y d hs hk hyy ih =>
    intro ha hb
    obtain ⟨v, hv, h1⟩ := slot_right hp hs
    refine ⟨_, _, rfl, rfl, ?_⟩
    have hx : d.kind = .added := by
      by_cases hc : comparable y = true
      · have hx := hp.keeps _ _ _ _ h1 (.inr hc)
        subst hx
        obtain ⟨pa, pb, _, _, hP⟩ := ih (by intro y hy; simp at hy) (hb.follow hv)
        cases hkind : d.kind with
        | noChange => exact absurd hkind hk
        | added => rfl
        | removed =>
          obtain ⟨w, hw⟩ := hP.base (.inl hkind)
          exact absurd hw followO_none
        | modified =>
          obtain ⟨w, hw⟩ := hP.base (.inr (.inl hkind))
          exact absurd hw followO_none
        | moved =>
          obtain ⟨w, hw⟩ := hP.base (.inr (.inr hkind))
          exact absurd hw followO_none
      · exfalso
        obtain ⟨q, rfl⟩ : ∃ q, y = .atom q := by
          cases y <;> simp [comparable, tagOf] at hc
          exact ⟨_, rfl⟩
        cases hyy with
        | added hs' => simpa [propsOf, clsOf] using hs'.mem
        | removed hs' => simpa [propsOf, clsOf] using hs'.mem
        | modified hs' => simpa [propsOf, clsOf] using hs'.mem
        | same hs' => simpa [propsOf, clsOf] using hs'.mem
        | sub hs' => simpa [propsOf, clsOf] using hs'.mem
        | netSame hs' => simpa [propsOf, clsOf] using hs'.mem
        | netL hs' => simpa [propsOf, clsOf] using hs'.mem
        | netR hs' => simpa [propsOf, clsOf] using hs'.mem
        | sMoved hb' => cases hb'.simple <;> simp_all
        | sSame hb' => cases hb'.simple <;> simp_all
        | sRemoved hb' => cases hb'.simple <;> simp_all
        | sAdded hb' => cases hb'.simple <;> simp_all
        | sModified hb' => cases hb'.simple <;> simp_all
        | item hr => obtain ⟨n, hi, _⟩ := hr.recs; cases hi <;> simp_all
        | itemR hr => obtain ⟨n, hi, _⟩ := hr.recs; cases hi <;> simp_all
        | rMoved hr => obtain ⟨n, hi, _⟩ := hr.recs; cases hi <;> simp_all
        | rSame hr => obtain ⟨n, hi, _⟩ := hr.recs; cases hi <;> simp_all
        | rRemoved hr => obtain ⟨n, hi, _⟩ := hr.recs; cases hi <;> simp_all
        | rAdded hr => obtain ⟨n, hi, _⟩ := hr.recs; cases hi <;> simp_all
    rw [hx]
    exact ⟨by simp, fun _ => ⟨v, hv⟩, by simp⟩
  | sMoved hb' hk _ _ =>
    intro _ _
    exact ⟨_, _, rfl, rfl, ⟨fun _ => bags_left hb' (keys_of_common hk).1,
      fun _ => bags_right hb' (keys_of_common hk).2, by simp⟩⟩
  | sSame hb' hk _ => intro _ _; exact ⟨_, _, rfl, rfl, ⟨by simp, by simp, by simp⟩⟩
  | sRemoved hb' he =>
    intro _ _
    exact ⟨_, [], rfl, by simp, ⟨fun _ => bags_left hb' (List.mem_map_of_mem (mem_minus.1 he).1), by simp, by simp⟩⟩
  | sAdded hb' he =>
    intro _ _
    exact ⟨[], _, by simp, rfl, ⟨by simp, fun _ => bags_right hb' (List.mem_map_of_mem (mem_minus.1 he).1), by simp⟩⟩
  | @sModified a b fa fb A B e e' hb' he he' hk =>
    intro ha hb
    obtain ⟨v, xs, h1, h2, h3⟩ := simpleBag_mem hb'.left (mem_minus.1 he).1
    obtain ⟨w, ys, g1, g2, g3⟩ := simpleBag_mem hb'.right (mem_minus.1 he').1
    have hv := followO_item_eq ha h1 h2
    have hw := followO_item_eq hb g1 g2
    rw [hk] at hw
    obtain ⟨la, rfl⟩ := simpleBag_number hb'.left
    obtain ⟨lb, rfl⟩ := simpleBag_number hb'.right
    exact ⟨_, _, rfl, rfl, ⟨fun _ => ⟨v, hv⟩, fun _ => ⟨w, hw⟩,
      fun _ => ⟨v, w, hv, hw, .item h3 g3 (minus_ids_ne he he')⟩⟩⟩
  | @item a b fa fb ia A B ka kb x y d hr h1 h2 hx hy _ ih =>
    intro ha hb
    have fx : FollowO H.S a [ka] x := itemAt_follow hx
    have fy : FollowO H.S b [kb] y := itemAt_follow hy
    obtain ⟨pa, pb, e1, e2, hP⟩ := ih (ha.follow fx) (hb.follow fy)
    exact ⟨ka :: pa, kb :: pb, by rw [e1]; simp, by rw [e2]; simp, hP.extend fx fy⟩
  | @itemR b fa fb ia A B k y d hr hk hy _ ih =>
    intro ha hb
    have fy : FollowO H.S b [k] y := itemAt_follow hy
    obtain ⟨pa, pb, e1, e2, hP⟩ := ih ha (hb.follow fy)
    refine ⟨k :: pa, k :: pb, by rw [e1]; simp, by rw [e2]; simp, ?_, ?_, ?_⟩
    · intro h
      obtain ⟨w, hw⟩ := hP.base h
      exact absurd hw followO_none
    · intro h
      obtain ⟨w, hw⟩ := hP.other h
      exact ⟨w, fy.trans hw⟩
    · intro h
      obtain ⟨u, w, hu, _⟩ := hP.leaf h
      exact absurd hu followO_none
  | @itemL x' fa fb ia A B k x d hr hk hx _ ih =>
    intro ha hb
    have fx : FollowO H.S (some x') [k] x := itemAt_follow hx
    obtain ⟨pa, pb, e1, e2, hP⟩ := ih (ha.follow fx) hb
    refine ⟨k :: pa, k :: pb, by rw [e1]; simp, by rw [e2]; simp, ?_, ?_, ?_⟩
    · intro h
      obtain ⟨w, hw⟩ := hP.base h
      exact ⟨w, fx.trans hw⟩
    · intro h
      obtain ⟨w, hw⟩ := hP.other h
      exact absurd hw followO_none
    · intro h
      obtain ⟨u, w, _, hu, _⟩ := hP.leaf h
      exact absurd hu followO_none
  | rMoved hr h1 h2 _ _ =>
    intro _ _
    exact ⟨_, _, rfl, rfl, ⟨fun _ => recs_left hr h1, fun _ => recs_right hr h2, by simp⟩⟩
  | rSame hr _ _ _ => intro _ _; exact ⟨_, _, rfl, rfl, ⟨by simp, by simp, by simp⟩⟩
  | rRemoved hr h1 => intro _ _; exact ⟨_, [], rfl, by simp, ⟨fun _ => recs_left hr h1, by simp, by simp⟩⟩
  | rAdded hr h1 => intro _ _; exact ⟨[], _, by simp, rfl, ⟨by simp, fun _ => recs_right hr h1, by simp⟩⟩

theorem follow_sub {S : Schema} {v w : Val} {p : FS} (h : Follow S v p w) : ∀ u, Ident.Sub u w → 
    Ident.Sub u v ∨ ∃ a, u = .atom a := by
  induction h with
  | here => intro u hu; exact .inl hu
  | @attr v nm w p u h1 _ ih =>
    intro t ht
    rcases ih t ht with h | h
    · cases v with
      | rcd c s =>
        simp only [Ident.readAttr] at h1
        split at h1
        · rename_i w' hw'
          simp at h1
          subst h1
          exact .inl (.rcd (alookup_mem' hw') h)
        · cases hu : Ident.unsetOf S c nm with
          | none => simp [hu] at h1
          | some q =>
            simp [hu] at h1
            subst h1
            cases h
            exact .inr ⟨q, rfl⟩
      | _ => simp [Ident.readAttr] at h1
    · exact .inr h
  | @item v k w p u h1 _ ih =>
    intro t ht
    rcases ih t ht with h | h
    · obtain ⟨xs, j, h2, h3⟩ := getItem_member h1
      exact .inl (sub_member h2 h3 t h)
    · exact .inr h

/-- Real objects have proper dicts everywhere. -/
theorem dictsOK_real {S : Schema} {v : Val} (h : Spec.Real S v) : DictsOK S v := by
  intro p w hw
  rcases follow_sub hw w (.self w) with hs | ⟨a, rfl⟩
  · have := h.1 w hs
    cases w <;> simp [Spec.KeysOK]
    · simpa [Ident.Proper] using this
    · simpa [Ident.Proper] using this
  · trivial

end Normalize.Diff
