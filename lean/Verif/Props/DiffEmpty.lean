import Verif.Props.DiffOutside
import Verif.Props.DiffFuzzy
import Verif.Spec.DiffEmpty

/-!
# C113: `ignore_empty_items`
-/

namespace Normalize.Diff
open Ident (IProp ICls Ty ItemTy CollKind Schema readAttr Key)
open Spec (Real KeysOK Members Labels EmptyItem NoContent KeyField Without WithoutEmpty PlainItem Compared)

/-! ## What is empty -/

theorem nestedEmptyL_iff : ∀ ks : List Key, nestedEmptyL ks = true ↔ ∀ k ∈ ks, nestedEmpty k = true
  | [] => by simp [nestedEmptyL]
  | k :: ks => by simp [nestedEmptyL, nestedEmptyL_iff ks]

theorem idEmpty_tup (D : Setup) (ks : List Key) : idEmpty D.hooks (.tup ks) = true ↔ ∀ k ∈ ks, nestedEmpty k = true := by
  show ks.all nestedEmpty = true ↔ _
  simp

theorem bestKey_other {idOf : String → Except Exc Key} {ts : List Ty} (h : ∀ n, Ty.cls n ∉ ts) (n : Nat) :
    Ident.bestKey idOf ts [] n = .ok [] := by
  induction ts with
  | nil => rfl
  | cons t ts ih =>
    cases t with
    | cls c => exact absurd List.mem_cons_self (h c)
    | other _ => exact ih fun m hm => h m (List.mem_cons_of_mem _ hm)

theorem normalize_marker {U : Unicode} {t : TextOpts} {x : Val} (h : normalizeVal U t (some x) = some nothingVal) :
    x = nothingVal := by
  simp only [normalizeVal] at h
  split at h
  · simp at h
  · simp only [Option.some.injEq] at h
    unfold scrub at h
    split at h
    · simp [nothingVal] at h
    · exact h

/-- The part of the identity for one property. -/
theorem slot_empty (D : Setup) (hc : ∀ p, D.compareAs p = none) {idOf : String → Option Heads → Val → Except Exc Key}
    {hash : Key → Except Exc Int} {v : Val} {p : IProp} (hty : ∀ n, Ty.cls n ∉ p.types)
    (hm : readAttr D.S v p.name ≠ some nothingVal) {k : Key}
    (h : Ident.slotKey D.S (some (slotHook D)) idOf hash none v p = .ok k) :
    nestedEmpty k = true ↔ NoContent D (readAttr D.S v p.name) := by
  have hook : ∀ x, slotHook D x p v = .ok ((normalizeVal D.U D.text (some x)).getD nothingVal) := by
    intro x
    simp [slotHook, normalizeObjectSlot, hc p]
  have hk : k = .raw ((normalizeVal D.U D.text (some ((readAttr D.S v p.name).getD .none))).getD nothingVal) := by
    unfold Ident.slotKey at h
    simp only [Ident.runHook, hook, bestKey_other hty] at h
    split at h
    · unfold Ident.checkedKey at h
      split at h
      · simpa using h.symm
      · split at h <;> simp at h
    · simpa using h.symm
  subst hk
  simp only [nestedEmpty, decide_eq_true_eq]
  cases hr : readAttr D.S v p.name with
  | none =>
    have : normalizeVal D.U D.text (some Val.none) = none ∨ normalizeVal D.U D.text (some Val.none) = some .none := by
      have hs : scrub D.U D.text Val.none = .none := rfl
      simp only [normalizeVal, hs]
      split
      · exact .inl rfl
      · exact .inr rfl
    constructor
    · intro _
      exact .inl rfl
    · intro _
      rcases this with e | e
      · simp [e]
      · simp [e]
  | some x =>
    simp only [Option.getD_some, NoContent]
    cases hn : normalizeVal D.U D.text (some x) with
    | none => simp
    | some w =>
      have : w ≠ nothingVal := by
        rintro rfl
        exact hm (by rw [hr, normalize_marker hn])
      simp [this]

theorem mem_of_mapE {α β : Type} {f : α → Except Exc β} : ∀ {l : List α} {ys : List β}, mapE f l = .ok ys →
    (∀ y ∈ ys, ∃ x ∈ l, f x = .ok y) ∧ ∀ x ∈ l, ∃ y ∈ ys, f x = .ok y
  | [], ys, h => by
    simp [mapE] at h
    subst h
    simp
  | a :: l, ys, h => by
    simp only [mapE] at h
    cases hf : f a with
    | error e => simp [hf] at h
    | ok b =>
      cases hl : mapE f l with
      | error e => simp [hf, hl] at h
      | ok bs =>
        simp [hf, hl] at h
        subst h
        have ih := mem_of_mapE hl
        constructor
        · intro y hy
          rcases List.mem_cons.1 hy with rfl | hy
          · exact ⟨a, by simp, hf⟩
          · obtain ⟨x, hx, e⟩ := ih.1 y hy
            exact ⟨x, by simp [hx], e⟩
        · intro x hx
          rcases List.mem_cons.1 hx with rfl | hx
          · exact ⟨b, by simp, hf⟩
          · obtain ⟨y, hy, e⟩ := ih.2 x hx
            exact ⟨y, by simp [hy], e⟩

theorem mem_idProps {S : Schema} {c : String} {p : IProp} {o : Opts} (he : o.extraneous = false) :
    p ∈ Ident.idProps (S.cls c) none ↔ KeyField S o c p := by
  have hpk : Ident.pkCols (S.cls c) none = (S.cls c).pk := by simp [Ident.pkCols, Ident.passes]
  unfold Ident.idProps KeyField
  rw [hpk]
  cases hp : (S.cls c).pk with
  | nil =>
    simp only [List.isEmpty_nil, if_true, Ident.passes, List.filter_true]
    unfold Ident.sortedProps
    rw [(List.perm_insertionSort _ _).mem_iff]
    simp [Compared, he]
  | cons q qs => simp

/-- The identity of a plain item is empty iff the item is. -/
theorem plain_empty (D : Setup) {o : Opts} (hc : ∀ p, D.compareAs p = none) (he : o.extraneous = false) {v : Val}
    (hv : PlainItem D v) {i : Id Key} (hi : D.hooks.recId none none v = .ok i) :
    idEmpty D.hooks i = true ↔ EmptyItem D o v := by
  obtain ⟨c, s, rfl, hcoll, hps⟩ := hv
  have hi : recordIdOf D none none (.rcd c s) = .ok i := hi
  unfold recordIdOf at hi
  simp only [Option.getD_none, Ident.typeOf] at hi
  cases hd : D.depth with
  | zero => simp [hd, Ident.rid] at hi
  | succ n =>
    rw [hd] at hi
    simp only [Ident.rid, hcoll] at hi
    generalize hm : mapE (Ident.slotKey D.S (some (slotHook D)) (fun c' s w => Ident.rid D.S (some (slotHook D)) n (.cls c') s w)
      (fun k => Ident.khash D.S n k) none (.rcd c s)) (Ident.idProps (D.S.cls c) none) = r at hi
    cases r with
    | error e => simp [Ident.asTuple] at hi
    | ok ks =>
      simp only [Ident.asTuple] at hi
      split at hi
      · simp at hi
      · simp only [idOfKey, Except.ok.injEq] at hi
        subst hi
        have hmem := mem_of_mapE hm
        have hpin : ∀ p, p ∈ Ident.idProps (D.S.cls c) none → p ∈ (D.S.cls c).props ++ (D.S.cls c).pk := by
          intro p hp
          have := (mem_idProps (o := o) he).1 hp
          unfold KeyField at this
          split at this
          · exact List.mem_append_left _ this.1
          · exact List.mem_append_right _ this
        rw [idEmpty_tup]
        constructor
        · intro h
          refine ⟨c, s, rfl, fun p hp => ?_⟩
          have hp' := (mem_idProps he).2 hp
          obtain ⟨k, hk, e⟩ := hmem.2 p hp'
          obtain ⟨h1, h2⟩ := hps p (hpin p hp')
          exact (slot_empty D hc h1 h2 e).1 (h k hk)
        · rintro ⟨c', s', e, h⟩ k hk
          cases e
          obtain ⟨p, hp, e⟩ := hmem.1 k hk
          obtain ⟨h1, h2⟩ := hps p (hpin p hp)
          exact (slot_empty D hc h1 h2 e).2 (h p ((mem_idProps he).1 hp))

/-! ## The property -/

/-- Every member has an identity (`record_id` raises for none of them). -/
def HasIds (D : Setup) (x : Val) : Prop :=
  ∀ xs, tuplesOf (some x) = .ok xs → ∀ e ∈ xs, ∃ i, D.hooks.recId none none e.2 = .ok i

/-- C113: with `ignore_empty_items`, items of collections are considered to be absent if, and only if, they have all `None`, not
set or `''` in their primary key fields, or in all compared fields if there is no primary key: the result is the
same without them; and compared with an empty collection, exactly the others are reported `REMOVED`. -/
def C113_statement : Prop := ∀ (D : Setup) (o : Opts) (n : Nat) (x x' y y' : Val) (c m : String),
    (∀ p, D.compareAs p = none) → Ident.AtomLaws D.S → OrdOK D.hooks → o.duckType = false → o.compareFilter = none →
    o.ignoreEmptyItems = true → RecordsPair D.hooks x y c m → Real D.S x → Real D.S x' → Real D.S y → Real D.S y' →
    HasIds D x → HasIds D y → WithoutEmpty D o x x' → WithoutEmpty D o y y' →
    diff D.hooks o (n + 1) x y = diff D.hooks o (n + 1) x' y' ∧
    (tuplesOf (some y) = .ok [] → ∀ xs, tuplesOf (some x) = .ok xs → ∀ e ∈ xs,
      (⟨.removed, [e.1], []⟩ ∈ (diff D.hooks o (n + 1) x y).out ↔ ¬ EmptyItem D o e.2))

namespace Ex

/-- A class with an extraneous property. -/
def noteCls : String → ICls
  | "Note" => { props := [{ name := "text" }, { name := "seen", extraneous := true }] }
  | "Notes" => { coll := some (.list, .one (.cls "Note")) }
  | _ => {}

/-- The default `DiffOptions` methods. -/
def noteSetup : Setup := { setup {} with S := { schema with cls := noteCls } }

/-- A note. -/
def note (s : List (String × Val)) : Val := .rcd "Note" s

theorem notes_real {l : List Val} (h : ∀ x ∈ l, x = note [("seen", .int 1)]) : Real noteSetup.S (.lcoll "Notes" l) := by
  refine .lcoll ⟨⟨_, rfl⟩, ?_⟩ ?_
  · intro kd n _ x hx
    rw [h x hx]
    simp [clsOf, note]
  · intro x hx
    rw [h x hx]
    refine .rcd (by simp [Ident.Proper, noteSetup, noteCls]) (by simp [noteSetup, noteCls]) ?_
    intro x hx
    simp only [List.mem_singleton] at hx
    subst hx
    exact .atom _

end Ex

theorem withoutEmpty_refl (D : Setup) (o : Opts) {v : Val} {xs : List (Comp × Val)} (h : tuplesOf (some v) = .ok xs) :
    WithoutEmpty D o v v := by
  refine ⟨rfl, xs, xs, h, h, ?_⟩
  induction xs generalizing v with
  | nil => exact .nil
  | cons a as ih => exact .keep (ih (v := .dict as) rfl)

/-- C113 is false of the code: with `extraneous=True` the extraneous properties are compared, but an item that has a
value only in one of these is left out. -/
theorem C113_violated : ¬ C113_statement := by
  intro h
  have h1 := h Ex.noteSetup { extraneous := true, ignoreEmptyItems := true } 8 (.lcoll "Notes" [Ex.note [("seen", .int 1)]])
    (.lcoll "Notes" [Ex.note [("seen", .int 1)]]) (.lcoll "Notes" []) (.lcoll "Notes" []) "Notes" "Note" (fun _ => rfl)
    ⟨Ex.laws.refl, Ex.laws.symm, Ex.laws.trans⟩ (fun _ _ => List.Perm.refl _) rfl rfl rfl ⟨rfl, rfl, _, rfl⟩
    (Ex.notes_real (by simp)) (Ex.notes_real (by simp)) (Ex.notes_real (by simp)) (Ex.notes_real (by simp))
    (by
      intro xs hxs e he
      simp only [tuplesOf, Except.ok.injEq] at hxs
      subst hxs
      simp only [Ident.enum, List.zipIdx_cons, List.zipIdx_nil, List.map_cons, List.map_nil, List.mem_singleton] at he
      subst he
      exact ⟨.tup [.raw .none], by decide +kernel⟩)
    (by
      intro xs hxs e he
      simp only [tuplesOf, Except.ok.injEq] at hxs
      subst hxs
      simp [Ident.enum] at he)
    (withoutEmpty_refl _ _ rfl) (withoutEmpty_refl _ _ rfl)
  have h2 := (h1.2 rfl _ rfl (.int 0, Ex.note [("seen", .int 1)]) (by simp [Ident.enum])).2 (by
    rintro ⟨c, s, e, h3⟩
    simp only [Ex.note, Val.rcd.injEq] at e
    obtain ⟨rfl, rfl⟩ := e
    have h4 := h3 { name := "seen", extraneous := true } (by
      unfold KeyField
      rw [if_pos (by rfl)]
      exact ⟨by simp [Ex.noteSetup, Ex.noteCls], fun h => by simp at h⟩)
    revert h4
    unfold NoContent
    decide +kernel)
  revert h2
  decide +kernel

/-! ## Proof for plain items -/

theorem labels_exist {α ι : Type} {f : α → Except Exc ι} {keep : ι → Bool} : ∀ {l : List α},
    (∀ a ∈ l, ∃ i, f a = .ok i) → ∃ la, Labels f keep l la
  | [], _ => ⟨[], .nil⟩
  | a :: l, h => by
    obtain ⟨la, hla⟩ := labels_exist (l := l) (keep := keep) (f := f) (fun b hb => h b (List.mem_cons_of_mem _ hb))
    obtain ⟨i, hi⟩ := h a List.mem_cons_self
    cases hk : keep i with
    | true => exact ⟨_, .keep hi hk hla⟩
    | false => exact ⟨_, .skip hi hk hla⟩

theorem labels_without {α ι : Type} {f : α → Except Exc ι} {keep : ι → Bool} {P : α → Prop} {l l' : List α}
    (hw : Without P l l') : ∀ {la}, Labels f keep l la → (∀ a ∈ l, P a → ∀ i, f a = .ok i → keep i = false) →
      Labels f keep l' la := by
  induction hw with
  | nil => intro la h _; exact h
  | keep _ ih =>
    intro la h hp
    cases h with
    | keep h1 h2 h3 => exact .keep h1 h2 (ih h3 fun a ha => hp a (List.mem_cons_of_mem _ ha))
    | skip h1 h2 h3 => exact .skip h1 h2 (ih h3 fun a ha => hp a (List.mem_cons_of_mem _ ha))
  | drop hP _ ih =>
    intro la h hp
    cases h with
    | keep h1 h2 h3 => simp [hp _ List.mem_cons_self hP _ h1] at h2
    | skip h1 h2 h3 => exact ih h3 fun a ha => hp a (List.mem_cons_of_mem _ ha)

theorem labels_keep {α ι : Type} {f : α → Except Exc ι} {keep : ι → Bool} {l : List α} {la} (h : Labels f keep l la) :
    ∀ e ∈ la, keep e.1 = true := by
  induction h with
  | nil => simp
  | keep h1 h2 h3 ih =>
    intro e he
    rcases List.mem_cons.1 he with rfl | he
    · exact h2
    · exact ih e he
  | skip h1 h2 h3 ih => exact ih

theorem labels_all {α ι : Type} {f : α → Except Exc ι} {keep : ι → Bool} {l : List α} {la} (h : Labels f keep l la) :
    ∀ a ∈ l, ∀ i, f a = .ok i → keep i = true → (i, a) ∈ la := by
  induction h with
  | nil => simp
  | keep h1 h2 h3 ih =>
    intro b hb i hi hk
    rcases List.mem_cons.1 hb with rfl | hb
    · rw [h1] at hi
      cases hi
      simp
    · exact List.mem_cons_of_mem _ (ih b hb i hi hk)
  | skip h1 h2 h3 ih =>
    intro b hb i hi hk
    rcases List.mem_cons.1 hb with rfl | hb
    · rw [h1] at hi
      cases hi
      simp [h2] at hk
    · exact ih b hb i hi hk

theorem without_mem {α : Type} {P : α → Prop} {l l' : List α} (h : Without P l l') : ∀ a ∈ l', a ∈ l := by
  induction h with
  | nil => simp
  | keep _ ih =>
    intro a ha
    rcases List.mem_cons.1 ha with rfl | ha
    · simp
    · exact List.mem_cons_of_mem _ (ih a ha)
  | drop _ _ ih => exact fun a ha => List.mem_cons_of_mem _ (ih a ha)

theorem getItem_of_tuple {x : Val} (hk : KeysOK x) {xs : List (Comp × Val)} (h : tuplesOf (some x) = .ok xs) {e : Comp × Val}
    (he : e ∈ xs) : getItem x e.1 = .ok e.2 := getItem_tuples_eq h hk he

theorem mem_keyed {E : Type} [DecidableEq E] {la : List (Id E × (Comp × Val))} {k : Comp} (h : k ∈ (number [] (keyed la)).map (·.2)) :
    ∃ e ∈ la, e.2.1 = k := by
  rw [number_keys, keyed_keys, List.map_map] at h
  obtain ⟨e, he, rfl⟩ := List.mem_map.1 h
  exact ⟨e, he, rfl⟩

/-- The comparison of two collections depends only on the members that count. -/
theorem diff_members_congr (D : Setup) {o : Opts} (hc : Spec.CompareFlat D) (ho : OrdOK D.hooks)
    (hd : o.duckType = false) (hf : o.compareFilter = none) {x x' y y' : Val} {c m : String}
    (hr : RecordsPair D.hooks x y c m) (hr' : RecordsPair D.hooks x' y' c m)
    (hx : KeysOK x) (hx' : KeysOK x') (hy : KeysOK y) (hy' : KeysOK y') {la lb : List (Id Key × (Comp × Val))}
    (ha : Members D.hooks o x la) (ha' : Members D.hooks o x' la) (hb : Members D.hooks o y lb)
    (hb' : Members D.hooks o y' lb) (n : Nat) (fa fb : FS) :
    diffIter D.hooks o (n + 1) (some x) (some y) fa fb = diffIter D.hooks o (n + 1) (some x') (some y') fa fb := by
  rw [diff_records (plain_default D hc) hd hf hr ha hb, diff_records (plain_default D hc) hd hf hr' ha' hb']
  have hdesc : ∀ ka ∈ (number [] (keyed la)).map (·.2), ∀ kb ∈ (number [] (keyed lb)).map (·.2),
      descend (diffIter D.hooks o n) (some x) (some y) fa fb (ka, kb) =
        descend (diffIter D.hooks o n) (some x') (some y') fa fb (ka, kb) := by
    intro ka hka kb hkb
    obtain ⟨e, he, rfl⟩ := mem_keyed hka
    obtain ⟨e', he', rfl⟩ := mem_keyed hkb
    obtain ⟨xs, t1, t2, _⟩ := members_mem ha he
    obtain ⟨xs', t1', t2', _⟩ := members_mem ha' he
    obtain ⟨ys, u1, u2, _⟩ := members_mem hb he'
    obtain ⟨ys', u1', u2', _⟩ := members_mem hb' he'
    have g1 := getItem_of_tuple hx t1 t2
    have g2 := getItem_of_tuple hx' t1' t2'
    have g3 := getItem_of_tuple hy u1 u2
    have g4 := getItem_of_tuple hy' u1' u2'
    simp only [descend, itemAt, g1, g2, g3, g4]
  unfold compareMembers
  simp only [Option.isNone_some, Bool.or_false, Bool.false_eq_true, if_false]
  rw [ids_congr D ho hdesc, keys_congr D ho (by rfl) (by rfl) hdesc]

/-- Comparing with an empty collection. -/
theorem removed_iff (D : Setup) {o : Opts} (hc : Spec.CompareFlat D) (ho : OrdOK D.hooks)
    (hd : o.duckType = false) (hf : o.compareFilter = none) {x y : Val} {c m : String}
    (hr : RecordsPair D.hooks x y c m) (hx : KeysOK x) {la : List (Id Key × (Comp × Val))}
    (ha : Members D.hooks o x la) (hb : Members D.hooks o y []) (n : Nat) (k : Comp) :
    (⟨.removed, [k], []⟩ : DInfo) ∈ (diff D.hooks o (n + 1) x y).out ↔ ∃ e ∈ la, e.2.1 = k := by
  have hkeys : k ∈ (number [] (keyed la)).map (·.2) ↔ ∃ e ∈ la, e.2.1 = k := by
    refine ⟨mem_keyed, ?_⟩
    rintro ⟨e, he, rfl⟩
    rw [number_keys, keyed_keys, List.map_map]
    exact List.mem_map.2 ⟨e, he, rfl⟩
  rw [← hkeys]
  unfold diff
  rw [diff_records (plain_default D hc) hd hf hr ha hb]
  have hB : number [] (keyed ([] : List (Id Key × (Comp × Val)))) = [] := rfl
  rw [hB]
  unfold compareMembers
  by_cases hrec : o.recurse = true
  · simp only [hrec, if_true, compareKeys, List.map_nil, List.not_mem_nil, decide_false, List.filter_false, ho.nil,
      Gen.forEach_nil, Gen.nil_append, List.dedup_nil, List.filter_nil, Gen.append_nil, out_yields', List.nil_append,
      Bool.not_false, List.filter_true]
    simp [ho.mem]
  · have hc0 : common (number [] (keyed la)) [] = [] := by
      rw [List.eq_nil_iff_forall_not_mem]
      intro e he
      have := (common_keys he).2
      simp at this
    have hm0 : minus [] (number [] (keyed la)) = [] := rfl
    have hm1 : minus (number [] (keyed la)) [] = number [] (keyed la) := by
      unfold minus
      exact List.filter_eq_self.2 fun e _ => rfl
    have hp0 : pairsOf D.hooks o (number [] (keyed la)) [] = .ok [] := by
      unfold pairsOf
      split
      · unfold fuzzyMatch
        rw [hm0, ho.nil]
        have : ∀ l : List (Ent (Id Key)), l.product ([] : List (Ent (Id Key))) = [] := fun l => by simp [List.product]
        rw [this]
        rfl
      · rfl
    have hrec' : o.recurse = false := by simpa using hrec
    simp only [hrec', Bool.false_eq_true, if_false, Option.isNone_some, Bool.or_self, compareIds, hc0, ho.nil, Gen.forEach_nil, hp0,
      Gen.bindE_ok, hm0, List.filter_nil, Gen.append_nil, hm1, List.map_nil, List.not_mem_nil, decide_false,
      Bool.not_false, List.filter_true]
    have hw : ∀ b, Gen.when b Gen.nil = Gen.nil := by intro b; cases b <;> rfl
    simp only [hw, Gen.nil_append, out_yields', List.nil_append]
    simp [ho.mem]

/-- C113 (partial): for collections of records none of whose properties is declared to hold records (or
collections), and without `extraneous`.  What is missing: with `extraneous` the property is false of the code (`C113_violated`);
properties that hold records. -/
theorem C113_partial (D : Setup) (o : Opts) (n : Nat) (x x' y y' : Val) (c m : String)
    (hc : ∀ p, D.compareAs p = none) (ho : OrdOK D.hooks) (hd : o.duckType = false) (hf : o.compareFilter = none)
    (he : o.extraneous = false) (hi : o.ignoreEmptyItems = true) (hr : RecordsPair D.hooks x y c m)
    (hx : Real D.S x) (hx' : Real D.S x') (hy : Real D.S y) (hy' : Real D.S y') (ix : HasIds D x) (iy : HasIds D y)
    (hplain : ∀ v, v = x ∨ v = y → ∀ xs, tuplesOf (some v) = .ok xs → ∀ e ∈ xs, PlainItem D e.2)
    (wx : WithoutEmpty D o x x') (wy : WithoutEmpty D o y y') :
    diff D.hooks o (n + 1) x y = diff D.hooks o (n + 1) x' y' ∧
    (tuplesOf (some y) = .ok [] → ∀ xs, tuplesOf (some x) = .ok xs → ∀ e ∈ xs,
      (⟨.removed, [e.1], []⟩ ∈ (diff D.hooks o (n + 1) x y).out ↔ ¬ EmptyItem D o e.2)) := by
  have hmem : ∀ v v', (v = x ∨ v = y) → HasIds D v → WithoutEmpty D o v v' →
      ∃ la, Members D.hooks o v la ∧ Members D.hooks o v' la := by
    rintro v v' hv hids ⟨_, xs, xs', h1, h2, hw⟩
    obtain ⟨la, hla⟩ := labels_exist (f := fun kv : Comp × Val => D.hooks.recId none none kv.2)
      (keep := fun i => !(o.ignoreEmptyItems && idEmpty D.hooks i)) (hids xs h1)
    refine ⟨la, ⟨xs, h1, hla⟩, ⟨xs', h2, labels_without hw hla ?_⟩⟩
    intro a ha hP i hia
    rw [hi, (plain_empty D hc he (hplain v hv xs h1 a ha) hia).2 hP]
    rfl
  obtain ⟨la, ha, ha'⟩ := hmem x x' (.inl rfl) ix wx
  obtain ⟨lb, hb, hb'⟩ := hmem y y' (.inr rfl) iy wy
  have kx := dictsOK_real hx [] x .here
  have hr' : RecordsPair D.hooks x' y' c m :=
    ⟨by rw [← same_tag_cls wx.1]; exact hr.left, by rw [← same_tag_cls wy.1]; exact hr.right, hr.kind⟩
  refine ⟨diff_members_congr D (.none hc) ho hd hf hr hr' kx (dictsOK_real hx' [] x' .here) (dictsOK_real hy [] y .here)
    (dictsOK_real hy' [] y' .here) ha ha' hb hb' n [] [], ?_⟩
  intro hnil xs hxs e hex
  have hlb : lb = [] := by
    obtain ⟨ys, h1, h2⟩ := hb
    rw [hnil] at h1
    cases h1
    cases h2
    rfl
  subst hlb
  rw [removed_iff D (.none hc) ho hd hf hr kx ha hb]
  obtain ⟨xs', h1, h2⟩ := ha
  rw [hxs] at h1
  cases h1
  obtain ⟨i, hie⟩ := ix xs hxs e hex
  rw [← plain_empty D hc he (hplain x (.inl rfl) xs hxs e hex) hie]
  constructor
  · rintro ⟨e', he', hk⟩
    have h3 := labels_mem h2 he'
    have h4 := labels_keep h2 e' he'
    have h5 : e'.2 = e := by
      have g1 := getItem_of_tuple kx hxs h3.1
      have g2 := getItem_of_tuple kx hxs hex
      rw [hk, g2] at g1
      exact Prod.ext hk (Except.ok.inj g1).symm
    rw [h5, hie] at h3
    cases h3.2
    simpa [hi] using h4
  · intro h
    exact ⟨(i, e), labels_all h2 e hex i hie (by simpa [hi] using h), rfl⟩

/-! ## Example -/

namespace Ex

/-- Words, the last two of which are empty. -/
def someWords : Val := .lcoll "Words" [word "red" "en", word "" "de", word "" "", .rcd "Word" [("lang", .none)]]

/-- The same without these. -/
def fewerWords : Val := .lcoll "Words" [word "red" "en", word "" "de"]

theorem plain_word {s : List (String × Val)} (h : readAttr schema (.rcd "Word" s) "text" ≠ some nothingVal)
    (h' : readAttr schema (.rcd "Word" s) "lang" ≠ some nothingVal) : PlainItem (setup {}) (.rcd "Word" s) := by
  refine ⟨"Word", s, rfl, rfl, ?_⟩
  intro p hp
  simp only [setup, schema, cls, List.append_nil, List.mem_cons, List.not_mem_nil, or_false] at hp
  rcases hp with rfl | rfl
  · exact ⟨by simp, h⟩
  · exact ⟨by simp, h'⟩

theorem empty_word {s : List (String × Val)} (h1 : NoContent (setup {}) (readAttr schema (.rcd "Word" s) "text"))
    (h2 : NoContent (setup {}) (readAttr schema (.rcd "Word" s) "lang")) (o : Opts) :
    EmptyItem (setup {}) o (.rcd "Word" s) := by
  refine ⟨"Word", s, rfl, ?_⟩
  intro p hp
  unfold KeyField at hp
  rw [if_pos (by rfl)] at hp
  have hp := hp.1
  simp only [setup, schema, cls, List.mem_cons, List.not_mem_nil, or_false] at hp
  rcases hp with rfl | rfl
  · exact h1
  · exact h2

end Ex

/-- The hypotheses of `C113_partial` are met by a list of words with two empty ones. -/
example (o : Opts) : WithoutEmpty (Ex.setup {}) o Ex.someWords Ex.fewerWords ∧ HasIds (Ex.setup {}) Ex.someWords ∧
    ∀ xs, tuplesOf (some Ex.someWords) = .ok xs → ∀ e ∈ xs, PlainItem (Ex.setup {}) e.2 := by
  refine ⟨⟨rfl, _, _, rfl, rfl, .keep (.keep (.drop (Ex.empty_word (.inr (.inr ?_)) (.inr (.inr ?_)) o)
    (.drop (Ex.empty_word (.inl ?_) (.inr (.inl ?_)) o) .nil)))⟩, ?_, ?_⟩
  · decide +kernel
  · decide +kernel
  · decide +kernel
  · decide +kernel
  · intro xs hxs e he
    cases hxs
    simp only [Ident.enum, List.zipIdx_cons, List.zipIdx_nil, List.map_cons, List.map_nil, List.mem_cons, List.not_mem_nil,
      or_false] at he
    rcases he with rfl | rfl | rfl | rfl
    · exact ⟨.tup [.raw (.str "en"), .raw (.str "red")], by decide +kernel⟩
    · exact ⟨.tup [.raw (.str "de"), .raw (.str "")], by decide +kernel⟩
    · exact ⟨.tup [.raw (.str ""), .raw (.str "")], by decide +kernel⟩
    · exact ⟨.tup [.raw .none, .raw .none], by decide +kernel⟩
  · intro xs hxs e he
    cases hxs
    simp only [Ident.enum, List.zipIdx_cons, List.zipIdx_nil, List.map_cons, List.map_nil, List.mem_cons, List.not_mem_nil,
      or_false] at he
    rcases he with rfl | rfl | rfl | rfl <;> exact Ex.plain_word (by decide +kernel) (by decide +kernel)

/-- Two of the four words are reported. -/
example : diff (Ex.hooks {}) { ignoreEmptyItems := true } 9 Ex.someWords (.lcoll "Words" []) =
    { out := [⟨.removed, [.int 0], []⟩, ⟨.removed, [.int 1], []⟩] } := by
  decide +kernel

end Normalize.Diff
