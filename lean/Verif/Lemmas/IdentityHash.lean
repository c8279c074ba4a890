import Verif.Lemmas.Identity

/-!
# Equal records have equal identities and hashes
-/

namespace Normalize.Ident

open Normalize.Mfs (alookup_mem)

variable {S : Schema}

/-- What is known about two equal objects identified as a `t`. -/
structure Good (S : Schema) (t : Ty) (a b : Val) : Prop where
  eq : veq S a b = .ok true
  unmixed : Unmixed a b
  shape : SameShape a b
  wa : WF S a
  wb : WF S b
  ok : NoExtraneousKey S t a

theorem NoExtraneousKey.self {t : Ty} {v : Val} (h : NoExtraneousKey S t v) : NoExtraneousKey S (typeOf v) v :=
  fun c d ht => h c d (.self ht)

theorem Good.self {t : Ty} {a b : Val} (h : Good S t a b) : Good S (typeOf a) a b :=
  { h with ok := h.ok.self }

/-- Keys that are equal part by part. -/
inductive KEq (S : Schema) : Key → Key → Prop
  | raw {a b : Val} : Good S (typeOf a) a b → KEq S (.raw a) (.raw b)
  | nil : KEq S (.tup []) (.tup [])
  | cons {k l : Key} {ks ls : List Key} : KEq S k l → KEq S (.tup ks) (.tup ls) →
      KEq S (.tup (k :: ks)) (.tup (l :: ls))

theorem KEq.of_forall₂ {ks ls : List Key} (h : List.Forall₂ (KEq S) ks ls) : KEq S (.tup ks) (.tup ls) := by
  induction h with
  | nil => exact .nil
  | cons hk _ ih => exact .cons hk ih

theorem KEq.forall₂_aux {k l : Key} (h : KEq S k l) :
    ∀ ks ls, k = .tup ks → l = .tup ls → List.Forall₂ (KEq S) ks ls := by
  induction h with
  | raw => intro ks ls h; simp at h
  | nil => intro ks ls h h'; cases h; cases h'; exact .nil
  | cons hk _ _ ih => intro ks ls h h'; cases h; cases h'; exact .cons hk (ih _ _ rfl rfl)

theorem KEq.forall₂ {ks ls : List Key} (h : KEq S (.tup ks) (.tup ls)) : List.Forall₂ (KEq S) ks ls :=
  h.forall₂_aux ks ls rfl rfl

theorem keyEqL_true {ks ls : List Key} (h : List.Forall₂ (fun k l => keyEq S k l = .ok true) ks ls) :
    keyEqL S ks ls = .ok true := by
  induction h with
  | nil => simp [keyEqL]
  | cons hk _ ih => simp [keyEqL, hk, ih]

theorem KEq.keyEq_aux {k l : Key} (h : KEq S k l) : keyEq S k l = .ok true ∧
    ∀ ks ls, k = .tup ks → l = .tup ls → keyEqL S ks ls = .ok true ∧ ks.length = ls.length := by
  induction h with
  | raw h => simp [keyEq, h.eq]
  | nil => simp [keyEq, keyEqL]
  | @cons k l ks ls hk _ ih1 ih2 =>
    obtain ⟨h1, h2⟩ := ih2.2 _ _ rfl rfl
    refine ⟨?_, ?_⟩
    · simp [keyEq, h2, keyEqL, ih1.1, h1]
    · intro ks' ls' h h'
      cases h; cases h'
      simp [keyEqL, ih1.1, h1, h2]

theorem KEq.keyEq {k l : Key} (h : KEq S k l) : Ident.keyEq S k l = .ok true := h.keyEq_aux.1

/-- Two runs end alike: with the same exception, or with related results. -/
inductive RelE {α β : Type} (R : α → β → Prop) : Except Exc α → Except Exc β → Prop
  | error (e : Exc) : RelE R (.error e) (.error e)
  | ok {a : α} {b : β} : R a b → RelE R (.ok a) (.ok b)

theorem mapE_rel {α β γ δ : Type} {R : α → β → Prop} {Q : γ → δ → Prop} {f : α → Except Exc γ}
    {g : β → Except Exc δ} {xs : List α} {ys : List β} (h : List.Forall₂ R xs ys)
    (hf : ∀ x y, R x y → RelE Q (f x) (g y)) : RelE (List.Forall₂ Q) (mapE f xs) (mapE g ys) := by
  induction h with
  | nil => exact .ok .nil
  | @cons x y xs ys hxy _ ih =>
    simp only [mapE]
    have := hf x y hxy
    generalize f x = r1 at this ⊢
    generalize g y = r2 at this ⊢
    generalize mapE f xs = r3 at ih ⊢
    generalize mapE g ys = r4 at ih ⊢
    cases this with
    | error e => exact .error e
    | ok hq =>
      cases ih with
      | error e => exact .error e
      | ok hqs => exact .ok (.cons hq hqs)

theorem asTuple_rel {r1 r2 : Except Exc (List Key)} (h : RelE (List.Forall₂ (KEq S)) r1 r2) :
    RelE (KEq S) (asTuple r1) (asTuple r2) := by
  cases h with
  | error e => exact .error e
  | ok h => exact .ok (.of_forall₂ h)

/-! ## Related containers give related items -/

/-- Entries with the same index and good values. -/
def ItemRel (S : Schema) (T : Val → Ty) (x y : Comp × Val) : Prop :=
  x.1 = y.1 ∧ Good S (T x.2) x.2 y.2

theorem forall₂_of_getElem {α β : Type} {R : α → β → Prop} {xs : List α} {ys : List β}
    (hl : xs.length = ys.length) (h : ∀ (i : Nat) x y, xs[i]? = some x → ys[i]? = some y → R x y) :
    List.Forall₂ R xs ys := by
  induction xs generalizing ys with
  | nil => cases ys with
    | nil => exact .nil
    | cons => simp at hl
  | cons x xs ih => cases ys with
    | nil => simp at hl
    | cons y ys =>
      exact .cons (h 0 x y rfl rfl) (ih (by simpa using hl)
        (fun i x y hx hy => h (i + 1) x y (by simpa using hx) (by simpa using hy)))

theorem enum_rel {T : Val → Ty} {xs ys : List Val} (hl : xs.length = ys.length)
    (h : ∀ (i : Nat) x y, xs[i]? = some x → ys[i]? = some y → Good S (T x) x y) :
    List.Forall₂ (ItemRel S T) (enum xs) (enum ys) := by
  refine forall₂_of_getElem (by simp [enum, hl]) (fun i x y hx hy => ?_)
  simp only [enum, List.getElem?_map, List.getElem?_zipIdx, Option.map_map, Option.map_eq_some_iff,
    Function.comp] at hx hy
  obtain ⟨a, ha, rfl⟩ := hx
  obtain ⟨b, hb, rfl⟩ := hy
  exact ⟨rfl, h i a b ha hb⟩

theorem keys_getElem {xs ys : List (Comp × Val)} (hk : xs.map (·.1) = ys.map (·.1)) {i : Nat}
    {x y : Comp × Val} (hx : xs[i]? = some x) (hy : ys[i]? = some y) : x.1 = y.1 := by
  have h1 : (xs.map (·.1))[i]? = some x.1 := by simp [hx]
  have h2 : (ys.map (·.1))[i]? = some y.1 := by simp [hy]
  rw [hk, h2] at h1
  exact (Option.some.inj h1).symm

theorem dict_rel {T : Val → Ty} {xs ys : List (Comp × Val)} (hk : xs.map (·.1) = ys.map (·.1))
    (h : ∀ (k : Comp) x y, (k, x) ∈ xs → (k, y) ∈ ys → Good S (T x) x y) :
    List.Forall₂ (ItemRel S T) xs ys := by
  refine forall₂_of_getElem (by simpa using congrArg List.length hk) (fun i x y hx hy => ?_)
  have hxy := keys_getElem hk hx hy
  refine ⟨hxy, h x.1 x.2 y.2 (List.mem_of_getElem? hx) ?_⟩
  rw [hxy]; exact List.mem_of_getElem? hy

theorem orderedInsert_rel {R : Comp × Val → Comp × Val → Prop} (hR : ∀ x y, R x y → x.1 = y.1)
    {x y : Comp × Val} {xs ys : List (Comp × Val)} (hxy : R x y) (h : List.Forall₂ R xs ys) :
    List.Forall₂ R (xs.orderedInsert (fun a b => Comp.le a.1 b.1 = true) x)
      (ys.orderedInsert (fun a b => Comp.le a.1 b.1 = true) y) := by
  induction h with
  | nil => exact .cons hxy .nil
  | @cons a b as bs hab h ih =>
    simp only [List.orderedInsert, hR _ _ hxy, hR _ _ hab]
    split
    · exact .cons hxy (.cons hab h)
    · exact .cons hab ih

theorem insertionSort_rel {R : Comp × Val → Comp × Val → Prop} (hR : ∀ x y, R x y → x.1 = y.1)
    {xs ys : List (Comp × Val)} (h : List.Forall₂ R xs ys) :
    List.Forall₂ R (xs.insertionSort (fun a b => Comp.le a.1 b.1 = true))
      (ys.insertionSort (fun a b => Comp.le a.1 b.1 = true)) := by
  induction h with
  | nil => exact .nil
  | cons hxy _ ih => exact orderedInsert_rel hR hxy ih

theorem all_keys (f : Comp → Bool) (xs : List (Comp × Val)) :
    xs.all (fun x => f x.1) = (xs.map (·.1)).all f := by
  rw [List.all_map]; rfl

theorem forall₂_map_both {α β γ δ : Type} {R : α → β → Prop} {Q : γ → δ → Prop} {f : α → γ} {g : β → δ}
    {xs : List α} {ys : List β} (h : List.Forall₂ R xs ys) (hq : ∀ x y, R x y → Q (f x) (g y)) :
    List.Forall₂ Q (xs.map f) (ys.map g) := by
  induction h with
  | nil => exact .nil
  | cons hxy _ ih => exact .cons (hq _ _ hxy) ih

theorem sortedEntries_rel {T : Val → Ty} {xs ys : List (Comp × Val)} (hk : xs.map (·.1) = ys.map (·.1))
    (h : List.Forall₂ (ItemRel S T) xs ys) :
    RelE (List.Forall₂ (ItemRel S T)) (sortedEntries xs) (sortedEntries ys) := by
  have hc : (xs.length ≤ 1 || xs.all (fun x => xs.all (fun y => Comp.sameSort x.1 y.1))) =
      (ys.length ≤ 1 || ys.all (fun x => ys.all (fun y => Comp.sameSort x.1 y.1))) := by
    have hl : xs.length = ys.length := h.length_eq
    rw [hl]
    congr 1
    have e1 : ∀ zs : List (Comp × Val), zs.all (fun x => zs.all (fun y => Comp.sameSort x.1 y.1)) =
        (zs.map (·.1)).all (fun a => (zs.map (·.1)).all (fun b => Comp.sameSort a b)) := by
      intro zs
      simp [List.all_map, Function.comp_def]
    rw [e1, e1, hk]
  unfold sortedEntries
  rw [hc]
  split
  · refine .ok ?_
    exact forall₂_map_both (insertionSort_rel (fun _ _ h => h.1) h) (fun x y hxy => ⟨rfl, hxy.2⟩)
  · exact .error _

theorem not_faces_atom {P : Val → Val → Prop} {a b : Atom} (h : ¬ P (.atom a) (.atom b)) :
    ¬ Faces P (.atom a) (.atom b) := by
  intro hf
  cases hf with
  | here hp => exact h hp

theorem SameShape.list {xs ys : List Val} (h : SameShape (.list xs) (.list ys)) {i : Nat} {x y : Val}
    (hx : xs[i]? = some x) (hy : ys[i]? = some y) : SameShape x y := fun hf => h (.list i hx hy hf)

theorem SameShape.lcoll {c d : String} {xs ys : List Val} (h : SameShape (.lcoll c xs) (.lcoll d ys)) {i : Nat}
    {x y : Val} (hx : xs[i]? = some x) (hy : ys[i]? = some y) : SameShape x y :=
  fun hf => h (.lcoll i hx hy hf)

theorem SameShape.dict {xs ys : List (Comp × Val)} (h : SameShape (.dict xs) (.dict ys)) {k : Comp}
    {x y : Val} (hx : alookup xs k = some x) (hy : alookup ys k = some y) : SameShape x y :=
  fun hf => h (.dict k hx hy hf)

theorem SameShape.dcoll {c d : String} {xs ys : List (Comp × Val)} (h : SameShape (.dcoll c xs) (.dcoll d ys))
    {k : Comp} {x y : Val} (hx : alookup xs k = some x) (hy : alookup ys k = some y) : SameShape x y :=
  fun hf => h (.dcoll k hx hy hf)

theorem SameShape.rcd {c d : String} {xs ys : List (String × Val)} (h : SameShape (.rcd c xs) (.rcd d ys))
    {k : String} {x y : Val} (hx : alookup xs k = some x) (hy : alookup ys k = some y) : SameShape x y :=
  fun hf => h (.rcd k hx hy hf)

theorem forall₂_get {α β : Type} {R : α → β → Prop} {xs : List α} {ys : List β} (h : List.Forall₂ R xs ys)
    {i : Nat} {x : α} {y : β} (hx : xs[i]? = some x) (hy : ys[i]? = some y) : R x y := by
  induction h generalizing i with
  | nil => simp at hx
  | cons hxy _ ih =>
    cases i with
    | zero => simp at hx hy; subst hx hy; exact hxy
    | succ i => exact ih (by simpa using hx) (by simpa using hy)

theorem DictEq.get {xs ys : List (Comp × Val)} (h : DictEq S xs ys) (hy : (ys.map (·.1)).Nodup) {k : Comp}
    {x y : Val} (hx : (k, x) ∈ xs) (hym : (k, y) ∈ ys) : veq S x y = .ok true := by
  obtain ⟨y', hy', he⟩ := h.2 _ hx
  rw [alookup_of_mem hy hym] at hy'
  cases hy'
  exact he

theorem getElem_enum {xs : List Val} {i : Nat} {x : Val} (h : xs[i]? = some x) :
    (Comp.int i, x) ∈ enum xs := by
  refine List.mem_of_getElem? (i := i) ?_
  simp [enum, List.getElem?_zipIdx, h]

theorem mem_sortedEntries {d xs : List (Comp × Val)} (h : sortedEntries d = .ok xs) {k : Comp} {v : Val}
    (hm : (k, v) ∈ d) : (Comp.int 0, v) ∈ xs := by
  unfold sortedEntries at h
  split at h
  · cases h
    exact List.mem_map.mpr ⟨(k, v), ((List.perm_insertionSort _ d).mem_iff).mpr hm, rfl⟩
  · cases h

/-- The members that `record_id` sees in equal objects correspond. -/
theorem collTuples_rel (H : HashLaws S) {T : Val → Ty} {k : CollKind} {a b : Val} (he : veq S a b = .ok true)
    (hu : Unmixed a b) (hsh : SameShape a b) (wa : WF S a) (wb : WF S b)
    (hok : ∀ xs i w, collTuples S k a = .ok xs → (i, w) ∈ xs → NoExtraneousKey S (T w) w) :
    RelE (List.Forall₂ (ItemRel S T)) (collTuples S k a) (collTuples S k b) := by
  cases a with
  | atom a =>
    obtain ⟨b, rfl, hb⟩ := veq_atom_left he
    by_cases hs : ∃ s, a = .str s
    · obtain ⟨s, rfl⟩ := hs
      obtain ⟨t, rfl⟩ := H.str _ _ hb
      cases k <;> exact .error _
    · have hs' : ¬ ∃ s, b = .str s := by
        rintro ⟨s, rfl⟩
        exact hs (H.str' _ _ hb)
      have hf := H.falsy _ _ hb
      cases k with
      | list =>
        have e : ∀ x : Atom, (¬ ∃ s, x = .str s) →
            collTuples S .list (.atom x) = if S.falsy x then .ok [] else .error .collectionCoerce := by
          intro x hx
          cases x <;> first | rfl | exact absurd ⟨_, rfl⟩ hx
        rw [e a hs, e b hs', hf]
        split
        · exact .ok .nil
        · exact .error _
      | dict =>
        have e : ∀ x : Atom, (¬ ∃ s, x = .str s) → collTuples S .dict (.atom x) = .ok [] := by
          intro x hx
          cases x <;> first | rfl | exact absurd ⟨_, rfl⟩ hx
        rw [e a hs, e b hs']
        exact .ok .nil
  | list xs =>
    cases b with
    | list ys =>
      rw [veq_list] at he
      refine .ok (enum_rel he.length_eq (fun i x y hx hy => ?_))
      exact ⟨forall₂_get he hx hy, hu.list hx hy, hsh.list hx hy, wa.list x (List.mem_of_getElem? hx),
        wb.list y (List.mem_of_getElem? hy), hok _ _ x rfl (getElem_enum hx)⟩
    | lcoll => exact (hu (.here trivial)).elim
    | _ => simp [veq] at he
  | lcoll c xs =>
    cases b with
    | lcoll d ys =>
      rw [veq_lcoll] at he
      refine .ok (enum_rel he.2.length_eq (fun i x y hx hy => ?_))
      exact ⟨forall₂_get he.2 hx hy, hu.lcoll hx hy, hsh.lcoll hx hy, wa.lcoll x (List.mem_of_getElem? hx),
        wb.lcoll y (List.mem_of_getElem? hy), hok _ _ x rfl (getElem_enum hx)⟩
    | list => exact (hu (.here trivial)).elim
    | _ => simp [veq] at he
  | dict xs =>
    cases b with
    | dict ys =>
      rw [veq_dict] at he
      have hk : xs.map (·.1) = ys.map (·.1) := by
        by_contra hne
        exact hsh (.here hne)
      have nx : (xs.map (·.1)).Nodup := wa _ (.self _)
      have ny : (ys.map (·.1)).Nodup := wb _ (.self _)
      have good : ∀ (kk : Comp) x y, (kk, x) ∈ xs → (kk, y) ∈ ys → NoExtraneousKey S (T x) x →
          Good S (T x) x y := fun kk x y hx hy hn =>
        ⟨he.get ny hx hy, hu.dict (alookup_of_mem nx hx) (alookup_of_mem ny hy),
          hsh.dict (alookup_of_mem nx hx) (alookup_of_mem ny hy), wa.dict _ hx, wb.dict _ hy, hn⟩
      cases k with
      | dict => exact .ok (dict_rel hk (fun kk x y hx hy => good kk x y hx hy (hok _ _ x rfl hx)))
      | list =>
        cases hse : sortedEntries xs with
        | ok zs =>
          have := sortedEntries_rel (S := S) (T := T) hk
            (dict_rel hk (fun kk x y hx hy => good kk x y hx hy (hok zs _ x hse (mem_sortedEntries hse hx))))
          rw [hse] at this
          simpa [collTuples, hse] using this
        | error e =>
          -- the values do not matter here
          have hE : sortedEntries ys = .error e := by
            unfold sortedEntries at hse ⊢
            have e1 : ∀ zs : List (Comp × Val), zs.all (fun x => zs.all (fun y => Comp.sameSort x.1 y.1)) =
                (zs.map (·.1)).all (fun a => (zs.map (·.1)).all (fun b => Comp.sameSort a b)) := by
              intro zs
              simp [List.all_map, Function.comp_def]
            rw [e1, hk, he.1] at hse
            rw [e1]
            split at hse
            · cases hse
            · rename_i hn
              rw [if_neg hn]; exact hse
          simp only [collTuples, hse, hE]
          exact .error e
    | dcoll => exact (hu (.here trivial)).elim
    | _ => simp [veq] at he
  | dcoll c xs =>
    cases b with
    | dcoll d ys =>
      rw [veq_dcoll] at he
      have hk : xs.map (·.1) = ys.map (·.1) := by
        by_contra hne
        exact hsh (.here (.inr hne))
      have nx : (xs.map (·.1)).Nodup := wa _ (.self _)
      have ny : (ys.map (·.1)).Nodup := wb _ (.self _)
      refine .ok (dict_rel hk (fun kk x y hx hy => ?_))
      exact ⟨he.2.get ny hx hy, hu.dcoll (alookup_of_mem nx hx) (alookup_of_mem ny hy),
          hsh.dcoll (alookup_of_mem nx hx) (alookup_of_mem ny hy), wa.dcoll _ hx, wb.dcoll _ hy,
          hok _ _ x rfl hx⟩
    | dict => exact (hu (.here trivial)).elim
    | _ => simp [veq] at he
  | rcd c s =>
    cases b with
    | rcd d t =>
      cases k with
      | list => exact .error _
      | dict => exact .ok .nil
    | _ => simp [veq] at he

/-- Equal objects of the same shape have the same class. -/
theorem typeOf_eq {a b : Val} (he : veq S a b = .ok true) (hu : Unmixed a b) (hs : SameShape a b) :
    typeOf a = typeOf b := by
  cases a with
  | atom a => obtain ⟨b, rfl, _⟩ := veq_atom_left he; rfl
  | list xs =>
    cases b with
    | list => rfl
    | lcoll => exact (hu (.here trivial)).elim
    | _ => simp [veq] at he
  | dict xs =>
    cases b with
    | dict => rfl
    | dcoll => exact (hu (.here trivial)).elim
    | _ => simp [veq] at he
  | rcd c s =>
    cases b with
    | rcd d t => rw [(veq_rcd.mp he).1]; rfl
    | _ => simp [veq] at he
  | lcoll c xs =>
    cases b with
    | lcoll d ys =>
      have : c = d := by by_contra hne; exact hs (.here hne)
      rw [this]; rfl
    | list => exact (hu (.here trivial)).elim
    | _ => simp [veq] at he
  | dcoll c xs =>
    cases b with
    | dcoll d ys =>
      have : c = d := by by_contra hne; exact hs (.here (.inl hne))
      rw [this]; rfl
    | dict => exact (hu (.here trivial)).elim
    | _ => simp [veq] at he

theorem takenAs_atom {t : Ty} {v : Val} {c d : String} (h : TakenAs S t v c d) :
    ∀ n a, t = .other n → v = .atom a → False := by
  induction h with
  | here => intro n a h; cases h
  | slot => intro n a h; cases h
  | item => intro n a h; cases h
  | self _ ih => intro n a h h'; subst h'; exact ih 0 a rfl rfl

theorem noExtraneousKey_atom (n : Nat) (a : Atom) : NoExtraneousKey S (.other n) (.atom a) :=
  fun _ _ h => (takenAs_atom h n a rfl rfl).elim

theorem good_atoms {a b : Atom} (h : S.atomEq a b = true) : Good S (.other 0) (.atom a) (.atom b) :=
  ⟨by rw [veq_atom, h], not_faces_atom (fun h => h), not_faces_atom (fun h => h), .atom a, .atom b,
    noExtraneousKey_atom 0 a⟩

theorem pkCols_none (c : ICls) : pkCols c .none = c.pk := by
  simp [pkCols, passes]

theorem idProps_identifies {c : String} {p : IProp} (h : p ∈ idProps (S.cls c) .none) : Identifies S c p := by
  unfold idProps at h
  rw [pkCols_none] at h
  unfold Identifies
  split at h
  · rename_i he
    rw [if_pos (List.isEmpty_iff.mp he)]
    simp only [passes, sortedProps, List.filter_true, List.mem_insertionSort] at h
    simpa using h
  · rename_i he
    rw [if_neg (fun hh => he (List.isEmpty_iff.mpr hh))]
    exact h

/-- What the slot of an identifying property holds in equal objects. -/
theorem read_rel (L : AtomLaws S) {c : String} {p : IProp} {a b : Val} (g : Good S (.cls c) a b)
    (hp : Identifies S c p) :
    (readAttr S a p.name = .none ∧ readAttr S b p.name = .none) ∨
      ∃ x y, readAttr S a p.name = some x ∧ readAttr S b p.name = some y ∧
        (∀ t, t ∈ p.types ∨ t = typeOf x → Good S t x y) := by
  cases a with
  | rcd d s =>
    cases b with
    | rcd e t =>
      obtain ⟨rfl, hr⟩ := veq_rcd.mp g.eq
      by_cases hq : ∃ q ∈ (S.cls d).props, q.name = p.name
      · obtain ⟨q, hq, hn⟩ := hq
        have hx : q.extraneous = false := g.ok c d .here p q hp hq hn
        have hsr := hr q hq hx
        rw [hn] at hsr
        cases e1 : readAttr S (.rcd d s) p.name with
        | none =>
          cases e2 : readAttr S (.rcd d t) p.name with
          | none => exact .inl ⟨rfl, rfl⟩
          | some y => rw [e1, e2] at hsr; exact hsr.elim
        | some x =>
          cases e2 : readAttr S (.rcd d t) p.name with
          | none => rw [e1, e2] at hsr; exact hsr.elim
          | some y =>
            rw [e1, e2] at hsr
            simp only [SameRead] at hsr
            refine .inr ⟨x, y, rfl, rfl, fun ty hty => ?_⟩
            have hne : NoExtraneousKey S ty x := fun e f htk =>
              g.ok e f (.slot hp e1 hty htk)
            have w1 : WF S x := by
              rcases readAttr_WF g.wa e1 with ⟨_, hw⟩ | ⟨_, a, rfl, _⟩
              · exact hw
              · exact .atom a
            have w2 : WF S y := by
              rcases readAttr_WF g.wb e2 with ⟨_, hw⟩ | ⟨_, a, rfl, _⟩
              · exact hw
              · exact .atom a
            rcases readAttr_WF g.wa e1 with ⟨a1, _⟩ | ⟨_, a, rfl, _⟩
            · rcases readAttr_WF g.wb e2 with ⟨a2, _⟩ | ⟨_, a, rfl, _⟩
              · exact ⟨hsr, g.unmixed.rcd a1 a2, g.shape.rcd a1 a2, w1, w2, hne⟩
              · obtain ⟨b, rfl, hb⟩ := veq_atom_right hsr
                exact ⟨hsr, not_faces_atom (fun h => h), not_faces_atom (fun h => h), w1, w2, hne⟩
            · obtain ⟨b, rfl, hb⟩ := veq_atom_left hsr
              exact ⟨hsr, not_faces_atom (fun h => h), not_faces_atom (fun h => h), w1, w2, hne⟩
      · have key : ∀ u, WF S (.rcd d u) → readAttr S (.rcd d u) p.name = .none := by
          intro u wu
          have h1 : alookup u p.name = .none := by
            cases hl : alookup u p.name with
            | none => rfl
            | some v =>
              obtain ⟨q, hqm, hqn⟩ := (wu _ (.self _)).2 _ (alookup_mem hl)
              exact (hq ⟨q, hqm, hqn⟩).elim
          have h2 : propOf S d p.name = .none := by
            unfold propOf
            rw [List.find?_eq_none]
            intro q hqm hqn
            exact hq ⟨q, hqm, by simpa using hqn⟩
          simp [readAttr, h1, unsetOf, h2]
        exact .inl ⟨key s g.wa, key t g.wb⟩
    | _ => have := g.eq; simp [veq] at this
  | atom a =>
    obtain ⟨b, rfl, _⟩ := veq_atom_left g.eq
    exact .inl ⟨rfl, rfl⟩
  | _ =>
    cases b with
    | rcd => have := g.eq; simp [veq] at this
    | _ => exact .inl ⟨rfl, rfl⟩

theorem isNone_eq (H : HashLaws S) {a b : Val} (h : veq S a b = .ok true) : a = Val.none ↔ b = Val.none := by
  constructor
  · rintro rfl
    obtain ⟨b, rfl, hb⟩ := veq_atom_left h
    rw [H.none _ hb]; rfl
  · rintro rfl
    obtain ⟨b, rfl, hb⟩ := veq_atom_right h
    rw [H.none' _ hb]; rfl

theorem isSet_eq (H : HashLaws S) {k l : Key} (h : KEq S k l) : k.isSet = l.isSet := by
  cases h with
  | raw g => simp [Key.isSet, isNone_eq H g.eq]
  | nil => rfl
  | cons => rfl

theorem setElements_eq (H : HashLaws S) {ks ls : List Key} (h : List.Forall₂ (KEq S) ks ls) :
    setElements ks = setElements ls := by
  unfold setElements
  induction h with
  | nil => rfl
  | @cons k l ks ls hk _ ih =>
    rw [List.countP_cons, List.countP_cons, ih, isSet_eq H hk]

theorem members_rel {k l : Key} (h : KEq S k l) : List.Forall₂ (KEq S) k.members l.members := by
  cases h with
  | raw => exact .nil
  | nil => exact .nil
  | cons h1 h2 => exact (KEq.cons h1 h2).forall₂

theorem isEmpty_rel {α β : Type} {R : α → β → Prop} {ks : List α} {ls : List β} (h : List.Forall₂ R ks ls) :
    ks.isEmpty = ls.isEmpty := by
  cases h <;> rfl

theorem bestKey_rel (H : HashLaws S) {f g : String → Except Exc Key} {ts : List Ty}
    (h : ∀ c, Ty.cls c ∈ ts → RelE (KEq S) (f c) (g c)) : ∀ {best best' : List Key} {n : Nat},
    List.Forall₂ (KEq S) best best' →
    RelE (List.Forall₂ (KEq S)) (bestKey f ts best n) (bestKey g ts best' n) := by
  induction ts with
  | nil => intro best best' n hb; exact .ok hb
  | cons t ts ih =>
    intro best best' n hb
    have ih' := fun {b b' n} => @ih (fun c hc => h c (by simp [hc])) b b' n
    cases t with
    | other => simp only [bestKey]; exact ih' hb
    | cls c =>
      simp only [bestKey]
      have hc := h c (by simp)
      generalize f c = r1 at hc ⊢
      generalize g c = r2 at hc ⊢
      cases hc with
      | error e => exact .error e
      | @ok k l hkl =>
        simp only
        have hm := members_rel hkl
        rw [isEmpty_rel hb, setElements_eq H hm]
        split
        · exact ih' hm
        · exact ih' hb

theorem checkedKey_rel {hash : Key → Except Exc Int} (hh : ∀ k l, KEq S k l → hash k = hash l)
    {best best' : List Key} {x y : Val} (hb : List.Forall₂ (KEq S) best best') (hg : Good S (typeOf x) x y) :
    RelE (KEq S) (checkedKey hash best x) (checkedKey hash best' y) := by
  have hk : KEq S (if best.isEmpty then .raw x else .tup best) (if best'.isEmpty then .raw y else .tup best') := by
    rw [isEmpty_rel hb]
    split
    · exact .raw hg
    · exact .of_forall₂ hb
  unfold checkedKey
  rw [hh _ _ hk]
  split
  · exact .ok hk
  · split
    · exact .error _
    · exact .error _

theorem rid_khash_rel (L : AtomLaws S) (H : HashLaws S) : ∀ n,
    (∀ t a b, Good S t a b → RelE (KEq S) (rid S .none n t .none a) (rid S .none n t .none b)) ∧
    (∀ k l, KEq S k l → khash S n k = khash S n l) := by
  intro n
  induction n with
  | zero => exact ⟨fun t a b _ => .error _, fun k l _ => by cases k <;> cases l <;> rfl⟩
  | succ n ih =>
    obtain ⟨ih1, ih2⟩ := ih
    constructor
    · intro t a b g
      cases t with
      | other m =>
        simp only [rid]
        have hh : hashable S a = hashable S b := by
          cases a with
          | atom a =>
            obtain ⟨b, rfl, hb⟩ := veq_atom_left g.eq
            simp [hashable, H.hash _ _ hb]
          | _ => have := g.eq; cases b <;> first | rfl | simp [veq] at this
        rw [hh]
        split
        · exact .ok (.raw g.self)
        · exact .error _
      | cls c =>
        have slots : RelE (KEq S)
            (asTuple (mapE (slotKey S .none (fun c' s w => rid S .none n (.cls c') s w) (fun k => khash S n k)
              .none a) (idProps (S.cls c) .none)))
            (asTuple (mapE (slotKey S .none (fun c' s w => rid S .none n (.cls c') s w) (fun k => khash S n k)
              .none b) (idProps (S.cls c) .none))) := by
          refine asTuple_rel (mapE_rel (R := fun p q => p = q ∧ Identifies S c p) ?_ ?_)
          · exact forall₂_refl (R := fun p q => p = q ∧ Identifies S c p)
              (fun p hp => ⟨rfl, idProps_identifies hp⟩)
          · rintro p _ ⟨rfl, hp⟩
            unfold slotKey
            simp only [runHook]
            rcases read_rel L g hp with ⟨r1, r2⟩ | ⟨x, y, r1, r2, hg⟩
            · rw [r1, r2]
              simp only [Option.getD_none, ne_eq, not_true_eq_false, false_and, if_false]
              exact .ok (.raw (good_atoms (L.refl _)))
            · rw [r1, r2]
              simp only [Option.getD_some]
              have hgx : Good S (typeOf x) x y := hg _ (.inr rfl)
              have hn := isNone_eq H hgx.eq
              by_cases hx : x ≠ Val.none ∧ p.types ≠ []
              · have hy : y ≠ Val.none ∧ p.types ≠ [] := ⟨fun h => hx.1 (hn.mpr h), hx.2⟩
                rw [if_pos hx, if_pos hy]
                have hb := bestKey_rel H (f := fun c => rid S .none n (.cls c) .none x)
                  (g := fun c => rid S .none n (.cls c) .none y) (ts := p.types) (n := 0)
                  (fun c' hc' => ih1 (.cls c') x y (hg _ (.inl hc'))) List.Forall₂.nil
                simp only [subSel]
                generalize bestKey _ p.types [] 0 = r1 at hb ⊢
                generalize bestKey _ p.types [] 0 = r2 at hb ⊢
                cases hb with
                | error e => exact .error e
                | ok hb => exact checkedKey_rel ih2 hb hgx
              · have hy : ¬ (y ≠ Val.none ∧ p.types ≠ []) := fun h => hx ⟨fun h' => h.1 (hn.mp h'), h.2⟩
                rw [if_neg hx, if_neg hy]
                exact .ok (.raw hgx)
        simp only [rid]
        split
        · rename_i k it hc hpk
          have hitem := collTuples_rel H (T := itemTy it) (k := k) g.eq g.unmixed g.shape g.wa g.wb
            (fun xs i w hxs hm => fun e f htk => g.ok e f (.item hc hxs hm (.inl rfl) htk))
          generalize collTuples S k a = r1 at hitem ⊢
          generalize collTuples S k b = r2 at hitem ⊢
          cases hitem with
          | error e => exact .error e
          | @ok xs ys hxy =>
            simp only [passes, List.filter_true, subSel]
            refine asTuple_rel (mapE_rel hxy ?_)
            rintro ⟨i, x⟩ ⟨j, y⟩ ⟨_, hgx⟩
            have hty : itemTy it x = itemTy it y := by
              cases it with
              | one t => rfl
              | tup ts => exact typeOf_eq hgx.eq hgx.unmixed hgx.shape
            simp only [← hty]
            exact ih1 _ x y hgx
        · exact slots
    · intro k l hkl
      cases hkl with
      | @raw a b g =>
        cases a with
        | atom a =>
          obtain ⟨b, rfl, hb⟩ := veq_atom_left g.eq
          simp only [khash, H.hash _ _ hb]
        | rcd c s =>
          cases b with
          | rcd d t =>
            obtain ⟨rfl, _⟩ := veq_rcd.mp g.eq
            simp only [khash]
            have := ih1 _ _ _ g
            simp only [typeOf] at this
            generalize rid S .none n (.cls c) .none (.rcd c s) = r1 at this ⊢
            generalize rid S .none n (.cls c) .none (.rcd c t) = r2 at this ⊢
            cases this with
            | error e => rfl
            | ok hk => exact ih2 _ _ hk
          | _ => have := g.eq; simp [veq] at this
        | _ =>
          cases b with
          | atom => have := g.eq; simp [veq] at this
          | rcd => have := g.eq; simp [veq] at this
          | _ => rfl
      | nil => rfl
      | @cons k l ks ls h1 h2 =>
        simp only [khash]
        have := mapE_rel (Q := fun x y : Int => x = y) (f := fun k => khash S n k)
          (g := fun k => khash S n k) (KEq.cons h1 h2).forall₂ (by
            intro x y hxy
            rw [ih2 _ _ hxy]
            cases khash S n y with
            | error e => exact .error e
            | ok v => exact .ok rfl)
        generalize mapE (fun k => khash S n k) (k :: ks) = r1 at this ⊢
        generalize mapE (fun k => khash S n k) (l :: ls) = r2 at this ⊢
        cases this with
        | error e => rfl
        | ok h => rw [List.forall₂_eq_eq_eq] at h; rw [h]

end Normalize.Ident
