import Verif.Lemmas.Visitor

/-!
# C54: what a visit shows
-/

namespace Normalize.Visit
open Ident (IProp Ty ItemTy CollKind)
open Json (Setup Mk clsOf instOf)
open Spec (Leaf Chosen Kept NoSlot Holds Present Numbered MembersOf Emits Packs IsOf Shows ShowsSlot Visited Names)

variable {J : Setup} {o : Opts} {H : Hooks} {self : IProp → Val} {ap : Leaf}

/-- The classes are built by the metaclass (the names of properties are dict keys), and `None` is false. -/
structure SchemaOK (J : Setup) : Prop where
  names : ∀ c, ((J.S.cls c).props.map (·.name)).Nodup
  noneFalse : J.S.falsy .none = true

theorem tryTypes_ok {go : Go} {s : Slot} {cue : FS} : ∀ (ts : List Ty) (m v : Val), tryTypes J go s cue ts m = .ok v →
    v = m ∨ ∃ t ∈ ts, go s t cue = .ok v
  | [], m, v, h => by cases h; exact .inl rfl
  | t :: ts, m, v, h => by
    unfold tryTypes at h
    split at h
    · rename_i w hw
      split at h
      · rcases tryTypes_ok ts w v h with rfl | ⟨t', ht, h'⟩
        · exact .inr ⟨t, List.mem_cons_self, hw⟩
        · exact .inr ⟨t', List.mem_cons_of_mem _ ht, h'⟩
      · cases h; exact .inr ⟨t, List.mem_cons_self, hw⟩
    · split at h
      · rcases tryTypes_ok ts m v h with rfl | ⟨t', ht, h'⟩
        · exact .inl rfl
        · exact .inr ⟨t', List.mem_cons_of_mem _ ht, h'⟩
      · cases h

theorem isMatch_iff {x : Slot} {c : String} : isMatch J x (.cls c) = true ↔ IsOf J x c := by
  cases x <;> simp [isMatch, IsOf]

theorem isCls_iff {t : Ty} : isCls t = true ↔ ∃ c, t = .cls c := by cases t <;> simp [isCls]

theorem matching_empty {x : Slot} {ts : List Ty} :
    (ts.filter (fun t => isCls t && isMatch J x t)).isEmpty = true ↔ ∀ d, .cls d ∈ ts → ¬ IsOf J x d := by
  simp only [List.isEmpty_iff, List.filter_eq_nil_iff, Bool.and_eq_true, not_and]
  constructor
  · intro h d hd hi
    exact h _ hd rfl (isMatch_iff.2 hi)
  · intro h t ht hc
    obtain ⟨c, rfl⟩ := isCls_iff.1 hc
    exact fun hm => h c ht (isMatch_iff.1 hm)

/-- A slot. -/
theorem mapProp_shows (hJ : SchemaOK J) {sel : Option (List FS)} {go : Go}
    (ih : ∀ x t path r, go x t path = .ok r → Shows J self o sel ap path x t r) {path : FS} {x : Slot} {p : IProp}
    {w : Val} (h : mapProp J (visitHooks J self o ap) go x p (path ++ [.str p.name]) = .ok w) :
    ShowsSlot J self o sel ap path x p w := by
  have union : 2 ≤ p.types.length → mapUnion J (visitHooks J self o ap) go x p (path ++ [.str p.name]) = .ok w →
      ShowsSlot J self o sel ap path x p w := by
    intro hl h
    unfold mapUnion at h
    split at h
    · rename_i he
      rw [matching_empty] at he
      split at h
      · cases h
      · rename_i m hm
        split at h
        · exact .unionLeaf hl he h
        · rename_i hf
          cases h
          rcases tryTypes_ok _ _ _ hm with rfl | ⟨t, ht, hg⟩
          · exact absurd hJ.noneFalse hf
          · rw [List.mem_filter] at ht
            obtain ⟨c, rfl⟩ := isCls_iff.1 ht.2
            exact .union hl ht.1 (.inr he) (ih _ _ _ _ hg)
    · rename_i he
      have hne : p.types.filter (fun t => isCls t && isMatch J x t) ≠ [] := fun e => he (by rw [e]; rfl)
      obtain ⟨t, ht⟩ := List.exists_mem_of_ne_nil _ hne
      rcases tryTypes_ok _ _ _ h with rfl | ⟨t, ht, hg⟩
      · rw [List.mem_filter, Bool.and_eq_true] at ht
        obtain ⟨c, rfl⟩ := isCls_iff.1 ht.2.1
        exact .unionLost hl ht.1 (isMatch_iff.1 ht.2.2)
      · rw [List.mem_filter, Bool.and_eq_true] at ht
        obtain ⟨c, rfl⟩ := isCls_iff.1 ht.2.1
        exact .union hl ht.1 (.inl (isMatch_iff.1 ht.2.2)) (ih _ _ _ _ hg)
  unfold mapProp at h
  match hp : p.types, h with
  | [], h =>
    rw [hp] at union
    cases x with
    | miss e => exact .leaf (.inl ⟨hp, by simp⟩) h
    | val v =>
      simp only at h
      cases hc : clsOf v with
      | none => rw [hc] at h; exact .leaf (.inl ⟨hp, by simp [hc]⟩) h
      | some c => rw [hc] at h; exact .untyped hp hc (ih _ _ _ _ h)
  | [.cls c], h => exact .typed hp (ih _ _ _ _ h)
  | [.other n], h => exact .leaf (.inr ⟨n, hp⟩) h
  | a :: _ :: _, h => exact union (by rw [hp]; simp) (by cases a <;> exact h)

/-- The properties of a record. -/
theorem mapRecord_shows (hJ : SchemaOK J) {ord : List MArg → List MArg} (hord : Mfs.OrdOK ord)
    {sel : Option (List FS)} (hf : FilterIs ord o sel) {go : Go}
    (ih : ∀ x t path r, go x t path = .ok r → Shows J self o sel ap path x t r) {path : FS} {x : Slot} {c : String}
    {l : List (IProp × Val)}
    (h : mapRecord J (visitHooks J self o ap) o go (readSlot self x) (J.S.cls c).props path = .ok l) :
    ∃ g f, (∀ p ∈ (J.S.cls c).props, Holds self x p (g p)) ∧
      (∀ p ∈ (J.S.cls c).props, Chosen o sel path p → Present o (g p) →
        ShowsSlot J self o sel ap path (g p) p (f p)) ∧
      Emits J o sel path c g f (asDict (named l)) := by
  obtain ⟨h1, h2⟩ := mapRecord_ok _ _ h (hJ.names c)
  refine ⟨fun p => slotOf (fetch (readSlot self x) (push path (.str p.name)) p),
    fun p => valOf (mapProp J (visitHooks J self o ap) go (slotOf (fetch (readSlot self x) (push path (.str p.name)) p))
      p (push path (.str p.name))), ?_, ?_, ?_, ?_⟩
  · intro p hp
    obtain ⟨s, hs⟩ := fetch_total (self := self) x (push path (.str p.name)) p
    simp only [hs]
    exact fetch_holds hs
  · intro p hp hc hpr
    obtain ⟨s, hs, _, h4⟩ := (h2 p hp).2 ((chosen_iff hord hf path p).2 hc)
    simp only [hs] at hpr
    obtain ⟨v, hv, _⟩ := h4 (wanted_iff.2 hpr)
    simp only [hs, slotOf]
    rw [hv]
    exact mapProp_shows hJ ih hv
  · intro p hp w
    obtain ⟨h3, h4⟩ := h2 p hp
    cases hfl : isFiltered o path p with
    | true =>
      rw [h3 hfl]
      have : ¬ Chosen o sel path p := fun hc => by rw [(chosen_iff hord hf path p).2 hc] at hfl; cases hfl
      simp [this]
    | false =>
      have hc := (chosen_iff hord hf path p).1 hfl
      obtain ⟨s, hs, h5, h6⟩ := h4 hfl
      simp only [hs, slotOf, hc, true_and]
      cases hw : wanted o s with
      | false =>
        rw [h5 hw]
        have : ¬ Present o s := fun hp => by rw [wanted_iff.2 hp] at hw; cases hw
        simp [this]
      | true =>
        obtain ⟨v, hv, hk⟩ := h6 hw
        rw [hk, hv, keep_iff]
        simp [valOf, wanted_iff.1 hw]
  · intro y hy
    simp only [asDict, named, List.map_map, List.mem_map, Function.comp_apply] at hy
    obtain ⟨z, hz, rfl⟩ := hy
    exact ⟨z.1, h1 z hz, rfl⟩

/-- The members of a collection. -/
theorem collected_shows {sel : Option (List FS)} {go : Go}
    (ih : ∀ x t path r, go x t path = .ok r → Shows J self o sel ap path x t r) {path : FS} {c : String}
    {k : CollKind} {it : ItemTy} (hk : (J.S.cls c).coll = some (k, it))
    {xs : List (Comp × Val)} {mc : Option Val}
    (h : collected J (visitHooks J self o ap) o go (some xs) (.cls c) path = .ok mc) :
    ∃ t r g, mc = some r ∧ (xs ≠ [] → it = .one t) ∧
      (∀ y ∈ xs, Shows J self o sel ap (path ++ [y.1]) (.val y.2) t (g y)) ∧ Packs o k xs g r := by
  unfold collected at h
  simp only at h
  split at h
  · cases h
  · rename_i l hl
    split at h
    · cases h
    · rename_i v hv
      cases h
      obtain ⟨h1, h2⟩ := mapColl_ok _ _ hl
      cases it with
      | tup ts =>
        have hit : itemType J (.cls c) = .error (.raw .typeError) := by simp [itemType, hk]
        have hxs : xs = [] := by
          cases xs with
          | nil => rfl
          | cons y ys =>
            obtain ⟨it', w, h3, _⟩ := h1 y List.mem_cons_self
            rw [hit] at h3; cases h3
        subst hxs
        cases hl
        refine ⟨.other 0, v, fun _ => .none, rfl, fun h => absurd rfl h, by simp, ?_⟩
        simp only [visitHooks, aggregate, hk] at hv
        cases k <;> cases hv <;> rfl
      | one t =>
        have hit : itemType J (.cls c) = .ok t := by simp [itemType, hk]
        have hl' := h2 t hit
        refine ⟨t, v, fun y => valOf (go (.val y.2) t (path ++ [y.1])), rfl, fun _ => rfl, ?_, ?_⟩
        · intro y hy
          obtain ⟨it', w, h3, h4⟩ := h1 y hy
          rw [hit] at h3; cases h3
          simp only [h4]
          exact ih _ _ _ _ h4
        · simp only [visitHooks, aggregate, hk] at hv
          cases k <;> cases hv
          · simp only [Packs, hl']
            rw [List.filter_map, List.filter_map, List.map_map]
            rfl
          · simp only [Packs, hl']

/-- C54, in full: everything that a visit shows. -/
theorem map_shows (hJ : SchemaOK J) {ord : List MArg → List MArg} (hord : Mfs.OrdOK ord) {sel : Option (List FS)}
    (hf : FilterIs ord o sel) : ∀ (n : Nat) (x : Slot) (t : Ty) (path : FS) (r : Val),
    map J (visitHooks J self o ap) o n x t path = .ok r → Shows J self o sel ap path x t r
  | 0, x, t, path, r, h => by cases h
  | n + 1, x, t, path, r, h => by
    have ih := map_shows hJ hord hf n
    unfold map at h
    cases t with
    | other k => simp only [visitHooks, unpack, collected] at h; exact .leaf h
    | cls c =>
      cases hk : (J.S.cls c).coll with
      | none =>
        simp only [visitHooks, unpack, hk, collected, propsOf] at h
        split at h
        · cases h
        · rename_i mp hmp
          obtain ⟨g, f, h1, h2, h3⟩ := mapRecord_shows hJ hord hf ih hmp
          simp only [reduce] at h
          cases h
          exact .record hk h1 h2 h3
      | some kt =>
        obtain ⟨k, it⟩ := kt
        cases hu : unpackColl k x with
        | error e => simp [visitHooks, unpack, hk, hu] at h
        | ok xs =>
          simp only [visitHooks, unpack, hk, hu] at h
          split at h
          · cases h
          · rename_i mc hmc
            obtain ⟨t, a, hg, rfl, h1, h2, h3⟩ := collected_shows ih hk hmc
            simp only [propsOf] at h
            split at h
            · cases h
            · rename_i mp hmp
              obtain ⟨g, f, h4, h5, h6⟩ := mapRecord_shows hJ hord hf ih hmp
              simp only [reduce] at h
              by_cases hall : (propsOf J (.cls c)).all (isFiltered o path) = true
              · rw [if_pos hall] at h
                cases h
                refine .items hk h1 (unpackColl_members hu) h2 ?_ h3
                intro p hp hc
                have := (List.all_eq_true.1 hall) p hp
                rw [(chosen_iff hord hf path p).2 hc] at this
                cases this
              · rw [if_neg hall] at h
                have hex : ∃ p ∈ (J.S.cls c).props, Chosen o sel path p := by
                  rw [List.all_eq_true] at hall
                  push Not at hall
                  obtain ⟨p, hp, hfp⟩ := hall
                  exact ⟨p, hp, (chosen_iff hord hf path p).1 (by simpa using hfp)⟩
                have fin : ∀ d', d' = aset (asDict (named mp)) (.str "values") a →
                    Shows J self o sel ap path x (.cls c) (.dict d') := by
                  intro d' hd
                  refine .both hk h1 (unpackColl_members hu) h2 hex h3 h4 h5 h6 ?_
                  intro k'
                  rw [hd, alookup_aset]
                  by_cases hk' : k' = .str "values" <;> simp [hk', eq_comm]
                split at h
                · split at h
                  · cases h; exact fin _ rfl
                  · cases h
                · cases h; exact fin _ rfl

/-- C54: a visit shows exactly the properties that are selected, set (or asked for although empty) and mapped to a value
that is kept, and so on for the records and collections inside. -/
theorem C54_shows (hJ : SchemaOK J) {ord : List MArg → List MArg} (hord : Mfs.OrdOK ord) {sel : Option (List FS)}
    (hf : FilterIs ord o sel) {n : Nat} {v r : Val} (h : visit J n self o ap v = .ok r) :
    ∃ c, clsOf v = some c ∧ Shows J self o sel ap [] (.val v) (.cls c) r := by
  unfold visit at h
  cases hc : clsOf v with
  | none => rw [hc] at h; cases h
  | some c => rw [hc] at h; exact ⟨c, rfl, map_shows hJ hord hf n _ _ _ _ h⟩

/-- C54 for the keys of a record: there is one for a property iff it is selected, set, and mapped to a value that is
not `None` (or `None` is not ignored) and not an ignored empty string. -/
theorem C54 (hJ : SchemaOK J) {ord : List MArg → List MArg} (hord : Mfs.OrdOK ord) {sel : Option (List FS)}
    (hf : FilterIs ord o sel) {n : Nat} {c : String} {s : List (String × Val)} {r : Val}
    (hc : (J.S.cls c).coll = none) (hv1 : ∀ p ∈ (J.S.cls c).props, p.unset = none) (he : o.emptySlots = false)
    (h : visit J n self o ap (.rcd c s) = .ok r) :
    ∃ d, ∃ f : IProp → Val, r = .dict d ∧
      (∀ p ∈ (J.S.cls c).props, ∀ v, alookup s p.name = some v → Chosen o sel [] p →
        ShowsSlot J self o sel ap [] (.val v) p (f p)) ∧
      (∀ p ∈ (J.S.cls c).props, ∀ w, alookup d (.str p.name) = some w ↔
        Chosen o sel [] p ∧ (∃ v, alookup s p.name = some v) ∧ Kept o (f p) ∧ w = f p) ∧
      ∀ x ∈ d, ∃ p ∈ (J.S.cls c).props, x.1 = .str p.name := by
  obtain ⟨c', h1, h2⟩ := C54_shows hJ hord hf h
  cases h1
  cases h2 with
  | @record _ _ _ g f d h3 h4 h5 h6 =>
    have hg : ∀ p ∈ (J.S.cls c).props, (∀ v, alookup s p.name = some v → g p = .val v) ∧
        (alookup s p.name = none → g p = .miss .attributeError) := by
      intro p hp
      have hh := h4 p hp
      generalize g p = y at hh
      cases hh with
      | set hs => exact ⟨fun v hv => by rw [hs] at hv; cases hv; rfl, fun hn => by rw [hs] at hn; cases hn⟩
      | v1 hn hu => rw [hv1 p hp] at hu; cases hu
      | unset hn hu => exact ⟨fun v hv => absurd hv (hn.2 c s v rfl), fun _ => rfl⟩
    refine ⟨d, f, rfl, ?_, ?_, h6.2⟩
    · intro p hp v hv hch
      have := (hg p hp).1 v hv
      have := h5 p hp hch (by rw [this]; trivial)
      rwa [(hg p hp).1 v hv] at this
    · intro p hp w
      rw [h6.1 p hp w]
      cases hs : alookup s p.name with
      | some v => rw [(hg p hp).1 v hs]; simp [Present]
      | none => rw [(hg p hp).2 hs]; simp [Present, he]
  | items h3 => rw [hc] at h3; cases h3
  | both h3 => rw [hc] at h3; cases h3

end Normalize.Visit
