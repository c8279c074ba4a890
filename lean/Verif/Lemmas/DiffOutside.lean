import Verif.Lemmas.DiffComplete
import Verif.Spec.DiffOutside

/-!
# Differences outside the filter, in the members of collections
-/

namespace Normalize.Diff
open Ident (IProp ICls Ty ItemTy CollKind Schema readAttr)
open Spec (Real Touches SameFor SameParts SameMembers SamePair KeysOK)
open Gen

theorem mapE_forall2 {α β ε : Type} {R : α → α → Prop} {f : α → Except ε β} (hR : ∀ a b, R a b → f a = f b) :
    ∀ {l m : List α}, List.Forall₂ R l m → mapE f l = mapE f m
  | _, _, .nil => rfl
  | _, _, .cons h hs => by
    simp only [mapE]
    rw [hR _ _ h, mapE_forall2 hR hs]

theorem filter_forall2 {α : Type} {R : α → α → Prop} {p : α → Bool} (hp : ∀ a b, R a b → p a = p b) :
    ∀ {l m : List α}, List.Forall₂ R l m → List.Forall₂ (fun a b => R a b ∧ p a = true) (l.filter p) (m.filter p)
  | _, _, .nil => .nil
  | _, _, @List.Forall₂.cons _ _ _ a b l m h hs => by
    have e := hp _ _ h
    cases ha : p a with
    | false =>
      rw [List.filter_cons_of_neg (by simp [ha]), List.filter_cons_of_neg (by rw [← e]; simp [ha])]
      exact filter_forall2 hp hs
    | true =>
      rw [List.filter_cons_of_pos ha, List.filter_cons_of_pos (by rw [← e]; exact ha)]
      exact .cons ⟨h, ha⟩ (filter_forall2 hp hs)

theorem forall2_mem {α β : Type} {R : α → β → Prop} {l : List α} {m : List β} (h : List.Forall₂ R l m) {a : α}
    (ha : a ∈ l) : ∃ b ∈ m, R a b := by
  induction h with
  | nil => simp at ha
  | cons h hs ih =>
    rcases List.mem_cons.1 ha with rfl | ha
    · exact ⟨_, by simp, h⟩
    · obtain ⟨b, hb, hr⟩ := ih ha
      exact ⟨b, by simp [hb], hr⟩

theorem forEach_congr {α : Type} {f g : α → Gen} {l : List α} (h : ∀ x ∈ l, f x = g x) : forEach f l = forEach g l := by
  induction l with
  | nil => rfl
  | cons x l ih =>
    rw [forEach_cons, forEach_cons, h x (by simp), ih (fun y hy => h y (by simp [hy]))]

variable {o : Opts} {h : Heads} {qs : List FS}

/-- The selector for a member that is looked at selects in it what the filter selects there. -/
theorem selector_passes (w : Mfs.WF h) (ha : o.active = some h) {fa : FS} {ia : IdArgs}
    (hia : idArgs o fa = .ok ia) (hs : selects h fa = true) {k : Comp} (hl : ia.looksAt fa k = true) :
    ∃ s, ia.selector k = some s ∧ Mfs.getPath h (fa ++ [k]) = some s ∧
      ∀ nm, Ident.passes (some s) (.str nm) = true → selects h (fa ++ [k] ++ [.str nm]) = true := by
  have hlive := (looks_iff w ha hia hs).1
  have hsel := looksAt_selects w ha hia hl hs hlive
  suffices hg : ∃ s, ia.selector k = some s ∧ Mfs.getPath h (fa ++ [k]) = some s by
    obtain ⟨s, h1, h2⟩ := hg
    refine ⟨s, h1, h2, fun nm hp => ?_⟩
    unfold selects at hsel ⊢
    rw [h2] at hsel
    simp only at hsel
    rw [Mfs.getPath_append w, h2]
    simp only [Option.bind_some]
    unfold Ident.passes at hp
    simp only [hsel, if_true] at hp
    exact hp
  have hp : (if fa.isEmpty then some h else Mfs.getPath h fa) = Mfs.getPath h fa := by
    cases fa with
    | nil => rfl
    | cons _ _ => rfl
  unfold idArgs at hia
  rw [ha] at hia
  simp only [hp] at hia
  unfold selects at hsel
  rw [Mfs.getPath_append w] at hsel ⊢
  cases hg : Mfs.getPath h fa with
  | none => rw [hg] at hia; simp at hia
  | some cf =>
    rw [hg] at hia hsel
    simp only [Option.bind_some] at hia hsel ⊢
    obtain ⟨w', _, _⟩ := Mfs.getPath_some w hg
    split at hia
    · rename_i hn
      obtain ⟨t, rfl⟩ := w'.single hn
      have hk : Mfs.headKey [(Comp.none, t)] k = .none := by simp [Mfs.headKey, hn]
      cases hcp : Mfs.complete [(Comp.none, t)] with
      | true =>
        unfold getAny at hia
        rw [hcp] at hia
        simp only [if_true, Except.ok.injEq] at hia
        subst hia
        exact ⟨_, rfl, by simp [Mfs.getPath, hcp]⟩
      | false =>
        unfold getAny at hia
        rw [hcp] at hia
        simp only [Bool.false_eq_true, if_false] at hia
        unfold Mfs.getComp at hia
        rw [hcp] at hia
        cases t with
        | all =>
          simp [Mfs.lookup] at hia
          subst hia
          exact ⟨_, rfl, by simp [Mfs.getPath, hcp, hk, Mfs.lookup]⟩
        | node s =>
          simp [Mfs.lookup] at hia
          subst hia
          exact ⟨_, rfl, by simp [Mfs.getPath, hcp, hk, Mfs.lookup]⟩
    · rename_i hn
      simp only [Except.ok.injEq] at hia
      subst hia
      have hk : Mfs.headKey cf k = k := by simp [Mfs.headKey, hn]
      cases hg2 : Mfs.getPath cf [k] with
      | none => rw [hg2] at hsel; simp at hsel
      | some s =>
        refine ⟨s, ?_, rfl⟩
        show Mfs.getComp cf k = some s
        rw [← hg2]
        unfold Mfs.getComp Mfs.getPath
        rw [hk]
        split
        · rfl
        · cases Mfs.lookup cf k with
          | none => rfl
          | some t => cases t <;> rfl

/-- The filter selects the same in all members that are looked at. -/
theorem looked_alike (w : Mfs.WF h) (ha : o.active = some h) {fa : FS} {ia : IdArgs}
    (hia : idArgs o fa = .ok ia) (hs : selects h fa = true) {k k' : Comp} (hk : ia.looksAt fa k = true)
    (hk' : ia.looksAt fa k' = true) {r : FS} (hr : selects h (fa ++ [k] ++ r) = true) :
    selects h (fa ++ [k'] ++ r) = true := by
  obtain ⟨s, e1, e2, _⟩ := selector_passes w ha hia hs hk
  obtain ⟨s', e1', e2', _⟩ := selector_passes w ha hia hs hk'
  unfold selects at hr ⊢
  rw [Mfs.getPath_append w, e2] at hr
  rw [Mfs.getPath_append w, e2']
  simp only [Option.bind_some] at hr ⊢
  cases ia with
  | fixed sel =>
    have : s = s' := by
      cases sel with
      | none => simp [IdArgs.selector] at e1
      | some sel =>
        have h1 : sel = some s := e1
        have h2 : sel = some s' := e1'
        rw [h1] at h2
        exact Option.some.inj h2
    rw [← this]
    exact hr
  | perKey h0 cf =>
    have hh : h0 = h := by
      unfold idArgs at hia
      rw [ha] at hia
      simp only at hia
      split at hia
      · simp at hia
      · split at hia
        · split at hia <;> simp at hia
        · simp at hia
          exact hia.1.symm
    subst hh
    have hc : Mfs.containsPath h0 (fa ++ [k']) = true := hk'
    obtain ⟨w', _, hcont⟩ := Mfs.getPath_some w e2'
    have h0' := hcont []
    rw [List.append_nil, hc] at h0'
    have hcs : s' = Mfs.completeHeads := w'.complete_iff.1 h0'
    rw [hcs, Mfs.getPath_complete]
    rfl

variable (D : Setup)

/-- The identity of a member depends on what the filter selects in it. -/
theorem recordId_parts (hc : ∀ p, D.compareAs p = none) {q : FS} {s : Heads}
    (hs : ∀ nm, Ident.passes (some s) (.str nm) = true → Touches qs (q ++ [.str nm])) {u u' : Val}
    (hu : SameParts D.S qs q u u') :
    recordIdOf D none (some s) u = recordIdOf D none (some s) u' := by
  obtain ⟨c, t, t', rfl, rfl, hcl, hp⟩ := hu
  have key : ∀ n, Ident.rid D.S (some (slotHook D)) n (.cls c) (some s) (.rcd c t) =
      Ident.rid D.S (some (slotHook D)) n (.cls c) (some s) (.rcd c t') := by
    intro n
    cases n with
    | zero => rfl
    | succ n =>
      have hslot : ∀ p ∈ Ident.idProps (D.S.cls c) (some s),
          Ident.slotKey D.S (some (slotHook D)) (fun c' s w => Ident.rid D.S (some (slotHook D)) n (.cls c') s w)
            (fun k => Ident.khash D.S n k) (some s) (.rcd c t) p =
          Ident.slotKey D.S (some (slotHook D)) (fun c' s w => Ident.rid D.S (some (slotHook D)) n (.cls c') s w)
            (fun k => Ident.khash D.S n k) (some s) (.rcd c t') p := by
        intro p hpm
        have hmem : p ∈ (D.S.cls c).props ++ (D.S.cls c).pk ∧ Ident.passes (some s) (.str p.name) = true := by
          unfold Ident.idProps at hpm
          split at hpm
          · rw [List.mem_filter] at hpm
            refine ⟨List.mem_append_left _ ?_, hpm.2⟩
            have := (List.perm_insertionSort _ _).mem_iff.1 hpm.1
            exact (List.mem_filter.1 this).1
          · unfold Ident.pkCols at hpm
            split at hpm
            · rename_i hall
              exact ⟨List.mem_append_right _ hpm, List.all_eq_true.1 hall p hpm⟩
            · simp at hpm
        have hr := hp p hmem.1 (hs _ hmem.2)
        have hhook : ∀ v o', Ident.runHook (some (slotHook D)) v p o' =
            .ok ((normalizeVal D.U D.text (some v)).getD nothingVal) := by
          intro v o'
          simp [Ident.runHook, slotHook, normalizeObjectSlot, hc p]
        simp only [Ident.slotKey, hr, hhook]
      have hm : ∀ l : List IProp, (∀ p ∈ l, p ∈ Ident.idProps (D.S.cls c) (some s)) →
          mapE (Ident.slotKey D.S (some (slotHook D)) (fun c' s w => Ident.rid D.S (some (slotHook D)) n (.cls c') s w)
            (fun k => Ident.khash D.S n k) (some s) (.rcd c t)) l =
          mapE (Ident.slotKey D.S (some (slotHook D)) (fun c' s w => Ident.rid D.S (some (slotHook D)) n (.cls c') s w)
            (fun k => Ident.khash D.S n k) (some s) (.rcd c t')) l := by
        intro l
        induction l with
        | nil => intro _; rfl
        | cons p l ih =>
          intro hl
          simp only [mapE]
          rw [hslot p (hl p (by simp)), ih (fun p hp => hl p (by simp [hp]))]
      simp only [Ident.rid, hcl]
      rw [hm _ (fun p hp => hp)]
  show recordIdOf D none (some s) (.rcd c t) = recordIdOf D none (some s) (.rcd c t')
  unfold recordIdOf
  have : ∀ t, (Option.none : Option Ty).getD (Ident.typeOf (.rcd c t)) = .cls c := fun _ => rfl
  rw [this, this, key]

theorem sameFor_parts {q : FS} {u u' : Val} (h : SameParts D.S qs q u u') : SameFor D.S qs q (some u) (some u') := by
  obtain ⟨c, s, t, rfl, rfl, _, hp⟩ := h
  refine .rcd fun p hpm ht => ?_
  rw [hp p (List.mem_append_left _ hpm) ht]
  exact .refl

theorem sel_touches (hsel : ∀ p, selects h p = true ↔ Touches qs p) {fa : FS} {k : Comp} {s : Heads}
    (hs : ∀ nm, Ident.passes (some s) (.str nm) = true → selects h (fa ++ [k] ++ [.str nm]) = true) :
    ∀ nm, Ident.passes (some s) (.str nm) = true → Touches qs (fa ++ [k] ++ [.str nm]) :=
  fun nm hp => (hsel _).1 (hs nm hp)

/-- The entries of two collections that differ only outside the filter. -/
theorem bag_members (hc : ∀ p, D.compareAs p = none) (w : Mfs.WF h) (ha : o.active = some h)
    (hsel : ∀ p, selects h p = true ↔ Touches qs p) {fa : FS} {ia : IdArgs} (hia : idArgs o fa = .ok ia)
    (hfa : Touches qs fa) {v v' : Val} (hm : SameMembers D.S qs fa v v') :
    collBag D.hooks o none ia fa (some v) = collBag D.hooks o none ia fa (some v') := by
  obtain ⟨xs, xs', h1, h2, h3⟩ := hm.members
  have hs := (hsel fa).2 hfa
  have hlive := (looks_iff w ha hia hs).1
  have hf := filter_forall2 (p := fun kv : Comp × Val => ia.looksAt fa kv.1) (fun a b hab => by rw [hab.1]) h3
  have hmap : mapE (fun kv : Comp × Val => (D.hooks.recId none (ia.selector kv.1) kv.2).map (fun i => (i, kv.1)))
        (xs.filter (fun kv => ia.looksAt fa kv.1)) =
      mapE (fun kv : Comp × Val => (D.hooks.recId none (ia.selector kv.1) kv.2).map (fun i => (i, kv.1)))
        (xs'.filter (fun kv => ia.looksAt fa kv.1)) := by
    refine mapE_forall2 (fun a b hab => ?_) hf
    obtain ⟨⟨hk, hp⟩, hl⟩ := hab
    have ht := (hsel _).1 (looksAt_selects w ha hia hl hs hlive)
    obtain ⟨s, e, _, hpass⟩ := selector_passes w ha hia hs hl
    have := recordId_parts D hc (sel_touches hsel hpass) (hp ht)
    show (recordIdOf D none (ia.selector a.1) a.2).map _ = (recordIdOf D none (ia.selector b.1) b.2).map _
    rw [← hk, e, this]
  unfold collBag
  rw [h1, h2]
  simp only [hmap]

/-- A key among the entries. -/
theorem bag_key {ia : IdArgs} {fa : FS} {v : Val} {A : List (Ent (Id Ident.Key))}
    (hA : collBag D.hooks o none ia fa (some v) = .ok A) {k : Comp} (hk : k ∈ A.map (·.2)) :
    ∃ xs u, tuplesOf (some v) = .ok xs ∧ (k, u) ∈ xs ∧ ia.looksAt fa k = true := by
  obtain ⟨e, he, rfl⟩ := List.mem_map.1 hk
  obtain ⟨u, xs, h1, h2, h3, _⟩ := collBag_mem hA he
  exact ⟨xs, u, h1, h2, h3⟩

/-- The member of the other collection with the same key. -/
theorem member_same {fa : FS} {v v' : Val} (hm : SameMembers D.S qs fa v v') {xs : List (Comp × Val)} {k : Comp} {u : Val}
    (hxs : tuplesOf (some v) = .ok xs) (hk : (k, u) ∈ xs) (ht : Touches qs (fa ++ [k])) :
    ∃ u', itemAt (some v) k = .ok u ∧ itemAt (some v') k = .ok u' ∧ SameParts D.S qs (fa ++ [k]) u u' := by
  obtain ⟨ys, ys', h1, h2, h3⟩ := hm.members
  rw [hxs] at h1
  cases h1
  obtain ⟨e', he', hk', hp⟩ := forall2_mem h3 hk
  obtain ⟨k', u'⟩ := e'
  simp only at hk' hp
  subst hk'
  exact ⟨u', getItem_tuples_eq hxs hm.keys.1 hk, getItem_tuples_eq h2 hm.keys.2 he', hp ht⟩

/-- Two records of different types cannot be compared. -/
theorem clash_raises (hd : o.duckType = false) {c d : String} (hcd : c ≠ d) {s t} {q fb : FS} : ∀ n,
    diffIter D.hooks o n (some (.rcd c s)) (some (.rcd d t)) q fb = .raise (if n = 0 then .user 0 else .typeError)
  | 0 => rfl
  | n + 1 => by
    have : typeClash o (some (.rcd c s)) (some (.rcd d t)) = true := by
      simp [typeClash, hd, tagOf, hcd]
    show dispatch D.hooks o (diffIter D.hooks o n) _ _ q fb = _
    simp [dispatch, compareRecord, this]

/-- Comparing two members. -/
theorem members_rec (hc : ∀ p, D.compareAs p = none) (hd : o.duckType = false) (ha : o.active = some h)
    (hsel : ∀ p, selects h p = true ↔ Touches qs p) {q r fb : FS} {u u' w w' : Val} (n : Nat)
    (hu : SameParts D.S qs q u u') (hw : SameParts D.S qs r w w')
    (hqr : ∀ nm, Touches qs (q ++ [.str nm]) → Touches qs (r ++ [.str nm])) :
    diffIter D.hooks o n (some u) (some w) q fb = diffIter D.hooks o n (some u') (some w') q fb := by
  obtain ⟨c, s, t, rfl, rfl, _, hp⟩ := hu
  obtain ⟨d, s', t', rfl, rfl, _, hp'⟩ := hw
  by_cases hcd : c = d
  · subst hcd
    refine outside_diffIter D hc hd ha (fun p => (hsel p).1) n q fb _ _ _ _ ?_ ?_ ?_
    · refine .rcd fun p hpm ht => ?_
      rw [hp p (List.mem_append_left _ hpm) ht]
      exact .refl
    · refine .rcd fun p hpm ht => ?_
      rw [hp' p (List.mem_append_left _ hpm) (hqr _ ht)]
      exact .refl
    · intro u v hu hv
      cases hu
      cases hv
      rfl
  · rw [clash_raises D hd hcd, clash_raises D hd hcd]

theorem common_keys {J : Type} [DecidableEq J] {A B : List (Ent J)} {k : Comp × Comp} (hk : k ∈ common A B) :
    k.1 ∈ A.map (·.2) ∧ k.2 ∈ B.map (·.2) := by
  obtain ⟨i, h1, h2⟩ := mem_common.1 hk
  exact ⟨List.mem_map.2 ⟨_, h1, rfl⟩, List.mem_map.2 ⟨_, alookup_mem h2, rfl⟩⟩

theorem minus_keys {J : Type} [DecidableEq J] {A B : List (Ent J)} {e : Ent J} (he : e ∈ minus A B) :
    e.2 ∈ A.map (·.2) := List.mem_map.2 ⟨e, (mem_minus.1 he).1, rfl⟩

theorem fuzzyPair_congr {E : Type} {rec : Rec} {a b a' b' : Option Val} {fa fb : FS} {p : Ent (Id E) × Ent (Id E)}
    (h : descend rec a b fa fb (p.1.2, p.2.2) = descend rec a' b' fa fb (p.1.2, p.2.2)) :
    fuzzyPair o rec a b fa fb p = fuzzyPair o rec a' b' fa fb p := by
  unfold fuzzyPair
  rw [h]

theorem ids_congr {rec : Rec} {a b a' b' : Option Val} {fa fb : FS} {A B : List (Ent (Id Ident.Key))}
    (ho : OrdOK D.hooks)
    (hdesc : ∀ ka ∈ A.map (·.2), ∀ kb ∈ B.map (·.2),
      descend rec a b fa fb (ka, kb) = descend rec a' b' fa fb (ka, kb)) :
    compareIds D.hooks o rec a b fa fb A B = compareIds D.hooks o rec a' b' fa fb A B := by
  unfold compareIds
  have h1 : forEach (descend rec a b fa fb) (D.hooks.ord _ (common A B)) =
      forEach (descend rec a' b' fa fb) (D.hooks.ord _ (common A B)) := by
    refine forEach_congr fun k hk => ?_
    obtain ⟨g1, g2⟩ := common_keys (ho.mem.1 hk)
    exact hdesc _ g1 _ g2
  rw [h1]
  congr 1
  cases hp : pairsOf D.hooks o A B with
  | error e => rfl
  | ok ps =>
    simp only [bindE_ok]
    have h2 : forEach (fuzzyPair o rec a b fa fb) ps = forEach (fuzzyPair o rec a' b' fa fb) ps := by
      refine forEach_congr fun p hpm => ?_
      obtain ⟨g1, g2⟩ := pairs_mem hp hpm
      exact fuzzyPair_congr (hdesc _ (minus_keys g1) _ (minus_keys g2))
    rw [h2]

theorem keys_congr {rec : Rec} {a b a' b' : Option Val} {fa fb : FS} {A B : List (Ent (Id Ident.Key))}
    (ho : OrdOK D.hooks) (ha : a.isSome = a'.isSome) (hb : b.isSome = b'.isSome)
    (hdesc : ∀ ka ∈ A.map (·.2), ∀ kb ∈ B.map (·.2),
      descend rec a b fa fb (ka, kb) = descend rec a' b' fa fb (ka, kb)) :
    compareKeys D.hooks rec a b fa fb A B = compareKeys D.hooks rec a' b' fa fb A B := by
  unfold compareKeys
  rw [ha, hb]
  congr 2
  refine forEach_congr fun k hk => ?_
  have hk' := List.mem_filter.1 (ho.mem.1 hk)
  have := hdesc k (List.mem_dedup.1 hk'.1) k (by simpa using hk'.2)
  unfold descend at this
  rw [this]

/-- Comparing two collections that differ only outside the filter. -/
theorem outside_coll (hc : ∀ p, D.compareAs p = none) (hd : o.duckType = false) (ho : OrdOK D.hooks) (w : Mfs.WF h)
    (ha : o.active = some h) (hsel : ∀ p, selects h p = true ↔ Touches qs p) {fa fb : FS} (hfa : Touches qs fa)
    {v u v' u' : Val} {n : Nat} {ty : Ty} (hv : SameMembers D.S qs fa v v') (hu : SameMembers D.S qs fa u u') :
    compareRecords D.hooks o (diffIter D.hooks o n) ty (some v) (some u) fa fb =
      compareRecords D.hooks o (diffIter D.hooks o n) ty (some v') (some u') fa fb := by
  unfold compareRecords
  cases hia : idArgs o fa with
  | error e => rfl
  | ok ia =>
    simp only [bindE_ok, idType_none hd]
    rw [bag_members D hc w ha hsel hia hfa hv, bag_members D hc w ha hsel hia hfa hu]
    cases hA : collBag D.hooks o none ia fa (some v') with
    | error e => rfl
    | ok A =>
      cases hB : collBag D.hooks o none ia fa (some u') with
      | error e => rfl
      | ok B =>
        simp only [bindE_ok]
        have hs := (hsel fa).2 hfa
        have hlive := (looks_iff w ha hia hs).1
        have hdesc : ∀ ka ∈ A.map (·.2), ∀ kb ∈ B.map (·.2),
            descend (diffIter D.hooks o n) (some v) (some u) fa fb (ka, kb) =
              descend (diffIter D.hooks o n) (some v') (some u') fa fb (ka, kb) := by
          intro ka hka kb hkb
          have hA' := bag_members D hc w ha hsel hia hfa hv
          rw [hA] at hA'
          have hB' := bag_members D hc w ha hsel hia hfa hu
          rw [hB] at hB'
          obtain ⟨xs, m, g1, g2, g3⟩ := bag_key D hA' hka
          obtain ⟨ys, m', f1, f2, f3⟩ := bag_key D hB' hkb
          have t1 := (hsel _).1 (looksAt_selects w ha hia g3 hs hlive)
          have t2 := (hsel _).1 (looksAt_selects w ha hia f3 hs hlive)
          obtain ⟨z, i1, i2, i3⟩ := member_same D hv g1 g2 t1
          obtain ⟨z', j1, j2, j3⟩ := member_same D hu f1 f2 t2
          simp only [descend, i1, i2, j1, j2, bindE_ok]
          refine members_rec D hc hd ha hsel n i3 j3 (fun nm ht => ?_)
          rw [← hsel] at ht ⊢
          exact looked_alike w ha hia hs g3 f3 ht
        congr 1
        unfold compareMembers
        simp only [Option.isNone_some, Bool.or_false, Bool.false_eq_true, if_false]
        rw [ids_congr D ho hdesc, keys_congr D ho (by rfl) (by rfl) hdesc]

theorem same_tag_cls {v v' : Val} (h : tagOf v = tagOf v') : clsOf v = clsOf v' := by
  cases v <;> cases v' <;> simp_all [tagOf, clsOf]

/-- The properties of collections (none are read). -/
theorem outside_coll_record (hc : ∀ p, D.compareAs p = none) {rec : Rec} {v u v' u' : Val} {fa fb : FS}
    (hv : ∀ c s, v ≠ .rcd c s) (hv' : ∀ c s, v' ≠ .rcd c s) (hu : ∀ c s, u ≠ .rcd c s) (hu' : ∀ c s, u' ≠ .rcd c s)
    (t1 : tagOf v = tagOf v') (t2 : tagOf u = tagOf u') :
    compareRecord D.hooks o rec (some v) (some u) fa fb = compareRecord D.hooks o rec (some v') (some u') fa fb := by
  have hcl : propsOf D.hooks (some v) (some u) = propsOf D.hooks (some v') (some u') := by
    simp [propsOf, same_tag_cls t1]
  have hty : typeClash o (some v) (some u) = typeClash o (some v') (some u') := by
    simp [typeClash, t1, t2]
  have hnorm : ∀ p obj, D.hooks.normSlot none p obj = .ok none := by
    intro p obj
    rfl
  unfold compareRecord
  rw [hcl, hty]
  split
  · rfl
  · refine forEach_congr fun p _ => ?_
    unfold compareProp
    rw [readSlot_coll hv, readSlot_coll hv', readSlot_coll hu, readSlot_coll hu']
    simp only [hnorm]

theorem not_rcd_members {fa : FS} {v v' : Val} (hm : SameMembers D.S qs fa v v') :
    (∀ c s, v ≠ .rcd c s) ∧ ∀ c s, v' ≠ .rcd c s := by
  obtain ⟨xs, xs', h1, h2, _⟩ := hm.members
  constructor
  · rintro c s rfl
    simp [tuplesOf] at h1
  · rintro c s rfl
    simp [tuplesOf] at h2

/-- The result depends only on what the filter touches. -/
theorem outside_pairs (hc : ∀ p, D.compareAs p = none) (hd : o.duckType = false) (ho : OrdOK D.hooks) (w : Mfs.WF h)
    (ha : o.active = some h) (hsel : ∀ p, selects h p = true ↔ Touches qs p) (n : Nat) :
    ∀ q fb a b a' b', Touches qs q → SamePair D.S qs q a b a' b' →
      (∀ u v, a = some u → b = some v → tagOf u = tagOf v) →
      diffIter D.hooks o n a b q fb = diffIter D.hooks o n a' b' q fb := by
  induction n with
  | zero => intros; rfl
  | succ n ih =>
    intro q fb a b a' b' hq hp ht
    cases hp with
    | each h1 h2 => exact outside_diffIter D hc hd ha (fun p => (hsel p).1) (n + 1) q fb _ _ _ _ h1 h2 ht
    | @coll _ v u v' u' c kd m hcl hcoll htag h1 h2 =>
      have n1 := not_rcd_members D h1
      have n2 := not_rcd_members D h2
      have e1 : compareColl D.hooks o (diffIter D.hooks o n) c (some v) (some u) q fb =
          compareColl D.hooks o (diffIter D.hooks o n) c (some v') (some u') q fb := by
        unfold compareColl
        have : (D.hooks.S.cls c).coll = some (kd, .one (.cls m)) := hcoll
        rw [this]
        exact outside_coll D hc hd ho w ha hsel hq h1 h2
      have e2 : compareRecord D.hooks o (diffIter D.hooks o n) (some v) (some u) q fb =
          compareRecord D.hooks o (diffIter D.hooks o n) (some v') (some u') q fb :=
        outside_coll_record D hc n1.1 n1.2 n2.1 n2.2 h1.tag h2.tag
      have hd1 : ∀ x y, clsOf x = some c → (∀ c s, x ≠ .rcd c s) →
          diffIter D.hooks o (n + 1) (some x) (some y) q fb =
            compareColl D.hooks o (diffIter D.hooks o n) c (some x) (some y) q fb ++
              compareRecord D.hooks o (diffIter D.hooks o n) (some x) (some y) q fb := by
        intro x y hx hnr
        cases x with
        | rcd c s => exact absurd rfl (hnr c s)
        | lcoll d xs => simp [clsOf] at hx; subst hx; rfl
        | dcoll d xs => simp [clsOf] at hx; subst hx; rfl
        | _ => simp [clsOf] at hx
      rw [hd1 v u hcl n1.1, hd1 v' u' (by rw [← same_tag_cls h1.tag]; exact hcl) n1.2, e1, e2]
    | @rcd _ c s t s' t' hp =>
      show compareRecord D.hooks o (diffIter D.hooks o n) (some (.rcd c s)) (some (.rcd c t)) q fb =
        compareRecord D.hooks o (diffIter D.hooks o n) (some (.rcd c s')) (some (.rcd c t')) q fb
      unfold compareRecord
      have hcl : ∀ s t, typeClash o (some (.rcd c s)) (some (.rcd c t)) = false := fun s t => by
        simp [typeClash, tagOf]
      rw [hcl, hcl]
      simp only [Bool.false_eq_true, if_false]
      have hpr : propsOf D.hooks (some (.rcd c s)) (some (.rcd c t)) =
          propsOf D.hooks (some (.rcd c s')) (some (.rcd c t')) := rfl
      rw [← hpr]
      refine forEach_congr fun p hpm => ?_
      have hpm : p ∈ (D.S.cls c).props := (mem_propsOf (H := D.hooks) rfl).1 hpm
      unfold compareProp
      cases hf : isFiltered o p (q ++ [.str p.name]) with
      | true => rfl
      | false =>
        have htp : Touches qs (q ++ [.str p.name]) := by
          rw [← hsel]
          unfold isFiltered at hf
          rw [ha] at hf
          simp at hf
          exact hf.2
        have hnorm : ∀ v obj, D.hooks.normSlot v p obj = .ok (normalizeVal D.U D.text v) := by
          intro v obj
          cases v with
          | none => rfl
          | some v =>
            show normalizeObjectSlot D (some v) p obj = _
            simp [normalizeObjectSlot, hc p]
        simp only [hnorm, Gen.bindE]
        have hrec := ih (q ++ [.str p.name]) (fb ++ [.str p.name])
        show when (!false) (compareVals D.hooks o (diffIter D.hooks o n)
            (normalizeVal D.U D.text (readAttr D.S (.rcd c s) p.name))
            (normalizeVal D.U D.text (readAttr D.S (.rcd c t) p.name)) _ _) =
          when (!false) (compareVals D.hooks o (diffIter D.hooks o n)
            (normalizeVal D.U D.text (readAttr D.S (.rcd c s') p.name))
            (normalizeVal D.U D.text (readAttr D.S (.rcd c t') p.name)) _ _)
        have hpp := hp p hpm htp
        generalize readAttr D.S (.rcd c s) p.name = va at hpp
        generalize readAttr D.S (.rcd c t) p.name = vb at hpp
        generalize readAttr D.S (.rcd c s') p.name = va' at hpp
        generalize readAttr D.S (.rcd c t') p.name = vb' at hpp
        congr 1
        have hkeep : ∀ x : Val, clsOf x ≠ none → normalizeVal D.U D.text (some x) = some x := by
          intro x hx
          cases x with
          | rcd => simp [normalizeVal, scrub, valueIsEmpty]
          | lcoll => simp [normalizeVal, scrub, valueIsEmpty]
          | dcoll => simp [normalizeVal, scrub, valueIsEmpty]
          | _ => simp [clsOf] at hx
        have hvals : ∀ x y, clsOf x ≠ none → tagOf x = tagOf y →
            compareVals D.hooks o (diffIter D.hooks o n) (some x) (some y) (q ++ [.str p.name]) (fb ++ [.str p.name]) =
              diffIter D.hooks o n (some x) (some y) (q ++ [.str p.name]) (fb ++ [.str p.name]) := by
          intro x y hx hxy
          simp [compareVals, comparable_cls hx, hxy]
        cases hpp with
        | each h1 h2 =>
          exact outside_vals D hd (fun a a' b b' g1 g2 g3 => hrec a b a' b' htp (.each g1 g2) g3)
            (same_norm D h1) (same_norm D h2)
        | @rcd _ c s t s' t' hp =>
          rw [hkeep _ (by simp [clsOf]), hkeep _ (by simp [clsOf]), hkeep _ (by simp [clsOf]), hkeep _ (by simp [clsOf]),
            hvals (.rcd c s) (.rcd c t) (by simp [clsOf]) (by simp [tagOf]),
            hvals (.rcd c s') (.rcd c t') (by simp [clsOf]) (by simp [tagOf])]
          exact hrec _ _ _ _ htp (.rcd hp) (by intro u v hu hv; cases hu; cases hv; rfl)
        | @coll _ v u v' u' c kd m hcl hcoll htag h1 h2 =>
          have g1 : clsOf v ≠ none := by rw [hcl]; simp
          have g2 : clsOf u ≠ none := by rw [← same_tag_cls htag, hcl]; simp
          have g3 : clsOf v' ≠ none := by rw [← same_tag_cls h1.tag, hcl]; simp
          have g4 : clsOf u' ≠ none := by rw [← same_tag_cls h2.tag, ← same_tag_cls htag, hcl]; simp
          rw [hkeep _ g1, hkeep _ g2, hkeep _ g3, hkeep _ g4, hvals _ _ g1 htag,
            hvals _ _ g3 (by rw [← h1.tag, htag, h2.tag])]
          exact hrec _ _ _ _ htp (.coll hcl hcoll htag h1 h2) (by intro u v hu hv; cases hu; cases hv; exact htag)

end Normalize.Diff
