import Verif.Spec.DiffCopy
import Verif.Spec.DiffEqual
import Verif.Lemmas.DiffSelf
import Verif.Lemmas.MfsGet2
import Verif.Props.DiffFilter
import Verif.Props.DiffNone

/-!
# C119: comparing an object with a copy of its selected parts
-/

namespace Normalize.Diff
open Ident (IProp ICls Ty ItemTy CollKind Schema readAttr AtomLaws veq)
open Spec
open Gen

variable {S : Schema} {o : Opts}

/-- C119: comparing an object with the copy of its selected parts that `MultiFieldSelector.get` makes, with the same
selectors as filter, finds nothing. -/
def C119_statement : Prop :=
  ∀ (D : Setup) (o : Opts) (ord : List MArg → List MArg) (h : Heads) (qs : List FS) (C : Ctors) (E : Env)
    (blank : String → String → Option Val) (n : Nat) (x y : Val), (∀ p, D.compareAs p = none) → OrdOK D.hooks →
    AtomLaws D.S → Mfs.OrdOK ord → Built ord h qs → qs ≠ [] → Builds C E D.S blank → o.duckType = false →
    o.compareFilter = some h → Real D.S x → Mfs.get C E h x = .ok y →
    ∀ d ∈ (diff D.hooks o n x y).out, d.kind = .noChange

/-- C119 where the selectors are made of names and wildcards. -/
def C119_wild_statement : Prop :=
  ∀ (D : Setup) (o : Opts) (ord : List MArg → List MArg) (h : Heads) (qs : List FS) (C : Ctors) (E : Env)
    (blank : String → String → Option Val) (n : Nat) (x y : Val), (∀ p, D.compareAs p = none) → OrdOK D.hooks →
    AtomLaws D.S → Mfs.OrdOK ord → Built ord h qs → qs ≠ [] → (∀ q ∈ qs, ∀ i : Int, Comp.int i ∉ q) →
    Builds C E D.S blank → o.duckType = false → o.compareFilter = some h → Real D.S x → Mfs.get C E h x = .ok y →
    ∀ d ∈ (diff D.hooks o n x y).out, d.kind = .noChange

/-- The two objects agree as far as the selectors go. -/
inductive SameIn (S : Schema) : MTree → Val → Val → Prop
  | same {t x} : SameIn S t x x
  | rcd {h c s s'} : Mfs.hasNone h = false →
      (∀ nm t, (Comp.str nm, t) ∈ h →
        (readAttr S (.rcd c s) nm).isSome = (readAttr S (.rcd c s') nm).isSome) →
      (∀ nm t v w, (Comp.str nm, t) ∈ h → readAttr S (.rcd c s) nm = some v → readAttr S (.rcd c s') nm = some w →
        SameIn S t v w) →
      SameIn S (.node h) (.rcd c s) (.rcd c s')
  | lcoll {t c n kd xs ys} : (S.cls c).coll = some (kd, .one (.cls n)) → (∀ v ∈ xs, GoodItem S t v) →
      xs.length = ys.length → (∀ (i : Nat) u w, xs[i]? = some u → ys[i]? = some w → SameIn S t u w) →
      SameIn S (.node [(.none, t)]) (.lcoll c xs) (.lcoll c ys)
  | dcoll {t c n kd xs ys} : (S.cls c).coll = some (kd, .one (.cls n)) → (∀ e ∈ xs, GoodItem S t e.2) →
      xs.map (·.1) = ys.map (·.1) →
      (∀ (i : Nat) k u k' w, xs[i]? = some (k, u) → ys[i]? = some (k', w) → SameIn S t u w) →
      SameIn S (.node [(.none, t)]) (.dcoll c xs) (.dcoll c ys)

theorem SameIn.eq_all {x y : Val} (h : SameIn S .all x y) : x = y := by cases h; rfl

/-! ## The copy agrees with the object -/

theorem forall2_eq {α : Type} {xs ys : List α} (h : List.Forall₂ (fun a b => a = b) xs ys) : xs = ys := by
  induction h with
  | nil => rfl
  | cons h _ ih => rw [h, ih]

theorem mapE_ok_id {α ε : Type} {l r : List α} (h : mapE (fun a => (Except.ok a : Except ε α)) l = .ok r) : r = l := by
  rw [Mfs.mapE_id (fun _ _ => rfl)] at h
  simpa using h.symm

theorem sameIn_of_get {C : Ctors} {E : Env} {blank : String → String → Option Val} (hB : Builds C E S blank) {t : MTree}
    {x : Val} (hf : CopyFits E S blank t x) : ∀ {y}, (∀ h, t = .node h → Mfs.WF h) → Mfs.getT C E t x = .ok y →
      SameIn S t x y := by
  induction hf with
  | all =>
    intro y _ hg
    simp only [Mfs.getT, Except.ok.injEq] at hg
    subst hg
    exact .same
  | @whole x hk =>
    intro y _ hg
    suffices y = x by subst this; exact .same
    simp only [Mfs.getT] at hg
    cases x with
    | atom a => simpa [Mfs.getWith, Mfs.completeHeads, Mfs.hasInt, Mfs.hasNone, Mfs.complete, Mfs.lookup] using hg.symm
    | rcd c s => simpa [Mfs.getWith, Mfs.completeHeads, Mfs.hasInt, Mfs.hasNone, Mfs.complete, Mfs.lookup] using hg.symm
    | list xs =>
      simp only [Mfs.getWith, Mfs.completeHeads, Mfs.hasString, List.any_cons, List.any_nil, Bool.or_false,
        Bool.false_eq_true, if_false, Mfs.listVals, Mfs.getters, alookup, if_true] at hg
      rw [Mfs.mapE_id (fun a _ => by simp only [Mfs.getT])] at hg
      simpa using hg.symm
    | lcoll c xs =>
      simp only [Mfs.getWith, Mfs.completeHeads, Mfs.hasString, List.any_cons, List.any_nil, Bool.or_false,
        Bool.false_eq_true, if_false, Mfs.listVals, Mfs.getters, alookup, if_true] at hg
      rw [Mfs.mapE_id (fun a _ => by simp only [Mfs.getT])] at hg
      simp only [Mfs.mapE_id hk] at hg
      simpa using hg.symm
    | dict xs =>
      simp only [Mfs.getWith, Mfs.completeHeads, Mfs.dictVals, Mfs.getters, alookup, if_true] at hg
      rw [Mfs.mapE_id (fun a _ => by simp [Mfs.getT, Mfs.pairE])] at hg
      simpa using hg.symm
    | dcoll c xs =>
      simp only [Mfs.getWith, Mfs.completeHeads, Mfs.dictVals, Mfs.getters, alookup, if_true] at hg
      rw [Mfs.mapE_id (fun a ha => by simp [Mfs.getT, Mfs.pairE, Mfs.thenCoerce, hk a ha])] at hg
      simpa using hg.symm
  | @rcd h c s hsub hblank ih =>
    intro y hw hg
    have w := hw h rfl
    simp only [Mfs.getT, Mfs.getWith] at hg
    split at hg
    · simp at hg
    rename_i hint
    split at hg
    · simp at hg
      subst hg
      exact .same
    rename_i hnn
    split at hg
    · simp at hg
    rename_i kw hkw
    simp only [Mfs.construct] at hg
    obtain ⟨sl, rfl, hr⟩ := hB.rcd _ _ _ hg
    have hnd : ((Mfs.getters C E h).map (·.1)).Nodup := by
      rw [Mfs.getters_eq, List.map_map]
      exact w.nodup
    have hat : ∀ nm t, (Comp.str nm, t) ∈ h →
        (∃ v w, readAttr S (.rcd c s) nm = some v ∧ readAttr S (.rcd c sl) nm = some w ∧ v ≠ .none ∧
          Mfs.getT C E t v = .ok w) ∨ readAttr S (.rcd c s) nm = readAttr S (.rcd c sl) nm := by
      intro nm t hm
      have hl := Mfs.kwVals_lookup hkw hnd nm
      rw [Mfs.alookup_getters, Mfs.lookup_of_mem w.nodup hm] at hl
      simp only [Option.map_some] at hl
      cases hv : readAttr S (.rcd c s) nm with
      | none =>
        rw [hB.unset _ _ _ hv] at hl
        right
        rw [hr, hl, ← hblank nm t hm (.inl hv), hv]
        rfl
      | some v =>
        rw [hB.reads _ _ _ _ hv] at hl
        simp only at hl
        split at hl
        · rename_i hvn
          right
          rw [hr, hl, ← hblank nm t hm (.inr (by rw [hv, hvn])), hv]
          rfl
        · rename_i hvn
          obtain ⟨w, hg', hk⟩ := hl
          exact .inl ⟨v, w, rfl, by rw [hr, hk]; rfl, hvn, hg'⟩
    refine .rcd (by simpa using hnn) ?_ ?_
    · intro nm t hm
      rcases hat nm t hm with ⟨v, w, h1, h2, _, _⟩ | h'
      · rw [h1, h2]; rfl
      · rw [h']
    · intro nm t v' w' hm h1 h2
      rcases hat nm t hm with ⟨v, w', h1', h2', hne, hg'⟩ | h'
      · rw [h1] at h1'
        rw [h2] at h2'
        simp only [Option.some.injEq] at h1' h2'
        subst h1' h2'
        refine ih nm t v' hm h1 hne ?_ hg'
        rintro h' rfl
        exact w.sub _ _ hm
      · rw [h1, h2] at h'
        simp only [Option.some.injEq] at h'
        subst h'
        exact .same
  | @lcoll t c n kd xs hc hk hgood hsub ih =>
    intro y hw hg
    have w := hw _ rfl
    simp only [Mfs.getT, Mfs.getWith, Mfs.hasString, List.any_cons, List.any_nil, Bool.or_false,
        Bool.false_eq_true, if_false, Mfs.listVals, Mfs.getters, alookup, if_true] at hg
    split at hg
    · simp at hg
    rename_i vs hvs
    have hall := Mfs.mapE_eq_forall2 hvs
    have hsame : ∀ (i : Nat) u w, xs[i]? = some u → vs[i]? = some w → SameIn S t u w := by
      intro i u w' hu hw'
      have hi : i < xs.length := (List.getElem?_eq_some_iff.1 hu).1
      have h2 := hall.get hi (by rw [← hall.length_eq]; exact hi)
      simp only [List.get_eq_getElem] at h2
      rw [(List.getElem?_eq_some_iff.1 hu).2, (List.getElem?_eq_some_iff.1 hw').2] at h2
      refine ih u (List.mem_of_getElem? hu) ?_ h2
      rintro h' rfl
      exact w.sub .none h' (by simp)
    have hinter : ∀ u ∈ xs, ∀ w, SameIn S t u w → Interch E u w := by
      intro u hu w' h'
      obtain ⟨c', s, rfl, _⟩ := hgood u hu
      cases h' with
      | same => exact fun _ h => h
      | rcd => exact hB.isaRcd _ _ _
    have hco : mapE (E.coerceItem c) vs = .ok vs := by
      refine Mfs.mapE_id fun v hv => ?_
      obtain ⟨i, hi, rfl⟩ := List.getElem_of_mem hv
      have hi' : i < xs.length := by rw [hall.length_eq]; exact hi
      have hu : xs[i]? = some xs[i] := List.getElem?_eq_getElem hi'
      have hm := List.mem_of_getElem? hu
      exact hinter _ hm _ (hsame i _ _ hu (List.getElem?_eq_getElem hi)) c (hk _ hm)
    rw [hco] at hg
    simp only [Except.ok.injEq] at hg
    subst hg
    exact .lcoll hc hgood hall.length_eq hsame
  | @dcoll t c n kd xs hc hk hgood hsub ih =>
    intro y hw hg
    have w := hw _ rfl
    simp only [Mfs.getT, Mfs.getWith, Mfs.dictVals, Mfs.getters, alookup, if_true] at hg
    split at hg
    · simp at hg
    rename_i vs hvs
    simp only [Except.ok.injEq] at hg
    subst hg
    have hall := Mfs.mapE_eq_forall2 hvs
    have hinter : ∀ u, (∃ c s, u = Val.rcd c s) → ∀ w, SameIn S t u w → Interch E u w := by
      rintro u ⟨c', s, rfl⟩ w' h'
      cases h' with
      | same => exact fun _ h => h
      | rcd => exact hB.isaRcd _ _ _
    have hone : ∀ a ∈ xs, ∀ b, Mfs.pairE a.1 (Mfs.thenCoerce E c (Mfs.getT C E t a.2)) = .ok b →
        a.1 = b.1 ∧ SameIn S t a.2 b.2 := by
      intro a ha b hb
      unfold Mfs.pairE Mfs.thenCoerce at hb
      cases hg' : Mfs.getT C E t a.2 with
      | error e => rw [hg'] at hb; simp at hb
      | ok v =>
        rw [hg'] at hb
        simp only at hb
        have hs : SameIn S t a.2 v := ih a ha (by rintro h' rfl; exact w.sub .none h' (by simp)) hg'
        obtain ⟨c', s, hu, _⟩ := hgood a ha
        rw [hinter _ ⟨c', s, hu⟩ _ hs c (hk a ha)] at hb
        simp only [Except.ok.injEq] at hb
        subst hb
        exact ⟨rfl, hs⟩
    have hall' : List.Forall₂ (fun (a b : Comp × Val) => a.1 = b.1 ∧ SameIn S t a.2 b.2) xs vs := by
      clear hvs hinter ih hk hsub hgood
      induction hall with
      | nil => exact .nil
      | cons h _ ih' => exact .cons (hone _ (by simp) _ h) (ih' fun a ha => hone a (by simp [ha]))
    refine .dcoll hc hgood ?_ ?_
    · clear hone hall hvs hinter ih hk hsub hgood
      induction hall' with
      | nil => rfl
      | cons h _ ih' => simp [h.1, ih']
    · intro i k u k' w' hu hw'
      have hi : i < xs.length := (List.getElem?_eq_some_iff.1 hu).1
      have h2 := hall'.get hi (by rw [← hall'.length_eq]; exact hi)
      simp only [List.get_eq_getElem] at h2
      rw [(List.getElem?_eq_some_iff.1 hu).2, (List.getElem?_eq_some_iff.1 hw').2] at h2
      exact h2.2

/-! ## Identities -/

theorem slotHook_eq (D : Setup) (hc : Spec.ComparePure D) (v : Val) (p : IProp) (x y : Val) :
    slotHook D v p x = slotHook D v p y := by
  cases hf : D.compareAs p with
  | none => simp only [slotHook, normalizeObjectSlot, hf]
  | some f =>
    obtain ⟨g, hg, _⟩ := hc p f hf
    simp only [slotHook, normalizeObjectSlot, hf, hg]

theorem passes_iff {h : Heads} (w : Mfs.WF h) (hne : h ≠ []) (hn : Mfs.hasNone h = false) {nm : String} :
    Ident.passes (some h) (.str nm) = true ↔ PicksIn h nm := by
  have h1 : Mfs.nonEmpty h = true := by cases h with | nil => exact absurd rfl hne | cons _ _ => rfl
  have hcomp : Mfs.complete h = false := by simp [Mfs.complete, hn]
  unfold Ident.passes
  simp only [h1, if_true]
  simp only [Mfs.getPath, hcomp, Bool.false_eq_true, if_false, Mfs.headKey, hn]
  constructor
  · intro hp
    cases hl : Mfs.lookup h (.str nm) with
    | none => rw [hl] at hp; simp at hp
    | some t => exact ⟨t, Mfs.lookup_mem hl⟩
  · rintro ⟨t, hm⟩
    rw [Mfs.lookup_of_mem w.nodup hm]
    cases t with
    | all => rfl
    | node s =>
      have := w.nonempty _ _ hm
      cases s with
      | nil => exact absurd rfl this
      | cons _ _ => rfl

theorem identifying_of_idProps {c : String} {h : Heads} (w : Mfs.WF h) (hne : h ≠ []) (hn : Mfs.hasNone h = false)
    {p : IProp} (hp : p ∈ Ident.idProps (S.cls c) (some h)) : Identifying S c h p ∧ PicksIn h p.name := by
  unfold Ident.idProps Ident.pkCols at hp
  by_cases hall : ((S.cls c).pk.all fun p => Ident.passes (some h) (.str p.name)) = true
  · simp only [hall, if_true] at hp
    have hpk : ∀ q ∈ (S.cls c).pk, PicksIn h q.name := by
      intro q hq
      exact (passes_iff w hne hn).1 (List.all_eq_true.1 hall q hq)
    split at hp
    · rename_i he
      rw [List.mem_filter] at hp
      have hpp := (passes_iff w hne hn).1 hp.2
      have hs := hp.1
      simp only [Ident.sortedProps, List.mem_insertionSort, List.mem_filter] at hs
      exact ⟨.inr ⟨.inl (by simpa using he), hs.1, by simpa using hs.2, hpp⟩, hpp⟩
    · exact ⟨.inl ⟨hpk, hp⟩, hpk p hp⟩
  · simp only [hall, Bool.false_eq_true, if_false, List.isEmpty_nil, if_true] at hp
    rw [List.mem_filter] at hp
    have hpp := (passes_iff w hne hn).1 hp.2
    have hs := hp.1
    simp only [Ident.sortedProps, List.mem_insertionSort, List.mem_filter] at hs
    refine ⟨.inr ⟨.inr ?_, hs.1, by simpa using hs.2, hpp⟩, hpp⟩
    simp only [List.all_eq_true, not_forall] at hall
    obtain ⟨q, hq, hf⟩ := hall
    exact ⟨q, hq, fun hc => hf ((passes_iff w hne hn).2 hc)⟩

theorem recId_same (D : Setup) (hc : Spec.ComparePure D) {h : Heads} (w : Mfs.WF h) (hne : h ≠ []) {u v : Val}
    (hs : SameIn D.S (.node h) u v) (hg : GoodItem D.S (.node h) u) :
    D.hooks.recId none (some h) u = D.hooks.recId none (some h) v := by
  obtain ⟨c, s, rfl, hg⟩ := hg
  generalize hx : Val.rcd c s = x at hs
  generalize hmt : MTree.node h = t at hs
  cases hs with
  | same => rfl
  | @rcd h2 c2 s2 s2' hn hset hsub =>
    obtain ⟨rfl, rfl⟩ := Val.rcd.inj hx
    cases hmt
    have hrid : ∀ n, Ident.rid D.S (some (slotHook D)) n (.cls c) (some h) (.rcd c s) =
        Ident.rid D.S (some (slotHook D)) n (.cls c) (some h) (.rcd c s2') := by
      intro n
      cases n with
      | zero => simp only [Ident.rid]
      | succ n =>
        have hmap : mapE (Ident.slotKey D.S (some (slotHook D)) (fun c' s w => Ident.rid D.S (some (slotHook D)) n (.cls c') s w)
              (fun k => Ident.khash D.S n k) (some h) (.rcd c s)) (Ident.idProps (D.S.cls c) (some h)) =
            mapE (Ident.slotKey D.S (some (slotHook D)) (fun c' s w => Ident.rid D.S (some (slotHook D)) n (.cls c') s w)
              (fun k => Ident.khash D.S n k) (some h) (.rcd c s2')) (Ident.idProps (D.S.cls c) (some h)) := by
          refine mapE_congr fun p hp => ?_
          obtain ⟨hid, t, hm⟩ := identifying_of_idProps w hne hn hp
          have ht := hg h rfl p hid t hm
          subst ht
          have hr : readAttr D.S (.rcd c s) p.name = readAttr D.S (.rcd c s2') p.name := by
            have h1 := hset _ _ hm
            cases h2 : readAttr D.S (.rcd c s) p.name with
            | none =>
              rw [h2] at h1
              cases h3 : readAttr D.S (.rcd c s2') p.name with
              | none => rfl
              | some v => rw [h3] at h1; simp at h1
            | some v =>
              rw [h2] at h1
              cases h3 : readAttr D.S (.rcd c s2') p.name with
              | none => rw [h3] at h1; simp at h1
              | some v' => rw [(hsub _ _ _ _ hm h2 h3).eq_all]
          simp only [Ident.slotKey, Ident.runHook, hr]
          rw [slotHook_eq D hc _ p (.rcd c s) (.rcd c s2'), slotHook_eq D hc .none p (.rcd c s) (.rcd c s2')]
        simp only [Ident.rid, hmap]
        have hcol : ∀ k, Ident.collTuples D.S k (.rcd c s) = Ident.collTuples D.S k (.rcd c s2') := by
          intro k; cases k <;> rfl
        simp only [hcol]
    show recordIdOf D none (some h) (.rcd c s) = recordIdOf D none (some h) (.rcd c s2')
    unfold recordIdOf
    simp only [Option.getD_none, Ident.typeOf, hrid]
  | lcoll => simp at hx
  | dcoll => simp at hx

/-! ## The comparison -/

theorem mapE_pair {α β ε : Type} {f : α → Except ε β} {l r : List α} (h : List.Forall₂ (fun a b => f a = f b) l r) :
    mapE f l = mapE f r := by
  induction h with
  | nil => rfl
  | cons h _ ih => simp [mapE, h, ih]

theorem quiet_members_two {E F : Type} [DecidableEq E] [DecidableEq F] {H : Hooks E F} (ho : OrdOK H) {rec : Rec}
    {x y : Val} {fa fb : FS} {A : List (Ent (Id E))} (hn : (A.map (·.1)).Nodup)
    (hr : ∀ k u w, itemAt (some x) k = .ok u → itemAt (some y) k = .ok w →
      Quiet (rec (some u) (some w) (fa ++ [k]) (fb ++ [k]))) :
    Quiet (compareMembers H o rec (some x) (some y) fa fb A A) := by
  unfold compareMembers
  split
  · unfold compareKeys
    have h0 : (A.map (·.2)).dedup.filter (fun k => !decide (k ∈ A.map (·.2))) = [] := by
      rw [List.filter_eq_nil_iff]
      intro k hk
      rw [List.mem_dedup] at hk
      simp [hk]
    rw [h0, ho.nil]
    simp only [forEach_nil, append_nil]
    exact quiet_forEach fun k _ => quiet_when (quiet_bindE fun u hu => quiet_bindE fun w hw => hr k u w hu hw)
  · split
    · rename_i h
      simp at h
    · unfold compareIds
      have hp : pairsOf H o A A = .ok [] := by
        unfold pairsOf
        split
        · rw [minus_self]
          exact fuzzy_nil ho
        · rfl
      rw [hp, minus_self]
      simp only [bindE_ok, forEach_nil, List.filter_nil, ho.nil, append_nil, nil_append]
      refine quiet_append (quiet_when (quiet_forEach fun k hk => ?_))
        (quiet_when (quiet_forEach fun k hk => quiet_matched (common_self hn (ho.mem.1 hk))))
      have hk' := common_self hn (ho.mem.1 hk)
      unfold descend
      rw [← hk']
      exact quiet_bindE fun u hu => quiet_bindE fun w hw => hr _ u w hu hw

/-- Two collections of records whose members agree as far as the selectors go. -/
theorem quiet_coll_two (D : Setup) (hc : Spec.ComparePure D) (ho : OrdOK D.hooks) {h : Heads}
    (hact : o.active = some h) (hd : o.duckType = false) {rec : Rec} {x y : Val} {fa fb : FS} {s : Heads} (w : Mfs.WF s)
    (hne : s ≠ []) (hp : Mfs.getPath h fa = some [(.none, .node s)]) {c n : String} {kd : CollKind}
    (hcoll : (D.S.cls c).coll = some (kd, .one (.cls n))) {xs ys : List (Comp × Val)}
    (hxs : tuplesOf (some x) = .ok xs) (hys : tuplesOf (some y) = .ok ys)
    (hall : List.Forall₂ (fun a b => a.1 = b.1 ∧ SameIn D.S (.node s) a.2 b.2 ∧ GoodItem D.S (.node s) a.2) xs ys)
    (hr : ∀ k u w, itemAt (some x) k = .ok u → itemAt (some y) k = .ok w →
      Quiet (rec (some u) (some w) (fa ++ [k]) (fb ++ [k]))) :
    Quiet (compareColl D.hooks o rec c (some x) (some y) fa fb) := by
  have hcoll' : (D.hooks.S.cls c).coll = some (kd, .one (.cls n)) := hcoll
  unfold compareColl
  rw [hcoll']
  simp only
  unfold compareRecords
  have hcomp : Mfs.complete [(Comp.none, MTree.node s)] = false := rfl
  have hia : idArgs o fa = .ok (.fixed (some (some s))) := by
    unfold idArgs
    rw [hact]
    have h1 : (if fa.isEmpty then some h else Mfs.getPath h fa) = some [(Comp.none, MTree.node s)] := by
      rw [← hp]
      cases fa <;> rfl
    simp only [h1]
    rfl
  have hit : idType o (Ty.cls n) = none := by simp [idType, hd]
  rw [hia, hit]
  simp only [bindE_ok]
  have hbag : collBag D.hooks o none (.fixed (some (some s))) fa (some x) =
      collBag D.hooks o none (.fixed (some (some s))) fa (some y) := by
    have hmap : mapE (fun kv : Comp × Val => (D.hooks.recId none (some s) kv.2).map (fun i => (i, kv.1))) xs =
        mapE (fun kv : Comp × Val => (D.hooks.recId none (some s) kv.2).map (fun i => (i, kv.1))) ys := by
      refine mapE_pair (hall.imp fun a b hab => ?_)
      rw [recId_same D hc w hne hab.2.1 hab.2.2, hab.1]
    unfold collBag
    simp only [hxs, hys, IdArgs.looksAt, List.filter_true, IdArgs.selector, hmap]
  refine quiet_when (quiet_bindE fun A hA => quiet_bindE fun B hB => ?_)
  rw [hbag, hB] at hA
  simp only [Except.ok.injEq] at hA
  subst hA
  exact quiet_members_two ho (collBag_nodup hB) hr

theorem quiet_props_coll (D : Setup) {rec : Rec} {x y : Val} (htag : tagOf x = tagOf y)
    (hx : ∀ nm, readAttr D.S x nm = none) (hy : ∀ nm, readAttr D.S y nm = none) {fa fb : FS} :
    Quiet (compareRecord D.hooks o rec (some x) (some y) fa fb) := by
  unfold compareRecord
  split
  · exact quiet_raise _
  refine quiet_forEach fun p _ => quiet_when ?_
  have h1 : readSlot D.hooks (some x) p.name = none := hx p.name
  have h2 : readSlot D.hooks (some y) p.name = none := hy p.name
  rw [h1, h2]
  exact quiet_bindE fun va hva => quiet_bindE fun vb hvb => by
    have e1 : (Except.ok none : Except Exc (Option Val)) = .ok va := hva
    have e2 : (Except.ok none : Except Exc (Option Val)) = .ok vb := hvb
    simp only [Except.ok.injEq] at e1 e2
    subst e1 e2
    exact quiet_nil

theorem quiet_sameIn (D : Setup) (hc : Spec.ComparePure D) (L : AtomLaws D.S) (ho : OrdOK D.hooks) {h : Heads}
    (wf : Mfs.WF h) (hact : o.active = some h) (hd : o.duckType = false) :
    ∀ (n : Nat) (t : MTree) (x y : Val) (fa fb : FS), Real D.S x → SameIn D.S t x y →
      (∀ s, t = .node s → Mfs.getPath h fa = some s) → Quiet (diffIter D.hooks o n (some x) (some y) fa fb)
  | 0, _, _, _, _, _, _, _, _ => quiet_raise _
  | n + 1, t, x, y, fa, fb, hx, hs, hp => by
    have ih := quiet_sameIn D hc L ho wf hact hd n
    have he : ∀ x, Real D.S x → D.hooks.itemsEqual x x ≠ .ok false := by
      intro x hx h
      have h1 : Ident.veq D.S x x = .ok false := h
      rw [Ident.veq_refl L x hx.1] at h1
      simp at h1
    have hself := quiet_diffIter (o := o) (closed_default D hc.flat) ho he
    have hhne : h ≠ [] := by
      rintro rfl
      simp [Opts.active, Option.filter, Mfs.nonEmpty] at hact
      revert hact
      cases o.compareFilter <;> simp
    cases hs with
    | same => exact hself (n + 1) x fa fb hx
    | @rcd s c sl sl' hn hset hsub =>
      have hps := hp s rfl
      have w := (Mfs.getPath_some wf hps).1
      have hcomp : Mfs.complete s = false := by simp [Mfs.complete, hn]
      show Quiet (compareRecord D.hooks o (diffIter D.hooks o n) (some (.rcd c sl)) (some (.rcd c sl')) fa fb)
      unfold compareRecord
      split
      · exact quiet_raise _
      refine quiet_forEach fun p _ => ?_
      unfold compareProp
      cases hf : isFiltered o p (fa ++ [.str p.name]) with
      | true => exact quiet_nil
      | false =>
        refine quiet_when ?_
        unfold isFiltered at hf
        rw [hact] at hf
        simp only [Bool.or_eq_false_iff, Bool.not_eq_false'] at hf
        have hsel := hf.2
        unfold selects at hsel
        rw [Mfs.getPath_append wf, hps] at hsel
        simp only [Option.bind_some, Mfs.getPath, hcomp, Bool.false_eq_true, if_false, Mfs.headKey, hn] at hsel
        obtain ⟨t', hl⟩ : ∃ t', Mfs.lookup s (.str p.name) = some t' := by
          cases hl : Mfs.lookup s (.str p.name) with
          | none => rw [hl] at hsel; simp at hsel
          | some t' => exact ⟨t', rfl⟩
        have hm := Mfs.lookup_mem hl
        have hpath : ∀ s', t' = .node s' → Mfs.getPath h (fa ++ [.str p.name]) = some s' := by
          rintro s' rfl
          rw [Mfs.getPath_append wf, hps]
          simp only [Option.bind_some, Mfs.getPath, hcomp, Bool.false_eq_true, if_false, Mfs.headKey, hn, hl]
        refine quiet_bindE fun va hva => quiet_bindE fun vb hvb => ?_
        have hreal := closed_slot (closed_default D hc.flat) (onO_some hx) hva
        have hva : D.hooks.normSlot (readAttr D.S (.rcd c sl) p.name) p (some (.rcd c sl)) = .ok va := hva
        have hvb : D.hooks.normSlot (readAttr D.S (.rcd c sl') p.name) p (some (.rcd c sl')) = .ok vb := hvb
        have hst := hset _ _ hm
        have hquiet : ∀ va fa fb, OnO (Real D.S) va → Quiet (compareVals D.hooks o (diffIter D.hooks o n) va va fa fb) := by
          intro va fa fb hv
          cases va with
          | none => exact quiet_nil
          | some v =>
            unfold compareVals
            simp only
            split
            · exact hself n v _ _ (hv v rfl)
            · refine quiet_bindE fun eq heq => ?_
              cases eq with
              | false => exact absurd heq (he v (hv v rfl))
              | true => exact quiet_when (quiet_noChange _ _)
        cases h1 : readAttr D.S (.rcd c sl) p.name with
        | none =>
          cases h2 : readAttr D.S (.rcd c sl') p.name with
          | none =>
            rw [h1] at hva
            rw [h2] at hvb
            have e1 : (Except.ok none : Except Exc (Option Val)) = .ok va := hva
            have e2 : (Except.ok none : Except Exc (Option Val)) = .ok vb := hvb
            simp only [Except.ok.injEq] at e1 e2
            subst e1 e2
            exact quiet_nil
          | some v => rw [h1, h2] at hst; simp at hst
        | some v =>
          cases h2 : readAttr D.S (.rcd c sl') p.name with
          | none => rw [h1, h2] at hst; simp at hst
          | some v' =>
            have hs' := hsub _ _ _ _ hm h1 h2
            rw [h1, normSlot_pure D hc] at hva
            rw [h2, normSlot_pure D hc] at hvb
            have hcase : v = v' ∨ (tagOf v ≠ none ∧ tagOf v = tagOf v') := by
              cases hs' with
              | same => exact .inl rfl
              | rcd => exact .inr ⟨by simp [tagOf], rfl⟩
              | lcoll => exact .inr ⟨by simp [tagOf], rfl⟩
              | dcoll => exact .inr ⟨by simp [tagOf], rfl⟩
            rcases hcase with rfl | ⟨ht1, ht2⟩
            · rw [hva] at hvb
              simp only [Except.ok.injEq] at hvb
              subst hvb
              exact hquiet _ _ _ hreal
            · rw [asValue_comparable D hc ht1] at hva
              rw [asValue_comparable D hc (ht2 ▸ ht1)] at hvb
              simp only [Except.ok.injEq] at hva hvb
              subst hva hvb
              have hcv : comparable v = true := by
                unfold comparable
                cases h' : tagOf v with
                | none => exact absurd h' ht1
                | some _ => rfl
              unfold compareVals
              simp only [hcv, ht2, decide_true, Bool.true_or, Bool.and_self, if_true]
              exact ih t' v v' _ _ (hreal v rfl) hs' hpath
    | @lcoll t' c m kd xs ys hcoll hgood hlen hsub =>
      cases t' with
      | all =>
        have : xs = ys := List.ext_getElem? fun i => by
          cases h1 : xs[i]? with
          | none =>
            have := List.getElem?_eq_none_iff.1 h1
            rw [List.getElem?_eq_none_iff.2 (by omega)]
          | some u =>
            have hi := (List.getElem?_eq_some_iff.1 h1).1
            have h2 : ys[i]? = some (ys[i]'(by omega)) := List.getElem?_eq_getElem _
            rw [h2, (hsub i u _ h1 h2).eq_all]
        subst this
        exact hself (n + 1) _ fa fb hx
      | node s =>
        have hps := hp _ rfl
        have w0 := (Mfs.getPath_some wf hps).1
        have w := w0.sub .none s (by simp)
        have hne := w0.nonempty .none s (by simp)
        have hall : List.Forall₂ (fun a b => a.1 = b.1 ∧ SameIn D.S (.node s) a.2 b.2 ∧ GoodItem D.S (.node s) a.2)
            (Ident.enum xs) (Ident.enum ys) := by
          refine forall₂_of_get (by simp [Ident.enum, hlen]) fun i a b ha hb => ?_
          simp only [Ident.enum, List.getElem?_map, List.getElem?_zipIdx, Option.map_map, Option.map_eq_some_iff,
            Function.comp] at ha hb
          obtain ⟨u, hu, rfl⟩ := ha
          obtain ⟨v, hv, rfl⟩ := hb
          exact ⟨rfl, hsub i u v hu hv, hgood u (List.mem_of_getElem? hu)⟩
        have hget : ∀ k u w, itemAt (some (.lcoll c xs)) k = .ok u → itemAt (some (.lcoll c ys)) k = .ok w →
            SameIn D.S (.node s) u w := by
          intro k u v hu hv
          have hf : List.Forall₂ (SameIn D.S (.node s)) xs ys := forall₂_of_get hlen hsub
          cases k with
          | int i =>
            simp only [itemAt, getItem] at hu hv
            rcases Mfs.forall2_getIdx hf i with ⟨h1, h2⟩ | ⟨a, b, h1, h2, _, hab⟩
            · rw [h1] at hu; simp at hu
            · rw [h1] at hu
              rw [h2] at hv
              simp only [Except.ok.injEq] at hu hv
              subst hu hv
              exact hab
          | str _ => simp [itemAt, getItem] at hu
          | none => simp [itemAt, getItem] at hu
        refine quiet_append (quiet_coll_two D hc ho hact hd w hne hps hcoll rfl rfl hall ?_)
          (quiet_props_coll D rfl (fun _ => rfl) (fun _ => rfl))
        intro k u v hu hv
        refine ih (.node s) u v _ _ (closed_item (closed_default D hc.flat) (onO_some hx) hu) (hget k u v hu hv) ?_
        rintro s' ⟨⟩
        rw [Mfs.getPath_append wf, hps]
        rfl
    | @dcoll t' c m kd xs ys hcoll hgood hkeys hsub =>
      have hlen : xs.length = ys.length := by simpa using congrArg List.length hkeys
      have hk : ∀ (i : Nat) a b, xs[i]? = some a → ys[i]? = some b → a.1 = b.1 := by
        intro i a b ha hb
        have h1 : (xs.map (·.1))[i]? = some a.1 := by rw [List.getElem?_map, ha]; rfl
        have h2 : (ys.map (·.1))[i]? = some b.1 := by rw [List.getElem?_map, hb]; rfl
        rw [hkeys, h2] at h1
        simpa using h1.symm
      cases t' with
      | all =>
        have : xs = ys := List.ext_getElem? fun i => by
          cases h1 : xs[i]? with
          | none =>
            have := List.getElem?_eq_none_iff.1 h1
            rw [List.getElem?_eq_none_iff.2 (by omega)]
          | some u =>
            have hi := (List.getElem?_eq_some_iff.1 h1).1
            have h2 : ys[i]? = some (ys[i]'(by omega)) := List.getElem?_eq_getElem _
            rw [h2]
            have e1 := hk i _ _ h1 h2
            have e2 := (hsub i u.1 u.2 _ _ h1 h2).eq_all
            exact congrArg some (Prod.ext e1 e2)
        subst this
        exact hself (n + 1) _ fa fb hx
      | node s =>
        have hps := hp _ rfl
        have w0 := (Mfs.getPath_some wf hps).1
        have w := w0.sub .none s (by simp)
        have hne := w0.nonempty .none s (by simp)
        have hall : List.Forall₂ (fun a b => a.1 = b.1 ∧ SameIn D.S (.node s) a.2 b.2 ∧ GoodItem D.S (.node s) a.2)
            xs ys :=
          forall₂_of_get hlen fun i a b ha hb =>
            ⟨hk i a b ha hb, hsub i a.1 a.2 b.1 b.2 ha hb, hgood a (List.mem_of_getElem? ha)⟩
        have hget : ∀ k u w, itemAt (some (.dcoll c xs)) k = .ok u → itemAt (some (.dcoll c ys)) k = .ok w →
            SameIn D.S (.node s) u w := by
          intro k u v hu hv
          have hf : List.Forall₂ (fun a b => a.1 = b.1 ∧ SameIn D.S (.node s) a.2 b.2) xs ys :=
            hall.imp fun a b hab => ⟨hab.1, hab.2.1⟩
          simp only [itemAt, getItem] at hu hv
          rcases Mfs.forall2_alookup hf k with ⟨h1, h2⟩ | ⟨a, b, h1, h2, hab⟩
          · rw [h1] at hu; simp at hu
          · rw [h1] at hu
            rw [h2] at hv
            simp only [Except.ok.injEq] at hu hv
            subst hu hv
            exact hab
        refine quiet_append (quiet_coll_two D hc ho hact hd w hne hps hcoll rfl rfl hall ?_)
          (quiet_props_coll D rfl (fun _ => rfl) (fun _ => rfl))
        intro k u v hu hv
        refine ih (.node s) u v _ _ (closed_item (closed_default D hc.flat) (onO_some hx) hu) (hget k u v hu hv) ?_
        rintro s' ⟨⟩
        rw [Mfs.getPath_append wf, hps]
        rfl

/-- **C119 (what holds).** If the selectors go through records by name, through collections of records by wildcard, select
everything else whole, and select whole what identifies the members of these collections, nothing is found. -/
theorem C119_partial (D : Setup) (hc : Spec.ComparePure D) (ho : OrdOK D.hooks) (L : AtomLaws D.S)
    {ord : List MArg → List MArg} (hord : Mfs.OrdOK ord) {h : Heads} {qs : List FS} (hb : Built ord h qs) (hq : qs ≠ [])
    {C : Ctors} {E : Env} {blank : String → String → Option Val} (hB : Builds C E D.S blank) (hd : o.duckType = false)
    (hf : o.compareFilter = some h) (n : Nat) (x y : Val) (hx : Real D.S x) (hfit : CopyFits E D.S blank (.node h) x)
    (hg : Mfs.get C E h x = .ok y) : ∀ d ∈ (diff D.hooks o n x y).out, d.kind = .noChange := by
  obtain ⟨w, _, he⟩ := built_sound hord hb
  have hne : h ≠ [] := fun e => hq (he.1 e)
  have hact : o.active = some h := by
    unfold Opts.active
    rw [hf]
    cases h with
    | nil => exact absurd rfl hne
    | cons _ _ => rfl
  have hg' : Mfs.getT C E (.node h) x = .ok y := by simpa only [Mfs.getT, Mfs.get] using hg
  refine quiet_sameIn D hc L ho w hact hd n (.node h) x y [] [] hx (sameIn_of_get hB hfit ?_ hg') ?_
  · rintro h' ⟨⟩
    exact w
  · rintro h' ⟨⟩
    rfl

/-! ## An example -/

namespace Ex

/-- Constructors that store what they are given. -/
def ctors : Ctors where
  rcd c kw := .ok (.rcd c kw)
  atom _ := .error .typeError

/-- Plain attributes, and collections that take anything. -/
def env : Env where
  attr _ _ := none
  coerceItem _ v := .ok v
  makeItem _ _ := .error .typeError

theorem builds {S : Schema} (h : ∀ c nm, Ident.unsetOf S c nm = none) : Builds ctors env S (fun _ _ => none) where
  rcd cls kw z hz := by
    simp only [ctors, Except.ok.injEq] at hz
    subst hz
    refine ⟨kw, rfl, fun nm => ?_⟩
    simp only [readAttr, h]
    cases alookup kw nm <;> rfl
  reads cls sl nm v hv := by
    simp only [readAttr, h] at hv
    simp only [getAttr]
    cases h1 : alookup sl nm with
    | none => rw [h1] at hv; simp at hv
    | some u => rw [h1] at hv; simpa using hv
  unset cls sl nm hv := by
    simp only [readAttr, h] at hv
    simp only [getAttr]
    cases h1 : alookup sl nm with
    | none => rfl
    | some u => rw [h1] at hv; simp at hv
  isaRcd cls sl sl' := fun _ _ => rfl

theorem unsetOf_none {S : Schema} (h : ∀ c, ∀ p ∈ (S.cls c).props, p.unset = none) (c nm : String) :
    Ident.unsetOf S c nm = none := by
  unfold Ident.unsetOf Ident.propOf
  cases hf : (S.cls c).props.find? (fun p => decide (p.name = nm)) with
  | none => rfl
  | some p => exact h c p (List.mem_of_find?_eq_some hf)

theorem unset_schema : ∀ c, ∀ p ∈ (schema.cls c).props, p.unset = none := by
  intro c p hp
  have hp : p ∈ (cls c).props := hp
  unfold cls at hp
  split at hp <;> simp at hp
  · rcases hp with rfl | rfl <;> rfl
  · rcases hp with rfl | rfl <;> rfl
  · rcases hp with rfl | rfl | rfl | rfl | rfl | rfl | rfl <;> rfl

/-- `MultiFieldSelector(["people", None, "id"], ["tags"], ["note"])` -/
def idsTags : Heads :=
  [(.str "people", .node [(.none, .node [(.str "id", .all)])]), (.str "tags", .all), (.str "note", .all)]

theorem idsTags_built : Built id idsTags [[.str "people", .none, .str "id"], [.str "tags"], [.str "note"]] :=
  .mk (.fs (.fs (.fs .nil))) rfl

theorem fits_tagged (n : String) : CopyFits env schema (fun _ _ => none) (.node idsTags) (tagged n) := by
  refine .rcd ?_ ?_
  · intro nm t v hm hv _
    simp only [idsTags, List.mem_cons, Prod.mk.injEq, Comp.str.injEq, List.not_mem_nil, or_false] at hm
    rcases hm with ⟨rfl, rfl⟩ | ⟨rfl, rfl⟩ | ⟨rfl, rfl⟩
    · have hv : some (Val.lcoll "People" [person 1 "Ann", person 2 "Bob"]) = some v := hv
      simp only [Option.some.injEq] at hv
      subst hv
      refine .lcoll (n := "Person") (kd := .list) rfl (fun _ _ => rfl) ?_ ?_
      · intro v hv
        simp only [List.mem_cons, List.not_mem_nil, or_false] at hv
        have : ∃ i n, v = person i n := by rcases hv with rfl | rfl <;> exact ⟨_, _, rfl⟩
        obtain ⟨i, m, rfl⟩ := this
        refine ⟨"Person", _, rfl, ?_⟩
        rintro h ⟨⟩ p _ t' ht
        simp only [List.mem_cons, Prod.mk.injEq, List.not_mem_nil, or_false] at ht
        exact ht.2
      · intro v hv
        simp only [List.mem_cons, List.not_mem_nil, or_false] at hv
        have : ∃ i n, v = person i n := by rcases hv with rfl | rfl <;> exact ⟨_, _, rfl⟩
        obtain ⟨i, m, rfl⟩ := this
        refine .rcd ?_ ?_
        · intro nm t v hm _ _
          simp only [List.mem_cons, Prod.mk.injEq, List.not_mem_nil, or_false] at hm
          rw [hm.2]
          exact .all
        · intro nm t hm h
          simp only [List.mem_cons, Prod.mk.injEq, Comp.str.injEq, List.not_mem_nil, or_false] at hm
          obtain ⟨rfl, rfl⟩ := hm
          simp [readAttr, person, alookup, Val.int, Val.none] at h
    · exact .all
    · exact .all
  · intro nm t hm h
    simp only [idsTags, List.mem_cons, Prod.mk.injEq, Comp.str.injEq, List.not_mem_nil, or_false] at hm
    rcases hm with ⟨rfl, rfl⟩ | ⟨rfl, rfl⟩ | ⟨rfl, rfl⟩
    all_goals simp [readAttr, tagged, alookup, Val.str, Val.none] at h

/-- The copy: the names are left out. -/
def taggedCopy : Val := .rcd "Doc" [("people", .lcoll "People" [.rcd "Person" [("id", .int 1)], .rcd "Person" [("id", .int 2)]]),
  ("tags", .list [.str "x", .str "y"]), ("note", .str "one")]

end Ex

example : Mfs.get Ex.ctors Ex.env Ex.idsTags (Ex.tagged "one") = .ok Ex.taggedCopy := by decide +kernel

/-- A copy of a document with the ids of the people only. -/
example : ∀ d ∈ (diff (Ex.hooks {}) { compareFilter := some Ex.idsTags, moved := true } 9 (Ex.tagged "one") Ex.taggedCopy).out,
    d.kind = .noChange :=
  C119_partial (Ex.setup {}) (.none fun _ => rfl) (Ex.ordOK _) Ex.laws ordOK_id Ex.idsTags_built (by simp)
    (Ex.builds (Ex.unsetOf_none Ex.unset_schema)) rfl rfl 9 _ _ (Ex.real_tagged _) (Ex.fits_tagged _) (by decide +kernel)

/-! ## What does not hold -/

namespace Ex

/-- `MultiFieldSelector(["people", 1])` -/
def second : Heads := [(.str "people", .node [(.int 1, .all)])]

theorem second_built : Built id second [[.str "people", .int 1]] := .mk (.fs .nil) rfl

/-- The copy has one person, who comes first. -/
def secondCopy : Val := .rcd "Doc" [("people", .lcoll "People" [person 2 "Bob"])]

end Ex

/-- **C119 does not hold**: an item picked by its index has another index in the copy. -/
theorem C119_violated : ¬ C119_statement := by
  intro h
  have := h (Ex.setup {}) { compareFilter := some Ex.second } id Ex.second _ Ex.ctors Ex.env _ 9 (Ex.tagged "one") Ex.secondCopy
    (fun _ => rfl) (Ex.ordOK _) Ex.laws ordOK_id Ex.second_built (by simp) (Ex.builds (Ex.unsetOf_none Ex.unset_schema)) rfl
    rfl (Ex.real_tagged _) (by decide +kernel)
  exact absurd this (by decide +kernel)

namespace Ex

/-- The classes, with groups of people; groups have no primary key. -/
def clsG (c : String) : ICls :=
  if c = "Group" then { props := [{ name := "people", types := [.cls "People"] }] }
  else if c = "Groups" then { coll := some (.list, .one (.cls "Group")) } else cls c

/-- The schema with both. -/
def schemaG : Schema := { schema with cls := clsG }

/-- The default methods. -/
def setupG : Setup := { setup {} with S := schemaG }

/-- A list of one group. -/
def groups : Val := .lcoll "Groups" [.rcd "Group" [("people", .lcoll "People" [person 1 "Ann"])]]

/-- The copy without ids. -/
def groupsCopy : Val := .lcoll "Groups" [.rcd "Group" [("people", .lcoll "People" [.rcd "Person" [("name", .str "Ann")]])]]

/-- `MultiFieldSelector([None, "people", None, "name"])` -/
def allNames : Heads := [(.none, .node [(.str "people", .node [(.none, .node [(.str "name", .all)])])])]

theorem allNames_built : Built id allNames [[.none, .str "people", .none, .str "name"]] := .mk (.fs .nil) rfl

theorem unset_schemaG : ∀ c, ∀ p ∈ (schemaG.cls c).props, p.unset = none := by
  intro c p hp
  have hp : p ∈ (clsG c).props := hp
  unfold clsG at hp
  split at hp
  · simp at hp
    subst hp
    rfl
  · split at hp
    · simp at hp
    · exact unset_schema c p hp

theorem real_groups : Real schemaG groups := by
  refine .lcoll ⟨⟨_, rfl⟩, ?_⟩ ?_
  · intro kd n _ x hx
    simp only [List.mem_cons, List.not_mem_nil, or_false] at hx
    subst hx
    simp [clsOf]
  · intro x hx
    simp only [List.mem_cons, List.not_mem_nil, or_false] at hx
    subst hx
    refine .rcd (by simp [Ident.Proper, schemaG, clsG]) (by simp [schemaG, clsG]) ?_
    intro x hx
    simp only [List.mem_cons, List.not_mem_nil, or_false] at hx
    subst hx
    refine .lcoll ⟨⟨_, rfl⟩, ?_⟩ ?_
    · intro kd n _ x hx
      simp only [List.mem_cons, List.not_mem_nil, or_false] at hx
      subst hx
      simp [clsOf, person]
    · intro x hx
      simp only [List.mem_cons, List.not_mem_nil, or_false] at hx
      subst hx
      refine .rcd (by simp [Ident.Proper, schemaG, clsG, cls]) (by simp [schemaG, clsG, cls]) ?_
      intro x hx
      simp only [List.mem_cons, List.not_mem_nil, or_false] at hx
      rcases hx with rfl | rfl <;> exact .atom _

end Ex

/-- **C119 does not hold with wildcards either**: `record_id` subscripts the selectors with the index of an item, which
gives nothing where they have a wildcard, so the identity of a group takes in all of its people's attributes. -/
theorem C119_wild_violated : ¬ C119_wild_statement := by
  intro h
  have := h Ex.setupG { compareFilter := some Ex.allNames } id Ex.allNames _ Ex.ctors Ex.env _ 9 Ex.groups Ex.groupsCopy
    (fun _ => rfl) (fun _ _ => List.Perm.refl _) ⟨Ex.laws.refl, Ex.laws.symm, Ex.laws.trans⟩ ordOK_id Ex.allNames_built
    (by simp) (by simp) (Ex.builds (Ex.unsetOf_none Ex.unset_schemaG)) rfl rfl Ex.real_groups (by decide +kernel)
  exact absurd this (by decide +kernel)

end Normalize.Diff
