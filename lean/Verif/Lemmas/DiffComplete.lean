import Verif.Lemmas.DiffAgree2
import Verif.Lemmas.DiffExact
import Verif.Lemmas.DiffFuzzy
import Verif.Props.DiffFilter
import Verif.Spec.DiffFilter

/-!
# What an empty filtered diff means
-/

namespace Normalize.Diff
open Ident (IProp ICls Ty ItemTy CollKind Schema readAttr)
open Spec (Labels Items Real Compared PlainSlots Closed TupIds Touches Whole AgreeFor)
open Gen

/-- A key that is not in the list. -/
theorem fresh_key (l : List Comp) : ∃ k : Comp, k ∉ l := by
  by_contra hc
  have hall : ∀ k : Comp, k ∈ l := fun k => by
    by_contra hk
    exact hc ⟨k, hk⟩
  have hn : ((List.range (l.length + 1)).map (fun i : Nat => Comp.int i)).Nodup :=
    List.nodup_range.map (fun a b e => by simp only [Comp.int.injEq] at e; exact_mod_cast e)
  have := (List.subperm_of_subset hn (fun k _ => hall k)).length_le
  simp at this
  omega

theorem lookup_none {h : Heads} {k : Comp} (hk : k ∉ h.map (·.1)) : Mfs.lookup h k = none := by
  unfold Mfs.lookup
  rw [Option.map_eq_none_iff, List.find?_eq_none]
  intro e he hd
  exact hk (List.mem_map.2 ⟨e, he, by simpa using hd⟩)

variable {E F : Type} [DecidableEq E] [DecidableEq F] {H : Hooks E F} {o : Opts}

/-- Which members are looked at: all, if the filter selects something in each member there could be; else those
that are covered as a whole. -/
theorem looks_iff {h : Heads} (w : Mfs.WF h) (ha : o.active = some h) {fa : FS} {ia : IdArgs}
    (hia : idArgs o fa = .ok ia) (hs : selects h fa = true) :
    ia.dead = false ∧ ∀ k, ia.looksAt fa k = true ↔
      (∀ k', selects h (fa ++ [k']) = true) ∨ Mfs.containsPath h (fa ++ [k]) = true := by
  have hne : h ≠ [] := by
    unfold Opts.active at ha
    have := (Option.filter_eq_some_iff.1 ha).2
    rintro rfl
    simp [Mfs.nonEmpty] at this
  have hp : (if fa.isEmpty then some h else Mfs.getPath h fa) = Mfs.getPath h fa := by
    cases fa with
    | nil => rfl
    | cons _ _ => rfl
  have hia' := hia
  unfold idArgs at hia
  rw [ha] at hia
  simp only [hp] at hia
  cases hg : Mfs.getPath h fa with
  | none => rw [hg] at hia; simp at hia
  | some cf =>
    rw [hg] at hia
    simp only at hia
    obtain ⟨w', hne', _⟩ := Mfs.getPath_some w hg
    have hcne := hne' hne
    split at hia
    · rename_i hn
      obtain ⟨t, rfl⟩ := w'.single hn
      have hdead : ia.dead = false := by
        unfold getAny at hia
        cases hcp : Mfs.complete [(Comp.none, t)] with
        | true =>
          rw [hcp] at hia
          simp only [if_true, Except.ok.injEq] at hia
          subst hia
          rfl
        | false =>
          rw [hcp] at hia
          simp only [Bool.false_eq_true, if_false] at hia
          unfold Mfs.getComp at hia
          rw [hcp] at hia
          cases t with
          | all =>
            simp [Mfs.lookup] at hia
            subst hia
            rfl
          | node s =>
            have hsne := w'.nonempty .none s (by simp)
            simp [Mfs.lookup] at hia
            subst hia
            cases s with
            | nil => exact absurd rfl hsne
            | cons _ _ => rfl
      have hall : ∀ k, ia.looksAt fa k = true := by
        intro k
        split at hia
        · simp at hia
        · simp only [Except.ok.injEq] at hia
          subst hia
          rfl
      refine ⟨hdead, fun k => ⟨fun _ => .inl fun k' => ?_, fun _ => hall k⟩⟩
      exact looksAt_selects w ha hia' (hall k') hs hdead
    · rename_i hn
      simp only [Except.ok.injEq] at hia
      subst hia
      refine ⟨rfl, fun k => ⟨.inr, ?_⟩⟩
      rintro (hall | hk)
      · exfalso
        obtain ⟨k', hk'⟩ := fresh_key (cf.map (·.1))
        have h1 := hall k'
        unfold selects at h1
        rw [Mfs.getPath_append w, hg] at h1
        simp only [Option.bind_some] at h1
        have hcpl : Mfs.complete cf = false := by
          cases hc : Mfs.complete cf with
          | false => rfl
          | true =>
            rw [w'.complete_iff] at hc
            rw [hc] at hn
            exact absurd rfl hn
        have hhk : Mfs.headKey cf k' = k' := by simp [Mfs.headKey, hn]
        unfold Mfs.getPath at h1
        rw [hcpl, hhk, lookup_none hk'] at h1
        simp at h1
      · exact hk

/-- The entries of one side, with the filter. -/
theorem collBag_labels (hi : o.ignoreEmptyItems = false) {ty : Option Ty} {ia : IdArgs} {fa : FS} {x : Val}
    {A : List (Ent (Id E))} (h : collBag H o ty ia fa (some x) = .ok A) :
    ∃ xs la, tuplesOf (some x) = .ok xs ∧ la.map (·.2) = xs.filter (fun kv => ia.looksAt fa kv.1) ∧
      A = number [] (keyed la) ∧ ∀ e ∈ la, H.recId ty (ia.selector e.2.1) e.2.2 = .ok e.1 := by
  unfold collBag at h
  split at h
  · simp at h
  · rename_i xs hxs
    split at h
    · simp at h
    · rename_i ys hys
      simp only [Except.ok.injEq] at h
      subst h
      obtain ⟨la, h1, h2⟩ := labels_of_mapE
        (f := fun kv : Comp × Val => H.recId ty (ia.selector kv.1) kv.2)
        (g := fun kv => kv.1) (fun i => !(o.ignoreEmptyItems && idEmpty H i)) hys
      have hkeep : ∀ (l : List (Comp × Val)) (la : List (Id E × (Comp × Val))),
          Labels (fun kv : Comp × Val => H.recId ty (ia.selector kv.1) kv.2)
            (fun i => !(o.ignoreEmptyItems && idEmpty H i)) l la → la.map (·.2) = l := by
        intro l la hl
        induction hl with
        | nil => rfl
        | keep _ _ _ ih => simp [ih]
        | skip _ hk _ _ => simp [hi] at hk
      exact ⟨xs, la, hxs, hkeep _ _ h1, by rw [h2]; rfl, fun e he => (labels_mem h1 he).2⟩

/-! ## Pairing -/

section Pairs
variable {J : Type} [DecidableEq J]

/-- The entries that both sides have, in pairs. -/
def bothSides (A B : List (Ent J)) : List (Ent J × Ent J) :=
  A.filterMap (fun e => (alookup B e.1).map (fun kb => (e, (e.1, kb))))

theorem mem_both {A B : List (Ent J)} {p : Ent J × Ent J} :
    p ∈ bothSides A B ↔ p.1 ∈ A ∧ p.2.1 = p.1.1 ∧ alookup B p.1.1 = some p.2.2 := by
  unfold bothSides
  rw [List.mem_filterMap]
  constructor
  · rintro ⟨e, he, h⟩
    rw [Option.map_eq_some_iff] at h
    obtain ⟨kb, h1, rfl⟩ := h
    exact ⟨he, rfl, h1⟩
  · obtain ⟨e, i, kb⟩ := p
    rintro ⟨h1, h2, h3⟩
    simp only at h1 h2 h3
    subst h2
    exact ⟨e, h1, by rw [h3]; rfl⟩

theorem both_common {A B : List (Ent J)} {p : Ent J × Ent J} (h : p ∈ bothSides A B) :
    (p.1.2, p.2.2) ∈ common A B := by
  obtain ⟨h1, _, h3⟩ := mem_both.1 h
  exact mem_common.2 ⟨p.1.1, h1, h3⟩

theorem both_left {A B : List (Ent J)} : ((bothSides A B).map (·.1)).Sublist A := by
  unfold bothSides
  induction A with
  | nil => exact .slnil
  | cons e A ih =>
    rw [List.filterMap_cons]
    cases alookup B e.1 with
    | none => exact ih.cons _
    | some kb => exact ih.cons_cons _

theorem both_ids {A B : List (Ent J)} : (bothSides A B).map (fun p => p.2.1) = (bothSides A B).map (fun p => p.1.1) := by
  refine List.map_congr_left fun p hp => ?_
  exact (mem_both.1 hp).2.1

theorem both_right {A B : List (Ent J)} (hA : (A.map (·.1)).Nodup) : ((bothSides A B).map (·.2)).Nodup := by
  have h1 : ((bothSides A B).map (fun p => p.2.1)).Nodup := by
    rw [both_ids]
    have : (bothSides A B).map (fun p => p.1.1) = ((bothSides A B).map (·.1)).map (·.1) := by simp
    rw [this]
    exact (both_left.map _).nodup hA
  have : (bothSides A B).map (fun p => p.2.1) = ((bothSides A B).map (·.2)).map (·.1) := by simp
  rw [this] at h1
  exact h1.of_map _

theorem keys_nodup {A l : List (Ent J)} (hk : (A.map (·.2)).Nodup) (hl : l.Nodup) (hs : ∀ e ∈ l, e ∈ A) :
    (l.map (·.2)).Nodup := by
  refine List.Nodup.map_on (fun a ha b hb e => ?_) hl
  exact List.inj_on_of_nodup_map hk (hs a ha) (hs b hb) e

/-- The pairs by identity and some pairs of what is left. -/
theorem pairing {A B : List (Ent J)} (hA : (A.map (·.1)).Nodup) (kA : (A.map (·.2)).Nodup)
    (kB : (B.map (·.2)).Nodup) {ps : List (Ent J × Ent J)} (h1 : (ps.map (·.1)).Nodup) (h2 : (ps.map (·.2)).Nodup)
    (h3 : ∀ p ∈ ps, p.1 ∈ minus A B ∧ p.2 ∈ minus B A) :
    ((bothSides A B ++ ps).map (fun p => p.1.2)).Nodup ∧ ((bothSides A B ++ ps).map (fun p => p.2.2)).Nodup := by
  have hnA : A.Nodup := hA.of_map _
  have e1 : ∀ l : List (Ent J × Ent J), l.map (fun p => p.1.2) = (l.map (·.1)).map (·.2) := fun l => by simp
  have e2 : ∀ l : List (Ent J × Ent J), l.map (fun p => p.2.2) = (l.map (·.2)).map (·.2) := fun l => by simp
  rw [e1, e2]
  have hb : ∀ p ∈ bothSides A B, p.2 ∈ B := by
    intro p hp
    obtain ⟨_, g2, g3⟩ := mem_both.1 hp
    have := alookup_mem g3
    rw [← g2] at this
    exact this
  constructor
  · refine keys_nodup kA ?_ ?_
    · rw [List.map_append, List.nodup_append]
      refine ⟨both_left.nodup hnA, h1, ?_⟩
      rintro e he e' he' rfl
      obtain ⟨p, hp, rfl⟩ := List.mem_map.1 he
      obtain ⟨p', hp', e''⟩ := List.mem_map.1 he'
      obtain ⟨_, _, g3⟩ := mem_both.1 hp
      have g4 := (mem_minus.1 (h3 p' hp').1).2
      rw [e''] at g4
      exact g4 (List.mem_map.2 ⟨_, alookup_mem g3, rfl⟩)
    · intro e he
      obtain ⟨p, hp, rfl⟩ := List.mem_map.1 he
      rcases List.mem_append.1 hp with hp | hp
      · exact (mem_both.1 hp).1
      · exact (mem_minus.1 (h3 p hp).1).1
  · refine keys_nodup kB ?_ ?_
    · rw [List.map_append, List.nodup_append]
      refine ⟨both_right hA, h2, ?_⟩
      rintro e he e' he' rfl
      obtain ⟨p, hp, rfl⟩ := List.mem_map.1 he
      obtain ⟨p', hp', e''⟩ := List.mem_map.1 he'
      obtain ⟨g1, g2, _⟩ := mem_both.1 hp
      have g4 := (mem_minus.1 (h3 p' hp').2).2
      rw [e'', g2] at g4
      exact g4 (List.mem_map.2 ⟨_, g1, rfl⟩)
    · intro e he
      obtain ⟨p, hp, rfl⟩ := List.mem_map.1 he
      rcases List.mem_append.1 hp with hp | hp
      · exact hb p hp
      · exact (mem_minus.1 (h3 p hp).2).1

end Pairs

/-- Members for pairs of keys. -/
theorem members_of_keys {P : (Comp × Val) → (Comp × Val) → Prop} : ∀ (cs : List (Comp × Comp)),
    (∀ c ∈ cs, ∃ u w, u.1 = c.1 ∧ w.1 = c.2 ∧ P u w) →
    ∃ ps : List ((Comp × Val) × (Comp × Val)), ps.map (fun p => (p.1.1, p.2.1)) = cs ∧ ∀ p ∈ ps, P p.1 p.2
  | [], _ => ⟨[], rfl, by simp⟩
  | c :: cs, h => by
    obtain ⟨u, w, h1, h2, h3⟩ := h c (by simp)
    obtain ⟨ps, h4, h5⟩ := members_of_keys cs (fun c hc => h c (by simp [hc]))
    refine ⟨(u, w) :: ps, by simp [h1, h2, h4], fun p hp => ?_⟩
    rcases List.mem_cons.1 hp with rfl | hp
    · exact h3
    · exact h5 p hp

/-- The assumptions of C112. -/
structure StdF (H : Hooks E F) (o : Opts) (h : Heads) : Prop where
  ord : OrdOK H
  closed : Closed H (Real H.S)
  tup : TupIds H (Real H.S)
  plain : PlainSlots H
  duck : o.duckType = false
  recurse : o.recurse = false
  slots : o.ignoreEmptySlots = false
  items : o.ignoreEmptyItems = false
  wf : Mfs.WF h
  active : o.active = some h

variable {h : Heads} {qs : List FS} {pick : FS → Comp → Prop}

theorem tags_of_exc' {n : Nat} (hd : o.duckType = false) {u w : Val} {fa fb : FS} (hc : clsOf u ≠ none)
    (h : (diffIter H o n (some u) (some w) fa fb).exc = none) : tagOf u = tagOf w := by
  cases n with
  | zero => simp [diffIter] at h
  | succ n =>
    have h : (dispatch H o (diffIter H o n) (some u) (some w) fa fb).exc = none := h
    have hr : ∀ rec, (compareRecord H o rec (some u) (some w) fa fb).exc = none → tagOf u = tagOf w := by
      intro rec h
      unfold compareRecord at h
      split at h
      · simp at h
      · rename_i ht
        simpa [typeClash, hd] using ht
    unfold dispatch at h
    cases u with
    | atom a => simp [clsOf] at hc
    | list xs => simp [clsOf] at hc
    | dict xs => simp [clsOf] at hc
    | rcd c s => exact hr _ h
    | lcoll c s => exact hr _ (exc_append.1 h).2
    | dcoll c s => exact hr _ (exc_append.1 h).2

theorem simple_two' (ho : OrdOK H) (hd : o.duckType = false) {x y : Val} {fa fb : FS}
    (h : Still (compareSimple H o (some x) (some y) fa fb)) :
    ∃ la lb, Items H o x la ∧ Items H o y lb ∧ (la.map (·.1)).Perm (lb.map (·.1)) := by
  unfold compareSimple at h
  simp only [still_bindE, still_bags ho] at h
  obtain ⟨A, hA, B, hB, h1⟩ := h
  obtain ⟨la, hla, rfl⟩ := simpleBag_items hd hA
  obtain ⟨lb, hlb, rfl⟩ := simpleBag_items hd hB
  have hp := minus_nil_perm.1 h1
  exact ⟨la, lb, hla, hlb, by simpa [keyed, List.map_map, Function.comp_def] using hp⟩

/-- The class of a member of a collection of records. -/
theorem tuples_cls {v : Val} (hv : Real H.S v) {c : String} {kd : CollKind} {n : String} (hc : clsOf v = some c)
    (hcoll : (H.S.cls c).coll = some (kd, .one (.cls n))) {xs : List (Comp × Val)}
    (h1 : tuplesOf (some v) = .ok xs) {e : Comp × Val} (h2 : e ∈ xs) : clsOf e.2 ≠ none := by
  have hI := hv.2 v (.self v)
  cases v with
  | lcoll c' ys =>
    simp [clsOf] at hc
    subst hc
    simp [tuplesOf] at h1
    subst h1
    exact hI.2 kd n hcoll _ (enum_mem_list (k := e.1) h2)
  | dcoll c' ys =>
    simp [clsOf] at hc
    subst hc
    simp [tuplesOf] at h1
    subst h1
    exact hI.2 kd n hcoll e h2
  | rcd c' s => simp [tuplesOf] at h1
  | _ => simp [clsOf] at hc

theorem records_two' (hs : StdF H o h) (hsel : ∀ p, selects h p = true ↔ Touches qs p)
    (hcov : ∀ p, Mfs.containsPath h p = true ↔ Whole qs p)
    (hpick : ∀ q k, pick q k ↔ (∀ k', Touches qs (q ++ [k'])) ∨ Whole qs (q ++ [k])) {n' : Nat}
    {x y : Val} (hx : Real H.S x) (hy : Real H.S y)
    {c : String} {kd : CollKind} {n : String} (hcx : clsOf x = some c) (hcy : clsOf y = some c)
    (hcoll : (H.S.cls c).coll = some (kd, .one (.cls n))) {fa fb : FS} (hfa : Touches qs fa)
    (ih : ∀ u w fa fb, Real H.S u → Real H.S w → comparable u = true → tagOf u = tagOf w → Touches qs fa →
      Still (diffIter H o n' (some u) (some w) fa fb) → AgreeFor H o qs pick fa (some u) (some w))
    (hst : Still (compareRecords H o (diffIter H o n') (.cls n) (some x) (some y) fa fb)) :
    AgreeFor H o qs pick fa (some x) (some y) := by
  unfold compareRecords at hst
  simp only [still_bindE, idType_none hs.duck] at hst
  obtain ⟨ia, hia, hst⟩ := hst
  obtain ⟨hdead, hlook⟩ := looks_iff hs.wf hs.active hia ((hsel fa).2 hfa)
  rw [hdead] at hst
  simp only [Bool.not_false, when_true, still_bindE] at hst
  obtain ⟨A, hA, B, hB, hst⟩ := hst
  obtain ⟨xs, la, hxs, hla, rfl, hida⟩ := collBag_labels hs.items hA
  obtain ⟨ys, lb, hys, hlb, rfl, hidb⟩ := collBag_labels hs.items hB
  unfold compareMembers at hst
  rw [hs.recurse] at hst
  simp only [Bool.false_eq_true, if_false, Option.isNone_some, Bool.or_false] at hst
  have hlook' : ∀ k, ia.looksAt fa k = true ↔ pick fa k := by
    intro k
    rw [hlook, hpick, hcov]
    simp only [hsel]
  have htouch : ∀ k, ia.looksAt fa k = true → Touches qs (fa ++ [k]) := by
    intro k hk
    rw [← hsel]
    exact looksAt_selects hs.wf hs.active hia hk ((hsel fa).2 hfa) hdead
  have mla : ∀ e, e ∈ la.map (·.2) ↔ e ∈ xs ∧ pick fa e.1 := by
    intro e
    rw [hla, List.mem_filter, hlook']
  have mlb : ∀ e, e ∈ lb.map (·.2) ↔ e ∈ ys ∧ pick fa e.1 := by
    intro e
    rw [hlb, List.mem_filter, hlook']
  have nxs := tuples_nodup (dictsOK_real hx [] x .here) hxs
  have nys := tuples_nodup (dictsOK_real hy [] y .here) hys
  have kla : ((keyed la).map (·.2)).Nodup := by
    rw [keyed_keys, hla]
    exact (List.filter_sublist.map _).nodup nxs
  have klb : ((keyed lb).map (·.2)).Nodup := by
    rw [keyed_keys, hlb]
    exact (List.filter_sublist.map _).nodup nys
  unfold compareIds at hst
  simp only [still_append, still_when, still_bindE, still_forEach, hs.ord.mem, still_yield] at hst
  obtain ⟨hcom, fp, hfp, ⟨⟨⟨hfz', _⟩, hrem⟩, hadd⟩⟩ := hst
  have hcv : ∀ e ∈ number [] (keyed la) ++ number [] (keyed lb),
      compareValues (number [] (keyed la)) (number [] (keyed lb)) = true := by
    intro e0 he0
    have htup : ∀ e ∈ number [] (keyed la) ++ number [] (keyed lb), e.1.1.isTup = true := by
      intro e he
      rw [List.mem_append] at he
      rcases he with he | he
      · obtain ⟨u, hu, h1, _⟩ := mem_of_entry he
        rw [← h1]
        have hm := (mla u.2).1 (List.mem_map_of_mem hu)
        exact hs.tup x c n kd xs u.2.1 u.2.2 none _ u.1 hx hcx hcoll hxs hm.1 (.inl rfl) (hida u hu)
      · obtain ⟨u, hu, h1, _⟩ := mem_of_entry he
        rw [← h1]
        have hm := (mlb u.2).1 (List.mem_map_of_mem hu)
        exact hs.tup y c n kd ys u.2.1 u.2.2 none _ u.1 hy hcy hcoll hys hm.1 (.inl rfl) (hidb u hu)
    unfold compareValues
    cases hh : (number [] (keyed la) ++ number [] (keyed lb)).head? with
    | none =>
      rw [List.head?_eq_none_iff] at hh
      rw [hh] at he0
      simp at he0
    | some e' => exact htup e' (List.mem_of_head? hh)
  -- the pairs found approximately
  have hnA := number_nodup (keyed la) []
  have hnB := number_nodup (keyed lb) []
  have hfp' : (fp.map (·.1)).Nodup ∧ (fp.map (·.2)).Nodup := by
    unfold pairsOf at hfp
    split at hfp
    · have h1 := fuzzy_facts hs.ord ((hnA.of_map _).filter _) ((hnB.of_map _).filter _) hfp
      exact ⟨h1.1, h1.2.1⟩
    · simp at hfp
      subst hfp
      simp
  have hfm : ∀ p ∈ fp, p.1 ∈ minus (number [] (keyed la)) (number [] (keyed lb)) ∧
      p.2 ∈ minus (number [] (keyed lb)) (number [] (keyed la)) := fun p hp => pairs_mem hfp hp
  have ekA : (number [] (keyed la)).map (·.2) = (keyed la).map (·.2) := number_keys _ _
  have ekB : (number [] (keyed lb)).map (·.2) = (keyed lb).map (·.2) := number_keys _ _
  obtain ⟨hk1, hk2⟩ := pairing hnA (ekA ▸ kla) (ekB ▸ klb) hfp'.1 hfp'.2 hfm
  -- the members of the pairs
  obtain ⟨ps, hps, hpp⟩ := members_of_keys
    (P := fun u w => (u ∈ xs ∧ pick fa u.1) ∧ (w ∈ ys ∧ pick fa w.1) ∧
      Still (diffIter H o n' (some u.2) (some w.2) (fa ++ [u.1]) (fb ++ [w.1])))
    ((bothSides (number [] (keyed la)) (number [] (keyed lb)) ++ fp).map (fun p => (p.1.2, p.2.2))) (by
      intro k hk
      obtain ⟨p, hp, rfl⟩ := List.mem_map.1 hk
      have hmem : p.1 ∈ number [] (keyed la) ∧ p.2 ∈ number [] (keyed lb) ∧
          Still (descend (diffIter H o n') (some x) (some y) fa fb (p.1.2, p.2.2)) := by
        rcases List.mem_append.1 hp with hp | hp
        · obtain ⟨g1, g2, g3⟩ := mem_both.1 hp
          have g4 := alookup_mem g3
          rw [← g2] at g4
          exact ⟨g1, g4, hcom (hcv p.1 (List.mem_append_left _ g1)) _ (both_common hp)⟩
        · refine ⟨(mem_minus.1 (hfm p hp).1).1, (mem_minus.1 (hfm p hp).2).1, ?_⟩
          have := hfz' p hp
          unfold fuzzyPair at this
          exact (still_append.1 this).1
      obtain ⟨m1, m2, m3⟩ := hmem
      obtain ⟨u, hu, _, hu2⟩ := mem_of_entry m1
      obtain ⟨w, hw, _, hw2⟩ := mem_of_entry m2
      have hu' := (mla u.2).1 (List.mem_map_of_mem hu)
      have hw' := (mlb w.2).1 (List.mem_map_of_mem hw)
      have hi : itemAt (some x) u.2.1 = .ok u.2.2 := itemAt_member hx hxs hu'.1
      have hj : itemAt (some y) w.2.1 = .ok w.2.2 := itemAt_member hy hys hw'.1
      rw [← hu2, ← hw2] at m3
      simp only [descend, hi, hj, bindE_ok] at m3
      exact ⟨u.2, w.2, hu2, hw2, hu', hw', m3⟩)
  have hps1 : ps.map (·.1.1) = (bothSides (number [] (keyed la)) (number [] (keyed lb)) ++ fp).map (fun p => p.1.2) := by
    have := congrArg (List.map Prod.fst) hps
    simpa [List.map_map, Function.comp_def] using this
  have hps2 : ps.map (·.2.1) = (bothSides (number [] (keyed la)) (number [] (keyed lb)) ++ fp).map (fun p => p.2.2) := by
    have := congrArg (List.map Prod.snd) hps
    simpa [List.map_map, Function.comp_def] using this
  have inj1 : ∀ e ∈ xs, ∀ e' ∈ xs, e.1 = e'.1 → e = e' := fun e he e' he' => List.inj_on_of_nodup_map nxs he he'
  have inj2 : ∀ e ∈ ys, ∀ e' ∈ ys, e.1 = e'.1 → e = e' := fun e he e' he' => List.inj_on_of_nodup_map nys he he'
  refine .records ps hcx hcy hcoll hxs hys (hps1 ▸ hk1) (hps2 ▸ hk2) (fun e => ⟨?_, fun he => ?_⟩)
    (fun e => ⟨?_, fun he => ?_⟩) (fun p hp => ?_) (fun p hp => ?_)
  · intro he
    obtain ⟨p, hp, rfl⟩ := List.mem_map.1 he
    exact (hpp p hp).1
  · obtain ⟨u, hu, hue⟩ := List.mem_map.1 ((mla e).2 he)
    obtain ⟨m, hm⟩ := entry_of_mem hu
    have hin : e.1 ∈ ps.map (·.1.1) := by
      rw [hps1, List.map_append, List.mem_append]
      by_cases hb : (u.1, m) ∈ (number [] (keyed lb)).map (·.1)
      · left
        obtain ⟨f, hf, hf1⟩ := List.mem_map.1 hb
        have hlk := alookup_nodup hnB hf
        rw [hf1] at hlk
        refine List.mem_map.2 ⟨(((u.1, m), u.2.1), ((u.1, m), f.2)), mem_both.2 ⟨hm, rfl, hlk⟩, ?_⟩
        rw [← hue]
      · right
        have hmin : ((u.1, m), u.2.1) ∈ minus (number [] (keyed la)) (number [] (keyed lb)) := mem_minus.2 ⟨hm, hb⟩
        by_cases hf : ((u.1, m), u.2.1) ∈ fp.map (·.1)
        · obtain ⟨p, hp, hp1⟩ := List.mem_map.1 hf
          exact List.mem_map.2 ⟨p, hp, by rw [hp1, ← hue]⟩
        · have := hrem _ (List.mem_filter.2 ⟨hmin, by simp [hf]⟩)
          simp at this
    obtain ⟨p, hp, hp1⟩ := List.mem_map.1 hin
    exact List.mem_map.2 ⟨p, hp, inj1 _ (hpp p hp).1.1 _ he.1 hp1⟩
  · intro he
    obtain ⟨p, hp, rfl⟩ := List.mem_map.1 he
    exact (hpp p hp).2.1
  · obtain ⟨u, hu, hue⟩ := List.mem_map.1 ((mlb e).2 he)
    obtain ⟨m, hm⟩ := entry_of_mem hu
    have hin : e.1 ∈ ps.map (·.2.1) := by
      rw [hps2, List.map_append, List.mem_append]
      by_cases hb : (u.1, m) ∈ (number [] (keyed la)).map (·.1)
      · left
        obtain ⟨f, hf, hf1⟩ := List.mem_map.1 hb
        have hlk := alookup_nodup hnB hm
        refine List.mem_map.2 ⟨(f, ((u.1, m), u.2.1)), mem_both.2 ⟨hf, hf1.symm, ?_⟩, ?_⟩
        · rw [hf1]; exact hlk
        · rw [← hue]
      · right
        have hmin : ((u.1, m), u.2.1) ∈ minus (number [] (keyed lb)) (number [] (keyed la)) := mem_minus.2 ⟨hm, hb⟩
        by_cases hf : ((u.1, m), u.2.1) ∈ fp.map (·.2)
        · obtain ⟨p, hp, hp1⟩ := List.mem_map.1 hf
          exact List.mem_map.2 ⟨p, hp, by rw [hp1, ← hue]⟩
        · have := hadd _ (List.mem_filter.2 ⟨hmin, by simp [hf]⟩)
          simp at this
    obtain ⟨p, hp, hp1⟩ := List.mem_map.1 hin
    exact List.mem_map.2 ⟨p, hp, inj2 _ (hpp p hp).2.1.1 _ he.1 hp1⟩
  · obtain ⟨h1, h2, h3⟩ := hpp p hp
    exact tags_of_exc' hs.duck (tuples_cls hx hcx hcoll hxs h1.1) h3.exc
  · obtain ⟨h1, h2, h3⟩ := hpp p hp
    have hcu := tuples_cls hx hcx hcoll hxs h1.1
    exact ih _ _ _ _ (hs.closed.member x xs _ _ hx hxs h1.1) (hs.closed.member y ys _ _ hy hys h2.1)
      (comparable_cls hcu) (tags_of_exc' hs.duck hcu h3.exc) (htouch _ ((hlook' _).2 h1.2)) h3

/-- Two objects that are compared to the end without a difference agree as far as the filter goes. -/
theorem agreeFor_of_still (hs : StdF H o h) (hsel : ∀ p, selects h p = true ↔ Touches qs p)
    (hcov : ∀ p, Mfs.containsPath h p = true ↔ Whole qs p)
    (hpick : ∀ q k, pick q k ↔ (∀ k', Touches qs (q ++ [k'])) ∨ Whole qs (q ++ [k])) :
    ∀ (n : Nat) (x y : Val) (fa fb : FS), Real H.S x → Real H.S y → comparable x = true → tagOf x = tagOf y →
      Touches qs fa → Still (diffIter H o n (some x) (some y) fa fb) → AgreeFor H o qs pick fa (some x) (some y)
  | 0, _, _, _, _, _, _, _, _, _, hst => absurd hst still_raise
  | n + 1, x, y, fa, fb, hx, hy, hc, ht, hfa, hst => by
    have ih := agreeFor_of_still hs hsel hcov hpick n
    have hst : Still (dispatch H o (diffIter H o n) (some x) (some y) fa fb) := hst
    unfold dispatch at hst
    have hcoll : ∀ c, clsOf x = some c → clsOf y = some c →
        Still (compareColl H o (diffIter H o n) c (some x) (some y) fa fb) →
        AgreeFor H o qs pick fa (some x) (some y) := by
      intro c hcx hcy hst
      unfold compareColl at hst
      split at hst
      · exact absurd hst still_raise
      · exact absurd hst still_raise
      · rename_i kd t hct
        obtain ⟨la, lb, h1, h2, h3⟩ := simple_two' hs.ord hs.duck hst
        exact .simple ht (by intro c' hc'; rw [hcx] at hc'; simp at hc'; subst hc'; exact ⟨kd, t, hct⟩) h1 h2 h3
      · rename_i kd m hct
        exact records_two' hs hsel hcov hpick hx hy hcx hcy hct hfa (fun u w fa fb => ih u w fa fb) hst
    have hcy : ∀ c, tagOf x = some (.cls c) → clsOf y = some c := by
      intro c hc'
      rw [hc'] at ht
      cases y <;> simp [tagOf] at ht <;> simp [clsOf, ht]
    cases x with
    | atom a => simp [comparable, tagOf] at hc
    | list xs =>
      obtain ⟨la, lb, h1, h2, h3⟩ := simple_two' hs.ord hs.duck hst
      exact .simple ht (by simp [clsOf]) h1 h2 h3
    | dict xs =>
      obtain ⟨la, lb, h1, h2, h3⟩ := simple_two' hs.ord hs.duck hst
      exact .simple ht (by simp [clsOf]) h1 h2 h3
    | lcoll c xs => exact hcoll c rfl (hcy c rfl) (still_append.1 hst).1
    | dcoll c xs => exact hcoll c rfl (hcy c rfl) (still_append.1 hst).1
    | rcd c s =>
      have hI := hx.2 _ (.self _)
      simp only [Spec.ItemsOK] at hI
      obtain ⟨t, rfl⟩ : ∃ t, y = .rcd c t := by
        have hJ := hy.2 _ (.self _)
        cases y with
        | rcd c' t => simp [tagOf] at ht; subst ht; exact ⟨t, rfl⟩
        | lcoll c' t =>
          simp [tagOf] at ht
          subst ht
          obtain ⟨⟨it, hit⟩, _⟩ := hJ
          rw [hI] at hit
          simp at hit
        | dcoll c' t =>
          simp [tagOf] at ht
          subst ht
          obtain ⟨⟨it, hit⟩, _⟩ := hJ
          rw [hI] at hit
          simp at hit
        | _ => simp [tagOf] at ht
      have hst : Still (compareRecord H o (diffIter H o n) (some (.rcd c s)) (some (.rcd c t)) fa fb) := hst
      unfold compareRecord at hst
      split at hst
      · exact absurd hst still_raise
      rw [still_forEach] at hst
      have hr : ∀ p ∈ (H.S.cls c).props, Compared o p → Touches qs (fa ++ [.str p.name]) → ∃ va vb,
          H.normSlot (readAttr H.S (.rcd c s) p.name) p (some (.rcd c s)) = .ok va ∧
          H.normSlot (readAttr H.S (.rcd c t) p.name) p (some (.rcd c t)) = .ok vb ∧
          Still (compareVals H o (diffIter H o n) va vb (fa ++ [.str p.name]) (fb ++ [.str p.name])) := by
        intro p hp hcp htp
        have hst := hst p ((mem_propsOf rfl).2 hp)
        unfold compareProp at hst
        rw [still_when] at hst
        have hnf : (!isFiltered o p (fa ++ [.str p.name])) = true := by
          unfold isFiltered
          rw [hs.active]
          simp only [(hsel _).2 htp]
          unfold Compared at hcp
          cases ho : o.extraneous with
          | true => rfl
          | false => rw [hcp ho]; rfl
        have hst := hst hnf
        simp only [still_bindE] at hst
        obtain ⟨va, hva, vb, hvb, hst⟩ := hst
        exact ⟨va, vb, hva, hvb, hst⟩
      refine .record (slotVal H (.rcd c s)) (slotVal H (.rcd c t)) (fun p hp hcp htp => ?_) (fun p hp hcp htp => ?_)
        (fun p hp hcp htp => ?_)
      · obtain ⟨va, vb, h1, h2, _⟩ := hr p hp hcp htp
        rw [slotVal_eq h1, h1]
      · obtain ⟨va, vb, h1, h2, _⟩ := hr p hp hcp htp
        rw [slotVal_eq h2, h2]
      · obtain ⟨va, vb, h1, h2, hst⟩ := hr p hp hcp htp
        rw [slotVal_eq h1, slotVal_eq h2]
        cases va with
        | none =>
          cases vb with
          | none => exact .unset
          | some w =>
            simp only [compareVals, hs.duck, hs.slots, Bool.or_false, Bool.and_false, Bool.false_eq_true, if_false] at hst
            rcases still_yield.1 hst with h | h <;> simp at h
        | some u =>
          have hru := hs.closed.slot _ p u hx h1
          cases vb with
          | none =>
            simp only [compareVals, hs.duck, hs.slots, Bool.or_false, Bool.and_false, Bool.false_eq_true, if_false] at hst
            rcases still_yield.1 hst with h | h <;> simp at h
          | some w =>
            have hrw := hs.closed.slot _ p w hy h2
            unfold compareVals at hst
            simp only [hs.duck, Bool.or_false] at hst
            split at hst
            · rename_i hd
              simp only [Bool.and_eq_true, Bool.or_eq_true, decide_eq_true_eq] at hd
              have hcu : comparable u = true := by
                rcases hd.1 with h | h
                · exact h
                · unfold comparable at h ⊢
                  rw [hd.2]
                  exact h
              exact ih u w _ _ hru hrw hcu hd.2 htp hst
            · rename_i hd
              rw [still_bindE] at hst
              obtain ⟨eq, heq, hst⟩ := hst
              cases eq with
              | false =>
                simp only [Bool.false_eq_true, if_false] at hst
                rcases still_yield.1 hst with h | h <;> simp at h
              | true =>
                refine .equal ?_ heq
                by_cases htt : tagOf u = tagOf w
                · left
                  simp only [Bool.and_eq_true, Bool.or_eq_true, decide_eq_true_eq, not_and] at hd
                  cases htu : tagOf u with
                  | none => rfl
                  | some g => exact absurd htt (hd (.inl (by simp [comparable, htu])))
                · exact .inr htt

end Normalize.Diff
