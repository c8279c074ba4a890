import Verif.Spec.IdentityFilter
import Verif.Props.DiffCopy

/-!
# C127: record_id with a selector
-/

namespace Normalize.Ident

open Normalize.Spec

variable {S : Schema}

/-- C127: `record_id(x, type, selector)` depends on the selected parts of `x` alone. -/
def C127_statement : Prop :=
  ∀ (S : Schema) (ord : List MArg → List MArg) (h : Heads) (qs : List FS) (n : Nat) (ty : Ty) (x y : Val),
    Mfs.OrdOK ord → Built ord h qs → qs ≠ [] → AgreeIn S (.node h) x y →
    rid S none n ty (some h) x = rid S none n ty (some h) y

/-- An empty selector is no selector: everything counts. -/
theorem C127_empty (S : Schema) (nos : Option SlotHook) (n : Nat) (ty : Ty) (x : Val) :
    rid S nos n ty (some []) x = rid S nos n ty none x := by
  cases n with
  | zero => cases ty <;> simp only [rid]
  | succ n =>
    cases ty with
    | other k => simp only [rid]
    | cls c =>
      have h1 : ∀ k, passes (some []) k = passes none k := fun k => rfl
      have h2 : ∀ k, subSel (some []) k = subSel none k := fun k => rfl
      have h3 : slotKey S nos (fun c' s w => rid S nos n (.cls c') s w) (fun k => khash S n k) (some []) x =
          slotKey S nos (fun c' s w => rid S nos n (.cls c') s w) (fun k => khash S n k) none x := by
        funext p
        simp only [slotKey, h2]
      simp only [rid, pkCols, idProps, h1, h2, h3]
      rfl

theorem passes_key {h : Heads} (w : Mfs.WF h) (hne : h ≠ []) (hn : Mfs.hasNone h = false) {k : Comp} :
    passes (some h) k = true ↔ ∃ t, (k, t) ∈ h := by
  have h1 : Mfs.nonEmpty h = true := by cases h with | nil => exact absurd rfl hne | cons _ _ => rfl
  have hcomp : Mfs.complete h = false := by simp [Mfs.complete, hn]
  unfold passes
  simp only [h1, if_true]
  simp only [Mfs.getPath, hcomp, Bool.false_eq_true, if_false, Mfs.headKey, hn]
  constructor
  · intro hp
    cases hl : Mfs.lookup h k with
    | none => rw [hl] at hp; simp at hp
    | some t => exact ⟨t, Mfs.lookup_mem hl⟩
  · rintro ⟨t, hm⟩
    rw [Mfs.lookup_of_mem w.nodup hm]
    cases t with
    | all => rfl
    | node s =>
      have := w.nonempty _ _ hm
      cases s with
      | nil => exact absurd rfl this
      | cons _ _ => rfl

theorem subSel_key {h : Heads} (w : Mfs.WF h) (hne : h ≠ []) (hn : Mfs.hasNone h = false) {k : Comp} {t : MTree}
    (hm : (k, t) ∈ h) :
    subSel (some h) k = some (match t with | .all => Mfs.completeHeads | .node s => s) := by
  have h1 : Mfs.nonEmpty h = true := by cases h with | nil => exact absurd rfl hne | cons _ _ => rfl
  have hcomp : Mfs.complete h = false := by simp [Mfs.complete, hn]
  simp only [subSel, h1, if_true, Mfs.getComp, hcomp, Bool.false_eq_true, if_false, Mfs.lookup_of_mem w.nodup hm]
  cases t <;> rfl

theorem identifying_picks {c : String} {h : Heads} {p : IProp} (hp : Identifying S c h p) : PicksIn h p.name := by
  rcases hp with ⟨h1, h2⟩ | ⟨_, _, _, h2⟩
  · exact h1 p h2
  · exact h2

theorem idProps_of_identifying {c : String} {h : Heads} (w : Mfs.WF h) (hne : h ≠ []) (hn : Mfs.hasNone h = false)
    {p : IProp} (hp : Identifying S c h p) : idProps (S.cls c) (some h) ≠ [] := by
  intro e
  unfold idProps pkCols at e
  rcases hp with ⟨h1, h2⟩ | ⟨h1, h2, h3, h4⟩
  · have hall : ((S.cls c).pk.all fun p => passes (some h) (.str p.name)) = true :=
      List.all_eq_true.mpr (fun q hq => (Diff.passes_iff w hne hn).2 (h1 q hq))
    simp only [hall, if_true] at e
    split at e
    · next he => rw [List.isEmpty_iff] at he; rw [he] at h2; simp at h2
    · rw [e] at h2; simp at h2
  · have hmem : p ∈ (sortedProps (S.cls c)).filter (fun p => passes (some h) (.str p.name)) := by
      rw [List.mem_filter]
      refine ⟨?_, (Diff.passes_iff w hne hn).2 h4⟩
      simp only [sortedProps, List.mem_insertionSort, List.mem_filter]
      exact ⟨h2, by simp [h3]⟩
    have hemp : (if ((S.cls c).pk.all fun p => passes (some h) (.str p.name)) = true then (S.cls c).pk else []) = [] := by
      rcases h1 with h1 | ⟨q, hq, hnq⟩
      · rw [h1]; simp
      · rw [if_neg]
        intro hall
        exact hnq ((Diff.passes_iff w hne hn).1 (List.all_eq_true.mp hall q hq))
    rw [hemp] at e
    simp only [List.isEmpty_nil, if_true] at e
    rw [e] at hmem
    simp at hmem

theorem mapE_length {α β ε : Type} {f : α → Except ε β} : ∀ {l : List α} {r : List β}, mapE f l = .ok r →
    r.length = l.length := by
  intro l
  induction l with
  | nil => intro r h; simp only [mapE, Except.ok.injEq] at h; subst h; rfl
  | cons a l ih =>
    intro r h
    simp only [mapE] at h
    split at h
    · exact nomatch h
    · split at h
      · exact nomatch h
      · next b _ _ bs hb =>
        cases h
        simp [ih hb]

theorem bestKey_nonempty {f : String → Except Exc Key} : ∀ {ts : List Ty} {best : List Key} {n : Nat} {r : List Key},
    (best ≠ [] ∨ ∃ c, Ty.cls c ∈ ts ∧ ∀ k, f c = .ok k → k.members ≠ []) → bestKey f ts best n = .ok r → r ≠ [] := by
  intro ts
  induction ts with
  | nil =>
    intro best n r h e
    simp only [bestKey, Except.ok.injEq] at e
    subst e
    rcases h with h | ⟨c, hc, _⟩
    · exact h
    · exact absurd hc (by simp)
  | cons t ts ih =>
    intro best n r h e
    cases t with
    | other k =>
      simp only [bestKey] at e
      refine ih ?_ e
      rcases h with h | ⟨c, hc, hk⟩
      · exact Or.inl h
      · exact Or.inr ⟨c, by simpa using hc, hk⟩
    | cls c' =>
      simp only [bestKey] at e
      split at e
      · exact nomatch e
      · next k hk =>
        split at e
        · next hb =>
          refine ih ?_ e
          by_cases hm : k.members = []
          · rcases h with h | ⟨c, hc, hkk⟩
            · exfalso
              rw [hm] at hb
              cases best with
              | nil => exact h rfl
              | cons b bs => simp [setElements] at hb
            · rcases List.mem_cons.mp hc with e1 | e1
              · cases e1
                exact absurd hm (hkk k hk)
              · exact Or.inr ⟨c, e1, hkk⟩
          · exact Or.inl hm
        · next hb =>
          refine ih (Or.inl ?_) e
          rintro rfl
          simp at hb

/-- A record type that some selected property identifies gives a key with members. -/
theorem rid_nonempty {n : Nat} {c : String} {h : Heads} {v : Val} {k : Key} (w : Mfs.WF h) (hne : h ≠ [])
    (hn : Mfs.hasNone h = false) (hc : (S.cls c).coll = none) {q : IProp} (hq : Identifying S c h q)
    (hk : rid S none n (.cls c) (some h) v = .ok k) : k.members ≠ [] := by
  cases n with
  | zero => simp only [rid] at hk; exact nomatch hk
  | succ n =>
    simp only [rid, hc] at hk
    have hp := idProps_of_identifying w hne hn hq
    revert hk
    generalize hm : mapE _ _ = r
    intro hk
    cases r with
    | error e => exact nomatch hk
    | ok ks =>
      simp only [asTuple, Except.ok.injEq] at hk
      subst hk
      have := mapE_length hm
      intro e
      have e : ks = [] := e
      rw [e] at this
      exact hp (List.length_eq_zero_iff.mp this.symm)

/-- The numbered items of two lists that match where selected. -/
theorem enum_filter {P : Comp → Bool} {R : Comp × Val → Comp × Val → Prop} : ∀ {xs ys : List Val} {b : Nat},
    (∀ i : Nat, P (.int (b + i : Nat)) = true → (xs[i]?).isSome = (ys[i]?).isSome) →
    (∀ (i : Nat) v w, P (.int (b + i : Nat)) = true → xs[i]? = some v → ys[i]? = some w →
      R (.int (b + i : Nat), v) (.int (b + i : Nat), w)) →
    List.Forall₂ R (((xs.zipIdx b).map (fun x => (Comp.int x.2, x.1))).filter (fun e => P e.1))
      (((ys.zipIdx b).map (fun x => (Comp.int x.2, x.1))).filter (fun e => P e.1)) := by
  have none_left : ∀ {ys : List Val} {b : Nat},
      (∀ i : Nat, P (.int (b + i : Nat)) = true → false = (ys[i]?).isSome) →
      (((ys.zipIdx b).map (fun x => (Comp.int x.2, x.1))).filter (fun e => P e.1)) = [] := by
    intro ys
    induction ys with
    | nil => intro b _; rfl
    | cons y ys ih =>
      intro b h
      simp only [List.zipIdx_cons, List.map_cons]
      rw [List.filter_cons_of_neg]
      · apply ih
        intro i hi
        have := h (i + 1) (by rw [show b + (i + 1) = b + 1 + i by omega]; exact hi)
        simpa using this
      · intro hp
        have := h 0 (by simpa using hp)
        simp at this
  intro xs
  induction xs with
  | nil =>
    intro ys b h _
    rw [none_left (ys := ys) (b := b) (by simpa using h)]
    exact .nil
  | cons x xs ih =>
    intro ys b h hR
    cases ys with
    | nil =>
      rw [none_left (ys := x :: xs) (b := b) (fun i hi => by simpa using (h i hi).symm)]
      exact .nil
    | cons y ys =>
      simp only [List.zipIdx_cons, List.map_cons]
      have ht := ih (ys := ys) (b := b + 1)
        (fun i hi => by
          have := h (i + 1) (by rw [show b + (i + 1) = b + 1 + i by omega]; exact hi)
          simpa using this)
        (fun i v w hi hv hw => by
          have := hR (i + 1) v w (by rw [show b + (i + 1) = b + 1 + i by omega]; exact hi) (by simpa using hv) (by simpa using hw)
          rw [show b + (i + 1) = b + 1 + i by omega] at this
          exact this)
      by_cases hp : P (.int b) = true
      · rw [List.filter_cons_of_pos (by simpa using hp), List.filter_cons_of_pos (by simpa using hp)]
        refine .cons ?_ ht
        exact hR 0 x y (by simpa using hp) rfl rfl
      · rw [List.filter_cons_of_neg (by simpa using hp), List.filter_cons_of_neg (by simpa using hp)]
        exact ht

theorem entries_filter {P : Comp → Bool} {R : Comp × Val → Comp × Val → Prop} {xs ys : List (Comp × Val)}
    (h : (xs.filter (fun e => P e.1)).map (·.1) = (ys.filter (fun e => P e.1)).map (·.1))
    (hR : ∀ k v w, P k = true → (k, v) ∈ xs → (k, w) ∈ ys → R (k, v) (k, w)) :
    List.Forall₂ R (xs.filter (fun e => P e.1)) (ys.filter (fun e => P e.1)) := by
  have hx : ∀ e ∈ xs.filter (fun e => P e.1), e ∈ xs ∧ P e.1 = true := fun e he => List.mem_filter.mp he
  have hy : ∀ e ∈ ys.filter (fun e => P e.1), e ∈ ys := fun e he => (List.mem_filter.mp he).1
  revert h hx hy
  generalize xs.filter (fun e => P e.1) = l
  generalize ys.filter (fun e => P e.1) = r
  intro h hx hy
  induction l generalizing r with
  | nil =>
    cases r with
    | nil => exact .nil
    | cons _ _ => simp at h
  | cons a l ih =>
    cases r with
    | nil => simp at h
    | cons b r =>
      obtain ⟨k, v⟩ := a
      obtain ⟨k', w⟩ := b
      simp only [List.map_cons, List.cons.injEq] at h
      obtain ⟨rfl, h⟩ := h
      have h1 := hx (k, v) (by simp)
      exact .cons (hR k v w h1.2 h1.1 (hy (k, w) (by simp)))
        (ih r h (fun e he => hx e (by simp [he])) (fun e he => hy e (by simp [he])))

theorem _root_.Normalize.Spec.AgreeIn.eq_all {x y : Val} (h : AgreeIn S .all x y) : x = y := by cases h; rfl

/-- Two objects agree and fit the selectors: they have the same key. -/
theorem rid_agree (S : Schema) : ∀ (n : Nat) (h : Heads) (ty : Ty) (x y : Val), Mfs.WF h → h ≠ [] →
    IdFits S (.node h) ty → AgreeIn S (.node h) x y → rid S none n ty (some h) x = rid S none n ty (some h) y := by
  intro n
  induction n with
  | zero => intro h ty x y _ _ _ _; cases ty <;> simp only [rid]
  | succ n ih =>
    intro h ty x y w hne hfit hag
    generalize hmt : MTree.node h = t at hfit
    cases hfit with
    | all => exact nomatch hmt
    | @node h0 c hn hdeep htypes hone htup =>
      cases hmt
      -- the same key of a sub-object
      have sub : ∀ {k : Comp} {t : MTree} {u v : Val} {ty' : Ty}, (k, t) ∈ h → AgreeIn S t u v → IdFits S t ty' →
          rid S none n ty' (subSel (some h) k) u = rid S none n ty' (subSel (some h) k) v := by
        intro k t u v ty' hm ha hf
        cases t with
        | all => rw [ha.eq_all]
        | node s =>
          rw [subSel_key w hne hn hm]
          exact ih s ty' u v (w.sub _ _ hm) (w.nonempty _ _ hm) hf ha
      -- records
      have hslots : ∀ p ∈ idProps (S.cls c) (some h),
          slotKey S none (fun c' s w => rid S none n (.cls c') s w) (fun k => khash S n k) (some h) x p =
          slotKey S none (fun c' s w => rid S none n (.cls c') s w) (fun k => khash S n k) (some h) y p := by
        intro p hp
        obtain ⟨hid, t, hm⟩ := Diff.identifying_of_idProps w hne hn hp
        have hread : readAttr S x p.name = readAttr S y p.name ∨
            ∃ u v, readAttr S x p.name = some u ∧ readAttr S y p.name = some v ∧ AgreeIn S t u v := by
          generalize hmt : MTree.node h = t' at hag
          cases hag with
          | same => exact Or.inl rfl
          | lcoll _ _ _ => exact Or.inl rfl
          | dcoll _ _ _ => exact Or.inl rfl
          | lcollAll _ _ => exact Or.inl rfl
          | dcollAll _ _ => exact Or.inl rfl
          | @rcd h2 c2 s s' _ hset hsub =>
            cases hmt
            have h1 := hset _ _ hm
            cases h2 : readAttr S (.rcd c2 s) p.name with
            | none =>
              rw [h2] at h1
              cases h3 : readAttr S (.rcd c2 s') p.name with
              | none => exact Or.inl rfl
              | some v => rw [h3] at h1; simp at h1
            | some u =>
              rw [h2] at h1
              cases h3 : readAttr S (.rcd c2 s') p.name with
              | none => rw [h3] at h1; simp at h1
              | some v => exact Or.inr ⟨u, v, rfl, rfl, hsub _ _ _ _ hm h2 h3⟩
        rcases hread with hread | ⟨u, v, hu, hv, huv⟩
        · simp only [slotKey, hread, runHook]
        · by_cases heq : u = v
          · subst heq
            simp only [slotKey, hu, hv, runHook]
          · have ht : t ≠ .all := by rintro rfl; exact heq huv.eq_all
            have hu0 : u ≠ .none := by
              rintro rfl
              generalize hx0 : Val.none = z at huv heq
              cases huv with
              | same => exact heq rfl
              | rcd _ _ _ => exact nomatch hx0
              | lcoll _ _ _ => exact nomatch hx0
              | dcoll _ _ _ => exact nomatch hx0
              | lcollAll _ _ => exact nomatch hx0
              | dcollAll _ _ => exact nomatch hx0
            have hv0 : v ≠ .none := by
              rintro rfl
              generalize hx0 : Val.none = z at huv heq
              cases huv with
              | same => exact heq rfl
              | rcd _ _ _ => exact nomatch hx0
              | lcoll _ _ _ => exact nomatch hx0
              | dcoll _ _ _ => exact nomatch hx0
              | lcollAll _ _ => exact nomatch hx0
              | dcollAll _ _ => exact nomatch hx0
            obtain ⟨h', c', q, rfl, hc', hcoll, hn', hq⟩ := hdeep p t hid hm ht
            have hty : p.types ≠ [] := by intro e; rw [e] at hc'; simp at hc'
            have hbest : bestKey (fun c' => rid S none n (.cls c') (subSel (some h) (.str p.name)) u) p.types [] 0 =
                bestKey (fun c' => rid S none n (.cls c') (subSel (some h) (.str p.name)) v) p.types [] 0 := by
              have : ∀ (ts : List Ty) (b : List Key) (m : Nat), (∀ a ∈ ts, a ∈ p.types) →
                  bestKey (fun c' => rid S none n (.cls c') (subSel (some h) (.str p.name)) u) ts b m =
                  bestKey (fun c' => rid S none n (.cls c') (subSel (some h) (.str p.name)) v) ts b m := by
                intro ts
                induction ts with
                | nil => intro b m _; rfl
                | cons a ts iht =>
                  intro b m ha
                  have hrest := fun b m => iht b m (fun a' ha' => ha a' (by simp [ha']))
                  cases a with
                  | other k => simp only [bestKey, hrest]
                  | cls c2 =>
                    simp only [bestKey]
                    rw [sub hm huv (htypes p _ c2 hid hm ht (ha _ (by simp)))]
                    simp only [hrest]
              exact this p.types [] 0 (fun _ ha => ha)
            simp only [slotKey, hu, hv, runHook, Option.getD_some]
            rw [if_pos ⟨hu0, hty⟩, if_pos ⟨hv0, hty⟩, hbest]
            cases hb : bestKey (fun c' => rid S none n (.cls c') (subSel (some h) (.str p.name)) v) p.types [] 0 with
            | error e => rfl
            | ok best =>
              have hbn : best ≠ [] := by
                refine bestKey_nonempty (Or.inr ⟨c', hc', fun k hk => ?_⟩) hb
                rw [subSel_key w hne hn hm] at hk
                exact rid_nonempty (w.sub _ _ hm) (w.nonempty _ _ hm) hn' hcoll hq hk
              have hbe : best.isEmpty = false := by cases best with | nil => exact absurd rfl hbn | cons _ _ => rfl
              simp only [checkedKey, hbe, Bool.false_eq_true, if_false]
      have hrecord := mapE_congr hslots
      -- collections
      have hitems : ∀ kd it, (S.cls c).coll = some (kd, it) →
          collTuples S kd x = collTuples S kd y ∨
          ∃ xs ys, collTuples S kd x = .ok xs ∧ collTuples S kd y = .ok ys ∧
            mapE (fun (x : Comp × Val) => rid S none n (itemTy it x.2) (subSel (some h) x.1) x.2)
                (xs.filter (fun x => passes (some h) x.1)) =
              mapE (fun (x : Comp × Val) => rid S none n (itemTy it x.2) (subSel (some h) x.1) x.2)
                (ys.filter (fun x => passes (some h) x.1)) := by
        intro kd it hcoll
        have hitem : ∀ {k t u v}, (k, t) ∈ h → AgreeIn S t u v →
            rid S none n (itemTy it u) (subSel (some h) k) u = rid S none n (itemTy it v) (subSel (some h) k) v := by
          intro k t u v hm ha
          cases it with
          | one ty => exact sub hm ha (hone kd ty k t hcoll hm)
          | tup ts =>
            have := htup kd ts k t hcoll hm
            subst this
            rw [ha.eq_all]
        generalize hmt : MTree.node h = t' at hag
        cases hag with
        | same => exact Or.inl rfl
        | rcd _ _ _ => cases kd <;> exact Or.inl rfl
        | @lcoll h2 c2 xs ys _ hlen hval =>
          cases hmt
          refine Or.inr ⟨enum xs, enum ys, by simp only [collTuples], by simp only [collTuples], ?_⟩
          apply Diff.mapE_pair
          refine enum_filter (P := passes (some h)) (b := 0) ?_ ?_
          · intro i hi
            rw [Nat.zero_add] at hi
            obtain ⟨t, hm⟩ := (passes_key w hne hn).1 hi
            exact hlen i t hm
          · intro i u v hi hu hv
            rw [Nat.zero_add] at hi ⊢
            obtain ⟨t, hm⟩ := (passes_key w hne hn).1 hi
            exact hitem hm (hval i t u v hm hu hv)
        | @dcoll h2 c2 xs ys _ hkeys hval =>
          cases hmt
          refine Or.inr ⟨xs, ys, by simp only [collTuples], by simp only [collTuples], ?_⟩
          apply Diff.mapE_pair
          have hP : ∀ k, decide (k ∈ h.map (·.1)) = passes (some h) k := by
            intro k
            rw [Bool.eq_iff_iff, passes_key w hne hn]
            simp
          simp only [hP] at hkeys
          refine entries_filter (P := passes (some h)) hkeys ?_
          intro k u v hk hu hv
          obtain ⟨t, hm⟩ := (passes_key w hne hn).1 hk
          exact hitem hm (hval k t u v hm hu hv)
        | lcollAll _ _ => cases hmt; simp [Mfs.hasNone] at hn
        | dcollAll _ _ => cases hmt; simp [Mfs.hasNone] at hn
      simp only [rid]
      cases hcoll : (S.cls c).coll with
      | none => simp only [hrecord]
      | some kit =>
        obtain ⟨kd, it⟩ := kit
        cases (pkCols (S.cls c) (some h)).isEmpty with
        | true =>
          rcases hitems kd it hcoll with e | ⟨xs, ys, e1, e2, e3⟩
          · simp only [e]
          · simp only [e1, e2, e3]
        | false => simp only [hrecord]

/-- C127, what holds: with selectors that go through records by name and through collections by index or key, and that
go into parts only where they hold records, `record_id` depends on the selected parts alone. -/
theorem C127_partial (S : Schema) {ord : List MArg → List MArg} (hord : Mfs.OrdOK ord) {h : Heads} {qs : List FS}
    (hb : Built ord h qs) (hq : qs ≠ []) (n : Nat) (ty : Ty) (x y : Val) (hfit : IdFits S (.node h) ty)
    (hag : AgreeIn S (.node h) x y) : rid S none n ty (some h) x = rid S none n ty (some h) y := by
  obtain ⟨w, _, he⟩ := built_sound hord hb
  exact rid_agree S n h ty x y w (fun e => hq (he.1 e)) hfit hag

/-- A wildcard is lost: under selectors that pick something in every item, the identity of a list without a primary key
is the one without any selector. -/
theorem C127_wildcard (S : Schema) (n : Nat) (c c' : String) (kd : CollKind) (it : ItemTy) (s : Heads) (xs : List Val)
    (hc : (S.cls c).coll = some (kd, it)) (hpk : (S.cls c).pk = []) (hs : s ≠ []) :
    rid S none n (.cls c) (some [(.none, .node s)]) (.lcoll c' xs) = rid S none n (.cls c) none (.lcoll c' xs) := by
  cases n with
  | zero => simp only [rid]
  | succ n =>
    have h1 : ∀ i : Int, passes (some [(.none, .node s)]) (.int i) = true := by
      intro i
      cases s with
      | nil => exact absurd rfl hs
      | cons _ _ => rfl
    have h2 : ∀ i : Int, subSel (some [(.none, .node s)]) (.int i) = none := fun i => rfl
    have h3 : ∀ sel, pkCols (S.cls c) sel = [] := by intro sel; simp [pkCols, hpk]
    simp only [rid, hc, h3, List.isEmpty_nil, collTuples]
    have hint : ∀ e ∈ enum xs, ∃ i, e.1 = Comp.int i := by
      intro e he
      simp only [enum, List.mem_map] at he
      obtain ⟨a, _, rfl⟩ := he
      exact ⟨_, rfl⟩
    have hf : (enum xs).filter (fun x => passes (some [(.none, .node s)]) x.1) = enum xs := by
      rw [List.filter_eq_self]
      intro e he
      obtain ⟨i, hi⟩ := hint e he
      rw [hi]; exact h1 i
    have hf' : (enum xs).filter (fun x => passes none x.1) = enum xs := by
      rw [List.filter_eq_self]
      intro e _
      rfl
    rw [hf, hf']
    congr 1
    refine mapE_congr fun e he => ?_
    obtain ⟨i, hi⟩ := hint e he
    rw [hi, h2 i]
    rfl

/-! ## Examples -/

namespace Ex

open Diff.Ex (schema person)

/-- `MultiFieldSelector(["author", "name"], ["title"])` -/
def authorName : Heads := [(.str "author", .node [(.str "name", .all)]), (.str "title", .all)]

theorem authorName_built : Built id authorName [[.str "author", .str "name"], [.str "title"]] :=
  .mk (.fs (.fs .nil)) rfl

/-- A document by a person, with a note. -/
def doc (i : Int) (note : String) : Val :=
  .rcd "Doc" [("author", person i "Ann"), ("title", .str "T"), ("note", .str note)]

theorem authorName_fits : IdFits schema (.node authorName) (.cls "Doc") := by
  have hname : ∀ {p : IProp} {t}, (Comp.str p.name, t) ∈ authorName → t ≠ .all →
      p.name = "author" ∧ t = .node [(.str "name", .all)] := by
    intro p t hm ht
    simp only [authorName, List.mem_cons, Prod.mk.injEq, Comp.str.injEq, List.not_mem_nil, or_false] at hm
    rcases hm with hm | hm
    · exact hm
    · exact absurd hm.2 ht
  have hprop : ∀ {p : IProp}, Identifying schema "Doc" authorName p → p.name = "author" →
      p = { name := "author", types := [.cls "Person"] } := by
    intro p hp hn
    rcases hp with ⟨_, h⟩ | ⟨_, h, _⟩
    · exact absurd h (by simp [schema, Diff.Ex.cls])
    · simp only [schema, Diff.Ex.cls, List.mem_cons, List.not_mem_nil, or_false] at h
      rcases h with rfl | rfl | rfl | rfl | rfl | rfl | rfl <;> first | rfl | exact absurd hn (by decide)
  refine .node rfl ?_ ?_ ?_ ?_
  · intro p t hp hm ht
    obtain ⟨h1, rfl⟩ := hname hm ht
    rw [hprop hp h1]
    refine ⟨_, "Person", { name := "name" }, rfl, by simp, rfl, rfl, Or.inr ⟨Or.inr ⟨{ name := "id" }, ?_, ?_⟩, ?_, rfl, _, List.mem_cons_self⟩⟩
    · simp [schema, Diff.Ex.cls]
    · rintro ⟨t, hm⟩
      exact absurd hm (by simp)
    · simp [schema, Diff.Ex.cls]
  · intro p t c' hp hm ht hc
    obtain ⟨h1, rfl⟩ := hname hm ht
    rw [hprop hp h1] at hc
    simp only [List.mem_singleton, Ty.cls.injEq] at hc
    subst hc
    have hall : ∀ {k : Comp} {t : MTree}, (k, t) ∈ [(Comp.str "name", MTree.all)] → t = .all := by
      intro k t hm
      simp only [List.mem_singleton, Prod.mk.injEq] at hm
      exact hm.2
    exact .node rfl (fun p t _ hm ht => absurd (hall hm) ht) (fun p t _ _ hm ht => absurd (hall hm) ht)
      (fun kd ty k t hc => nomatch hc) (fun kd ts k t hc => nomatch hc)
  · intro kd ty k t hc; exact nomatch hc
  · intro kd ts k t hc; exact nomatch hc

theorem authorName_agree (i j : Int) (a b : String) : AgreeIn schema (.node authorName) (doc i a) (doc j b) := by
  refine .rcd rfl ?_ ?_
  · intro nm t hm
    simp only [authorName, List.mem_cons, Prod.mk.injEq, Comp.str.injEq, List.not_mem_nil, or_false] at hm
    rcases hm with ⟨rfl, _⟩ | ⟨rfl, _⟩ <;> rfl
  · intro nm t v w hm hv hw
    simp only [authorName, List.mem_cons, Prod.mk.injEq, Comp.str.injEq, List.not_mem_nil, or_false] at hm
    rcases hm with ⟨rfl, rfl⟩ | ⟨rfl, rfl⟩
    · cases hv
      cases hw
      refine .rcd rfl ?_ ?_
      · intro nm t hm
        simp only [List.mem_singleton, Prod.mk.injEq, Comp.str.injEq] at hm
        obtain ⟨rfl, _⟩ := hm
        rfl
      · intro nm t v w hm hv hw
        simp only [List.mem_singleton, Prod.mk.injEq, Comp.str.injEq] at hm
        obtain ⟨rfl, rfl⟩ := hm
        cases hv
        cases hw
        exact .same
    · cases hv
      cases hw
      exact .same

/-- `C127_partial` at work: neither the author's id nor the note counts. -/
example (i j : Int) (a b : String) :
    rid schema none 9 (.cls "Doc") (some authorName) (doc i a) = rid schema none 9 (.cls "Doc") (some authorName) (doc j b) :=
  C127_partial schema (fun _ _ => Iff.rfl) authorName_built (by simp) 9 _ _ _ authorName_fits (authorName_agree i j a b)

/-- The key is not trivial. -/
example : rid schema none 9 (.cls "Doc") (some authorName) (doc 1 "a") =
    .ok (.tup [.tup [.raw (.str "Ann")], .raw (.str "T")]) := by decide +kernel

/-- `MultiFieldSelector([None, "name"])` -/
def everyName : Heads := [(.none, .node [(.str "name", .all)])]

theorem everyName_built : Built id everyName [[.none, .str "name"]] := .mk (.fs .nil) rfl

/-- Two lists of people with the same names. -/
theorem everyName_agree (i j : Int) :
    AgreeIn schema (.node everyName) (.lcoll "People" [person i "Ann"]) (.lcoll "People" [person j "Ann"]) := by
  refine .lcollAll rfl ?_
  intro k v w hv hw
  match k, hv, hw with
  | 0, hv, hw =>
    cases hv
    cases hw
    refine .rcd rfl ?_ ?_
    · intro nm t hm
      simp only [List.mem_singleton, Prod.mk.injEq, Comp.str.injEq] at hm
      obtain ⟨rfl, _⟩ := hm
      rfl
    · intro nm t v w hm hv hw
      simp only [List.mem_singleton, Prod.mk.injEq, Comp.str.injEq] at hm
      obtain ⟨rfl, rfl⟩ := hm
      cases hv
      cases hw
      exact .same
  | k + 1, hv, _ => exact nomatch hv

end Ex

/-- **C127 does not hold**: two lists of people with the same names have different keys when only the names are
selected. -/
theorem C127_violated : ¬ C127_statement := by
  intro h
  have := h Diff.Ex.schema id Ex.everyName _ 9 (.cls "People") _ _ (fun _ _ => Iff.rfl) Ex.everyName_built (by simp)
    (Ex.everyName_agree 1 2)
  exact absurd this (by decide +kernel)

/-- C127 for selectors made of names. -/
def C127_names_statement : Prop :=
  ∀ (S : Schema) (ord : List MArg → List MArg) (h : Heads) (qs : List FS) (n : Nat) (ty : Ty) (x y : Val),
    Mfs.OrdOK ord → Built ord h qs → qs ≠ [] → (∀ q ∈ qs, ∀ k ∈ q, ∃ nm, k = Comp.str nm) → AgreeIn S (.node h) x y →
    rid S none n ty (some h) x = rid S none n ty (some h) y

namespace Ex

/-- `MultiFieldSelector(["title", "name"])` -/
def titleName : Heads := [(.str "title", .node [(.str "name", .all)])]

theorem titleName_built : Built id titleName [[.str "title", .str "name"]] := .mk (.fs .nil) rfl

/-- A document with a person for a title. -/
def about (i : Int) : Val := .rcd "Doc" [("title", Diff.Ex.person i "Ann")]

theorem titleName_agree (i j : Int) : AgreeIn Diff.Ex.schema (.node titleName) (about i) (about j) := by
  refine .rcd rfl ?_ ?_
  · intro nm t hm
    simp only [titleName, List.mem_singleton, Prod.mk.injEq, Comp.str.injEq] at hm
    obtain ⟨rfl, _⟩ := hm
    rfl
  · intro nm t v w hm hv hw
    simp only [titleName, List.mem_singleton, Prod.mk.injEq, Comp.str.injEq] at hm
    obtain ⟨rfl, rfl⟩ := hm
    cases hv
    cases hw
    refine .rcd rfl ?_ ?_
    · intro nm t hm
      simp only [List.mem_singleton, Prod.mk.injEq, Comp.str.injEq] at hm
      obtain ⟨rfl, _⟩ := hm
      rfl
    · intro nm t v w hm hv hw
      simp only [List.mem_singleton, Prod.mk.injEq, Comp.str.injEq] at hm
      obtain ⟨rfl, rfl⟩ := hm
      cases hv
      cases hw
      exact .same

end Ex

/-- Nor does it hold for names: where a property has no type, the whole record in it counts. -/
theorem C127_names_violated : ¬ C127_names_statement := by
  intro h
  have := h Diff.Ex.schema id Ex.titleName _ 9 (.cls "Doc") _ _ (fun _ _ => Iff.rfl) Ex.titleName_built (by simp)
    (by
      intro q hq k hk
      simp only [List.mem_singleton] at hq
      subst hq
      simp only [List.mem_cons, List.not_mem_nil, or_false] at hk
      rcases hk with rfl | rfl <;> exact ⟨_, rfl⟩)
    (Ex.titleName_agree 1 2)
  exact absurd this (by decide +kernel)

end Normalize.Ident
