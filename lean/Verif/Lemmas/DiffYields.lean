import Verif.Lemmas.DiffSelf

/-!
# Where the entries of a diff come from
-/

namespace Normalize.Diff
open Ident (IProp ICls Ty ItemTy CollKind Schema readAttr)
open Gen

variable {E F : Type} [DecidableEq E] [DecidableEq F]

/-- The property is compared and has these normalised values. -/
structure Slot (H : Hooks E F) (o : Opts) (a b : Option Val) (fa : FS) (p : IProp) (va vb : Option Val) : Prop where
  mem : p ∈ propsOf H a b
  open_ : isFiltered o p (fa ++ [.str p.name]) = false
  left : H.normSlot (readSlot H a p.name) p a = .ok va
  right : H.normSlot (readSlot H b p.name) p b = .ok vb

/-- Both values are compared part by part. -/
def descends (o : Opts) (x y : Val) : Bool :=
  (comparable x || comparable y) && (decide (tagOf x = tagOf y) || o.duckType)

/-- The sides are compared as simple lists or dicts. -/
inductive IsSimple (H : Hooks E F) (a b : Option Val) : Prop
  | list (xs) : a.orElse (fun _ => b) = some (.list xs) → IsSimple H a b
  | dict (xs) : a.orElse (fun _ => b) = some (.dict xs) → IsSimple H a b
  | lcoll (c xs k t) : a.orElse (fun _ => b) = some (.lcoll c xs) → (H.S.cls c).coll = some (k, .one (.other t)) →
      IsSimple H a b
  | dcoll (c xs k t) : a.orElse (fun _ => b) = some (.dcoll c xs) → (H.S.cls c).coll = some (k, .one (.other t)) →
      IsSimple H a b

/-- The sides are compared as collections of records. -/
inductive IsRecs (H : Hooks E F) (a b : Option Val) (n : String) : Prop
  | lcoll (c xs k) : a.orElse (fun _ => b) = some (.lcoll c xs) → (H.S.cls c).coll = some (k, .one (.cls n)) →
      IsRecs H a b n
  | dcoll (c xs k) : a.orElse (fun _ => b) = some (.dcoll c xs) → (H.S.cls c).coll = some (k, .one (.cls n)) →
      IsRecs H a b n

/-- The entries of both sides of a simple comparison. -/
structure Bags (H : Hooks E F) (o : Opts) (a b : Option Val) (A B : List (Ent (Option F))) : Prop where
  simple : IsSimple H a b
  left : simpleBag H o a a = .ok A
  right : simpleBag H o a b = .ok B

/-- The entries of both sides of a comparison of collections of records. -/
structure Recs (H : Hooks E F) (o : Opts) (a b : Option Val) (fa : FS) (ia : IdArgs) (A B : List (Ent (Id E))) :
    Prop where
  recs : ∃ n, IsRecs H a b n ∧ collBag H o (idType o (.cls n)) ia fa a = .ok A ∧
    collBag H o (idType o (.cls n)) ia fa b = .ok B
  args : idArgs o fa = .ok ia
  live : ia.dead = false

/-- The entry of a diff arises at a place that both sides are compared at. -/
inductive Yields (H : Hooks E F) (o : Opts) : Option Val → Option Val → FS → FS → DInfo → Prop
  | added {a b fa fb p y} : Slot H o a b fa p none (some y) →
      Yields H o a b fa fb ⟨.added, fa ++ [.str p.name], fb ++ [.str p.name]⟩
  | removed {a b fa fb p x} : Slot H o a b fa p (some x) none →
      Yields H o a b fa fb ⟨.removed, fa ++ [.str p.name], fb ++ [.str p.name]⟩
  | modified {a b fa fb p x y} : Slot H o a b fa p (some x) (some y) → descends o x y = false →
      H.itemsEqual x y = .ok false →
      Yields H o a b fa fb ⟨.modified, fa ++ [.str p.name], fb ++ [.str p.name]⟩
  | same {a b fa fb p x y} : Slot H o a b fa p (some x) (some y) → H.itemsEqual x y = .ok true →
      o.unchanged = true → Yields H o a b fa fb ⟨.noChange, fa ++ [.str p.name], fb ++ [.str p.name]⟩
  | sub {a b fa fb p x y d} : Slot H o a b fa p (some x) (some y) → descends o x y = true →
      Yields H o (some x) (some y) (fa ++ [.str p.name]) (fb ++ [.str p.name]) d → Yields H o a b fa fb d
  | netSame {a b fa fb p va vb} : Slot H o a b fa p va vb → o.unchanged = true →
      Yields H o a b fa fb ⟨.noChange, fa ++ [.str p.name], fb ++ [.str p.name]⟩
  | netL {a b fa fb p x d} : Slot H o a b fa p (some x) none → d.kind ≠ .noChange →
      Yields H o (some x) none (fa ++ [.str p.name]) (fb ++ [.str p.name]) d →
      Yields H o a b fa fb ⟨d.kind, fa ++ [.str p.name], fb ++ [.str p.name]⟩
  | netR {a b fa fb p y d} : Slot H o a b fa p none (some y) → d.kind ≠ .noChange →
      Yields H o none (some y) (fa ++ [.str p.name]) (fb ++ [.str p.name]) d →
      Yields H o a b fa fb ⟨d.kind, fa ++ [.str p.name], fb ++ [.str p.name]⟩
  | sMoved {a b fa fb A B ka kb} : Bags H o a b A B → (ka, kb) ∈ common A B → ka ≠ kb → o.moved = true →
      Yields H o a b fa fb ⟨.moved, fa ++ [ka], fb ++ [kb]⟩
  | sSame {a b fa fb A B ka kb} : Bags H o a b A B → (ka, kb) ∈ common A B → o.unchanged = true →
      Yields H o a b fa fb ⟨.noChange, fa ++ [ka], fb ++ [kb]⟩
  | sRemoved {a b fa fb A B e} : Bags H o a b A B → e ∈ minus A B →
      Yields H o a b fa fb ⟨.removed, fa ++ [e.2], fb⟩
  | sAdded {a b fa fb A B e} : Bags H o a b A B → e ∈ minus B A →
      Yields H o a b fa fb ⟨.added, fa, fb ++ [e.2]⟩
  | sModified {a b fa fb A B e e'} : Bags H o a b A B → e ∈ minus A B → e' ∈ minus B A → e'.2 = e.2 →
      Yields H o a b fa fb ⟨.modified, fa ++ [e.2], fb ++ [e.2]⟩
  | item {a b fa fb ia A B ka kb x y d} : Recs H o a b fa ia A B → ka ∈ A.map (·.2) → kb ∈ B.map (·.2) →
      itemAt a ka = .ok x → itemAt b kb = .ok y →
      Yields H o (some x) (some y) (fa ++ [ka]) (fb ++ [kb]) d → Yields H o a b fa fb d
  | itemR {b fa fb ia A B k y d} : Recs H o none b fa ia A B → k ∈ B.map (·.2) → itemAt b k = .ok y →
      Yields H o none (some y) (fa ++ [k]) (fb ++ [k]) d → Yields H o none b fa fb d
  | itemL {x' fa fb ia A B k x d} : Recs H o (some x') none fa ia A B → k ∈ A.map (·.2) →
      itemAt (some x') k = .ok x →
      Yields H o (some x) none (fa ++ [k]) (fb ++ [k]) d → Yields H o (some x') none fa fb d
  | rMoved {a b fa fb ia A B ka kb} : Recs H o a b fa ia A B → ka ∈ A.map (·.2) → kb ∈ B.map (·.2) → ka ≠ kb →
      o.moved = true → Yields H o a b fa fb ⟨.moved, fa ++ [ka], fb ++ [kb]⟩
  | rSame {a b fa fb ia A B ka kb} : Recs H o a b fa ia A B → ka ∈ A.map (·.2) → kb ∈ B.map (·.2) →
      o.unchanged = true → Yields H o a b fa fb ⟨.noChange, fa ++ [ka], fb ++ [kb]⟩
  | rRemoved {a b fa fb ia A B k} : Recs H o a b fa ia A B → k ∈ A.map (·.2) →
      Yields H o a b fa fb ⟨.removed, fa ++ [k], fb⟩
  | rAdded {a b fa fb ia A B k} : Recs H o a b fa ia A B → k ∈ B.map (·.2) →
      Yields H o a b fa fb ⟨.added, fa, fb ++ [k]⟩

variable {H : Hooks E F} {o : Opts}

/-- `rec` yields only what `Yields` allows. -/
def RecYields (H : Hooks E F) (o : Opts) (rec : Rec) : Prop :=
  ∀ a b fa fb d, d ∈ (rec a b fa fb).out → Yields H o a b fa fb d

theorem mem_matched {fa fb : FS} {k : Comp × Comp} {d : DInfo} (hd : d ∈ (matched o fa fb k).out) :
    (k.1 ≠ k.2 ∧ o.moved = true ∧ d = ⟨.moved, fa ++ [k.1], fb ++ [k.2]⟩) ∨
      (o.unchanged = true ∧ d = ⟨.noChange, fa ++ [k.1], fb ++ [k.2]⟩) := by
  unfold matched at hd
  split at hd
  · rename_i h
    simp at h
    exact .inl ⟨h.2, h.1, mem_yield hd⟩
  · obtain ⟨h1, h2⟩ := mem_when hd
    exact .inr ⟨h1, mem_yield h2⟩

theorem mem_modifiedKeys {J : Type} {R A : List (Ent J)} {k : Comp} :
    k ∈ modifiedKeys R A ↔ (∃ e ∈ R, e.2 = k) ∧ ∃ e ∈ A, e.2 = k := by
  unfold modifiedKeys
  rw [List.mem_filter, List.mem_dedup]
  simp only [List.mem_map, decide_eq_true_eq]

theorem mem_simple (ho : OrdOK H) {a b : Option Val} {fa fb : FS} {d : DInfo} (hs : IsSimple H a b)
    (hd : d ∈ (compareSimple H o a b fa fb).out) : Yields H o a b fa fb d := by
  obtain ⟨A, hA, hd⟩ := mem_bindE hd
  obtain ⟨B, hB, hd⟩ := mem_bindE hd
  have hb : Bags H o a b A B := ⟨hs, hA, hB⟩
  unfold compareBags at hd
  rcases mem_append hd with hd | hd
  · rcases mem_append hd with hd | hd
    · rcases mem_append hd with hd | hd
      · obtain ⟨k, hk, hd⟩ := mem_forEach (mem_when hd).2
        rw [ho.mem] at hk
        rcases mem_matched hd with ⟨h1, h2, rfl⟩ | ⟨h1, rfl⟩
        · exact .sMoved hb hk h1 h2
        · exact .sSame hb hk h1
      · obtain ⟨e, he, hd⟩ := mem_forEach hd
        rw [ho.mem] at he
        obtain ⟨_, hd⟩ := mem_when hd
        rw [mem_yield hd]
        exact .sRemoved hb he
    · obtain ⟨e, he, hd⟩ := mem_forEach hd
      rw [ho.mem] at he
      obtain ⟨_, hd⟩ := mem_when hd
      rw [mem_yield hd]
      exact .sAdded hb he
  · obtain ⟨k, hk, hd⟩ := mem_forEach hd
    rw [ho.mem, mem_modifiedKeys] at hk
    obtain ⟨⟨e, he, h1⟩, ⟨e', he', h2⟩⟩ := hk
    rw [mem_yield hd, ← h1]
    exact .sModified hb he he' (h2.trans h1.symm)

theorem net_kinds {fa fb : FS} {g : Gen} {d : DInfo} (hd : d ∈ (net o fa fb g).out) :
    (o.unchanged = true ∧ d = ⟨.noChange, fa, fb⟩) ∨
      ∃ d' ∈ g.out, d'.kind ≠ .noChange ∧ d = ⟨d'.kind, fa, fb⟩ := by
  unfold net at hd
  split at hd
  · simp at hd
  · split at hd
    · obtain ⟨h, hd⟩ := mem_when hd
      exact .inl ⟨h, mem_yield hd⟩
    · rename_i t ht
      have : t ∈ ((g.out.map (·.kind)).filter (fun t => decide (t ≠ .noChange))).dedup := by rw [ht]; simp
      rw [List.mem_dedup, List.mem_filter, List.mem_map] at this
      obtain ⟨⟨d', hd', rfl⟩, h⟩ := this
      exact .inr ⟨d', hd', by simpa using h, mem_yield hd⟩
    · simp at hd

theorem mem_record {rec : Rec} (hr : RecYields H o rec) {a b : Option Val} {fa fb : FS} {d : DInfo}
    (hd : d ∈ (compareRecord H o rec a b fa fb).out) : Yields H o a b fa fb d := by
  unfold compareRecord at hd
  split at hd
  · simp at hd
  · obtain ⟨p, hp, hd⟩ := mem_forEach hd
    obtain ⟨hf, hd⟩ := mem_when hd
    obtain ⟨va, hva, hd⟩ := mem_bindE hd
    obtain ⟨vb, hvb, hd⟩ := mem_bindE hd
    have hs : Slot H o a b fa p va vb := ⟨hp, by simpa using hf, hva, hvb⟩
    unfold compareVals at hd
    cases va with
    | none =>
      cases vb with
      | none => simp at hd
      | some y =>
        simp only at hd
        split at hd
        · rcases net_kinds hd with ⟨hu, rfl⟩ | ⟨d', hd', hk, rfl⟩
          · exact .netSame hs hu
          · exact .netR hs hk (hr _ _ _ _ _ hd')
        · rw [mem_yield hd]
          exact .added hs
    | some x =>
      cases vb with
      | none =>
        simp only at hd
        split at hd
        · rcases net_kinds hd with ⟨hu, rfl⟩ | ⟨d', hd', hk, rfl⟩
          · exact .netSame hs hu
          · exact .netL hs hk (hr _ _ _ _ _ hd')
        · rw [mem_yield hd]
          exact .removed hs
      | some y =>
        simp only at hd
        split at hd
        · rename_i h
          exact .sub hs h (hr _ _ _ _ _ hd)
        · rename_i h
          obtain ⟨eq, heq, hd⟩ := mem_bindE hd
          cases eq with
          | true =>
            obtain ⟨hu, hd⟩ := mem_when hd
            rw [mem_yield hd]
            exact .same hs heq hu
          | false =>
            rw [mem_yield hd]
            exact .modified hs (by unfold descends; simpa using h) heq

theorem greedy_mem : ∀ (l : List (Scored E)) (ra rb : List (Ent (Id E))) (p : Ent (Id E) × Ent (Id E)),
    p ∈ greedy l ra rb → p.1 ∈ ra ∧ p.2 ∈ rb
  | [], _, _, p, h => by simp [greedy] at h
  | s :: r, ra, rb, p, h => by
    unfold greedy at h
    split at h
    · rename_i hs
      rw [List.mem_cons] at h
      rcases h with rfl | h
      · exact hs
      · split at h
        · simp at h
        · obtain ⟨h1, h2⟩ := greedy_mem r _ _ p h
          exact ⟨List.mem_of_mem_erase h1, List.mem_of_mem_erase h2⟩
    · split at h
      · simp at h
      · exact greedy_mem r ra rb p h

theorem pairs_mem {A B : List (Ent (Id E))} {ps : List (Ent (Id E) × Ent (Id E))} (h : pairsOf H o A B = .ok ps)
    {p : Ent (Id E) × Ent (Id E)} (hp : p ∈ ps) : p.1 ∈ minus A B ∧ p.2 ∈ minus B A := by
  unfold pairsOf at h
  split at h
  · unfold fuzzyMatch at h
    split at h
    · simp at h
    · simp at h
      subst h
      exact greedy_mem _ _ _ p hp
  · simp at h
    subst h
    simp at hp

theorem key_of_minus {A B : List (Ent (Id E))} {e : Ent (Id E)} (h : e ∈ minus A B) : e.2 ∈ A.map (·.2) :=
  List.mem_map_of_mem (mem_minus.1 h).1

theorem keys_of_common {J : Type} [DecidableEq J] {A B : List (Ent J)} {k : Comp × Comp} (h : k ∈ common A B) :
    k.1 ∈ A.map (·.2) ∧ k.2 ∈ B.map (·.2) := by
  obtain ⟨i, hi, hk⟩ := mem_common.1 h
  exact ⟨List.mem_map.2 ⟨_, hi, rfl⟩, List.mem_map.2 ⟨_, alookup_mem hk, rfl⟩⟩

theorem mem_descend {rec : Rec} (hr : RecYields H o rec) {a b : Option Val} {fa fb : FS} {ia : IdArgs}
    {A B : List (Ent (Id E))} (hR : Recs H o a b fa ia A B) {k : Comp × Comp} (h1 : k.1 ∈ A.map (·.2))
    (h2 : k.2 ∈ B.map (·.2)) {d : DInfo} (hd : d ∈ (descend rec a b fa fb k).out) : Yields H o a b fa fb d := by
  obtain ⟨x, hx, hd⟩ := mem_bindE hd
  obtain ⟨y, hy, hd⟩ := mem_bindE hd
  exact .item hR h1 h2 hx hy (hr _ _ _ _ _ hd)

theorem mem_members (ho : OrdOK H) {rec : Rec} (hr : RecYields H o rec) {a b : Option Val} {fa fb : FS} {ia : IdArgs}
    {A B : List (Ent (Id E))} (hR : Recs H o a b fa ia A B) {d : DInfo}
    (hd : d ∈ (compareMembers H o rec a b fa fb A B).out) : Yields H o a b fa fb d := by
  unfold compareMembers at hd
  split at hd
  · unfold compareKeys at hd
    rcases mem_append hd with hd | hd
    · rcases mem_append hd with hd | hd
      · obtain ⟨k, hk, hd⟩ := mem_forEach hd
        rw [ho.mem, List.mem_filter, List.mem_dedup] at hk
        obtain ⟨_, hd⟩ := mem_when hd
        exact mem_descend (k := (k, k)) hr hR hk.1 (by simpa using hk.2) hd
      · obtain ⟨k, hk, hd⟩ := mem_forEach hd
        rw [ho.mem, List.mem_filter, List.mem_dedup] at hk
        rw [mem_yield hd]
        exact .rRemoved hR hk.1
    · obtain ⟨k, hk, hd⟩ := mem_forEach hd
      rw [ho.mem, List.mem_filter, List.mem_dedup] at hk
      rw [mem_yield hd]
      exact .rAdded hR hk.1
  · split at hd
    · rename_i hone
      unfold compareOne at hd
      obtain ⟨e, he, hd'⟩ := mem_forEach hd
      clear hd
      rw [ho.mem, List.mem_append] at he
      cases a with
      | none =>
        have hA : A = [] := by
          obtain ⟨n, _, hA, _⟩ := hR.recs
          simp [collBag, tuplesOf, mapE, number] at hA
          exact hA
        subst hA
        have he' : e ∈ minus B [] := by
          rcases he with he | he
          · simp [minus] at he
          · exact he
        obtain ⟨y, hy, hd⟩ := mem_bindE hd'
        exact .itemR hR (key_of_minus he') hy (hr _ _ _ _ _ hd)
      | some x' =>
        simp at hone
        subst hone
        have hB : B = [] := by
          obtain ⟨n, _, _, hB⟩ := hR.recs
          simp [collBag, tuplesOf, mapE, number] at hB
          exact hB
        subst hB
        have he' : e ∈ minus A [] := by
          rcases he with he | he
          · exact he
          · simp [minus] at he
        obtain ⟨y, hy, hd⟩ := mem_bindE hd'
        exact .itemL hR (key_of_minus he') hy (hr _ _ _ _ _ hd)
    · unfold compareIds at hd
      rcases mem_append hd with hd | hd
      · obtain ⟨k, hk, hd⟩ := mem_forEach (mem_when hd).2
        rw [ho.mem] at hk
        exact mem_descend hr hR (keys_of_common hk).1 (keys_of_common hk).2 hd
      · obtain ⟨ps, hps, hd⟩ := mem_bindE hd
        rcases mem_append hd with hd | hd
        · rcases mem_append hd with hd | hd
          · rcases mem_append hd with hd | hd
            · obtain ⟨p, hp, hd⟩ := mem_forEach hd
              obtain ⟨h1, h2⟩ := pairs_mem hps hp
              unfold fuzzyPair at hd
              rcases mem_append hd with hd | hd
              · exact mem_descend (k := (p.1.2, p.2.2)) hr hR (key_of_minus h1) (key_of_minus h2) hd
              · split at hd
                · rename_i h
                  simp at h
                  rw [mem_yield hd]
                  exact .rMoved hR (key_of_minus h1) (key_of_minus h2) h.2 h.1
                · obtain ⟨h, hd⟩ := mem_when hd
                  simp at h
                  rw [mem_yield hd]
                  exact .rSame hR (key_of_minus h1) (key_of_minus h2) h.1
            · obtain ⟨k, hk, hd⟩ := mem_forEach (mem_when hd).2
              rw [ho.mem] at hk
              rcases mem_matched hd with ⟨h1, h2, rfl⟩ | ⟨h1, rfl⟩
              · exact .rMoved hR (keys_of_common hk).1 (keys_of_common hk).2 h1 h2
              · exact .rSame hR (keys_of_common hk).1 (keys_of_common hk).2 h1
          · obtain ⟨e, he, hd⟩ := mem_forEach hd
            rw [ho.mem, List.mem_filter] at he
            rw [mem_yield hd]
            exact .rRemoved hR (key_of_minus he.1)
        · obtain ⟨e, he, hd⟩ := mem_forEach hd
          rw [ho.mem, List.mem_filter] at he
          rw [mem_yield hd]
          exact .rAdded hR (key_of_minus he.1)

theorem mem_records (ho : OrdOK H) {rec : Rec} (hr : RecYields H o rec) {n : String} {a b : Option Val} {fa fb : FS}
    (hI : IsRecs H a b n) {d : DInfo} (hd : d ∈ (compareRecords H o rec (.cls n) a b fa fb).out) :
    Yields H o a b fa fb d := by
  obtain ⟨ia, hia, hd⟩ := mem_bindE hd
  obtain ⟨hdead, hd⟩ := mem_when hd
  obtain ⟨A, hA, hd⟩ := mem_bindE hd
  obtain ⟨B, hB, hd⟩ := mem_bindE hd
  exact mem_members ho hr ⟨⟨n, hI, hA, hB⟩, hia, by simpa using hdead⟩ hd

theorem yields_diffIter (ho : OrdOK H) : ∀ n, RecYields H o (diffIter H o n)
  | 0 => fun a b fa fb d hd => by simp [diffIter] at hd
  | n + 1 => fun a b fa fb d hd => by
    have ih := yields_diffIter ho n
    have hd : d ∈ (dispatch H o (diffIter H o n) a b fa fb).out := hd
    unfold dispatch at hd
    split at hd
    · rename_i h
      exact mem_simple ho (.list _ h) hd
    · rename_i h
      exact mem_simple ho (.dict _ h) hd
    · exact mem_record ih hd
    · rename_i c xs h
      rcases mem_append hd with hd | hd
      · unfold compareColl at hd
        split at hd
        · simp at hd
        · simp at hd
        · rename_i hc
          exact mem_simple ho (.lcoll c xs _ _ h hc) hd
        · rename_i hc
          exact mem_records ho ih (.lcoll c xs _ h hc) hd
      · exact mem_record ih hd
    · rename_i c xs h
      rcases mem_append hd with hd | hd
      · unfold compareColl at hd
        split at hd
        · simp at hd
        · simp at hd
        · rename_i hc
          exact mem_simple ho (.dcoll c xs _ _ h hc) hd
        · rename_i hc
          exact mem_records ho ih (.dcoll c xs _ h hc) hd
      · exact mem_record ih hd
    · simp at hd
    · simp at hd

end Normalize.Diff
