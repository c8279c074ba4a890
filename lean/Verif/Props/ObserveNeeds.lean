import Verif.Props.ObserveFinds

/-!
# C124: which lazy attributes an operation computes
-/

namespace Normalize.Observe

open Slots (World PropDef Cls State)

variable {V : Type} [DecidableEq V] {S : Setup V} {h : Heap V} {P : Nat → String → Prop}

/-- The code gives this, read in the state `h`. -/
def Yields {α : Type} (S : Setup V) (h : Heap V) (c : Code V α) (r : Except Exc α) : Prop :=
  ∃ m, freshRun (fresh S m h) h c = some r

/-- As long as reading gives what is in `h`, the code reads attributes with `P` only. -/
inductive Only {α : Type} (S : Setup V) (h : Heap V) (P : Nat → String → Prop) : Code V α → Prop
  | done {r} : Only S h P (.done r)
  | get {i nm k} : P i nm → (∀ m r, fresh S m h i nm = some r → Only S h P (k r)) → Only S h P (.get i nm k)
  | slot {i nm k} : ¬ IsLazy S i nm → Only S h P (k ((h i).slots nm)) → Only S h P (.slot i nm k)

theorem yields_get {α : Type} {i : Nat} {nm : String} {k : Except Exc V → Code V α} {m : Nat} {q : Except Exc V}
    {r : Except Exc α} (hq : fresh S m h i nm = some q) (hr : Yields S h (k q) r) : Yields S h (.get i nm k) r := by
  obtain ⟨m', hm'⟩ := hr
  refine ⟨max m m', ?_⟩
  simp only [freshRun, fresh_le (Nat.le_max_left m m') h i nm q hq]
  exact freshRun_mono (fun i nm r hr => fresh_le (Nat.le_max_right m m') h i nm r hr) _ _ hm'

theorem only_andThen {α β : Type} {c : Code V α} {f : Except Exc α → Code V β} (hc : Only S h P c)
    (hf : ∀ r, Yields S h c r → Only S h P (f r)) : Only S h P (c.andThen f) := by
  induction hc with
  | done => exact hf _ ⟨0, rfl⟩
  | get hp _ ih => exact .get hp (fun m r hr => ih m r hr (fun q hq => hf q (yields_get hr hq)))
  | slot hl _ ih => exact .slot hl (ih (fun q hq => hf q hq))

theorem only_thenDo {α β : Type} {c : Code V α} {f : α → Code V β} (hc : Only S h P c)
    (hf : ∀ a, Yields S h c (.ok a) → Only S h P (f a)) : Only S h P (c.thenDo f) := by
  refine only_andThen hc (fun r hr => ?_)
  cases r with
  | error e => exact .done
  | ok a => exact hf a hr

theorem only_get {i : Nat} {nm : String} (hp : P i nm) : Only S h P (Code.get i nm .done) :=
  .get hp (fun _ _ _ => .done)

theorem only_unlessSet {α : Type} (r : Except Exc α) : Only S h P (unlessSet r : Code V (Option α)) := by
  cases r with
  | ok v => exact .done
  | error e =>
    simp only [unlessSet]
    split <;> exact .done

theorem only_getOr {i : Nat} {nm : String} (hp : P i nm) : Only S h P (getOr i nm) :=
  only_andThen (only_get hp) (fun r _ => only_unlessSet r)

theorem only_mayRead {α : Type} {c : Code V α} (hc : Reads S c) (hm : ∀ j p, MayRead j p c → P j p) : Only S h P c := by
  induction hc with
  | done => exact .done
  | get _ ih => exact .get (hm _ _ .here) (fun _ r _ => ih r (fun j p hj => hm j p (.get hj)))
  | slot hl _ ih => exact .slot hl (ih _ (fun j p hj => hm j p (.slot hj)))

/-- The attributes are as before, but for those with `P`. -/
def KeptBut (P : Nat → String → Prop) (s s' : Heap V) : Prop := ∀ i nm, ¬ P i nm → (s' i).slots nm = (s i).slots nm

theorem KeptBut.trans {s s' s'' : Heap V} (h1 : KeptBut P s s') (h2 : KeptBut P s' s'') : KeptBut P s s'' :=
  fun i nm hn => (h2 i nm hn).trans (h1 i nm hn)

theorem only_run {α : Type} (hS : Readers S) {n : Nat}
    (hget : ∀ s i nm r s', Cached S h s → P i nm → getAt S n s i nm = some (r, s') → KeptBut P s s')
    {c : Code V α} (hc : Only S h P c) : ∀ s r s', Cached S h s → runCode S (getAt S n) c s = some (r, s') →
      KeptBut P s s' := by
  induction hc with
  | done => intro s r s' _ hr; cases hr; exact fun _ _ _ => rfl
  | @get i nm k hp _ ih =>
    intro s r s' hs hr
    simp only [runCode] at hr
    split at hr
    · cases hr
    · rename_i q s1 hq
      obtain ⟨⟨m, hm⟩, hs1⟩ := getAt_sound hS n s i nm q s1 hs hq
      exact (hget s i nm q s1 hs hp hq).trans (ih m q hm s1 r s' hs1 hr)
  | @slot i nm k hl _ ih =>
    intro s r s' hs hr
    simp only [runCode] at hr
    have : (s i).slots nm = (h i).slots nm := by
      rcases hs i nm with h1 | ⟨h1, _⟩
      · exact h1
      · exact absurd h1 hl
    rw [this] at hr
    exact ih s r s' hs hr

theorem only_getAt (hS : Readers S)
    (hP : ∀ i nm f j p, P i nm → S.dflt (S.typ i) nm = some f → MayRead j p (f i) → P j p) (n : Nat) :
    ∀ s i nm r s', Cached S h s → P i nm → getAt S n s i nm = some (r, s') → KeptBut P s s' := by
  induction n with
  | zero => intro s i nm r s' _ _ hr; cases hr
  | succ n ih =>
    intro s i nm r s' hs hp hr
    rw [getAt] at hr
    split at hr
    · cases hr; exact fun _ _ _ => rfl
    · split at hr
      · cases hr; exact fun _ _ _ => rfl
      · rename_i p hf
        split at hr
        · split at hr
          · cases hr
          · rename_i q hq
            have hlog : ((s i).log nm).slots = (s i).slots := rfl
            have hd : Only S h P (defaultOf S i nm) := by
              refine only_mayRead (reads_default hS i nm) (fun j p hj => ?_)
              unfold defaultOf at hj
              split at hj
              · cases hj
              · rename_i f hd; exact hP i nm f j p hp hd hj
            have h1 := only_run hS ih hd _ q.1 q.2 (cached_upd hs hlog) hq
            have h0 : KeptBut P s (upd s i ((s i).log nm)) := by
              intro j x _
              unfold upd
              split
              · rename_i hj; subst hj; rw [hlog]
              · rfl
            refine (h0.trans h1).trans ?_
            obtain ⟨q1, q2⟩ := q
            simp only [Option.some.injEq] at hr
            cases q1 with
            | error e =>
              simp only [storeLazy, Prod.mk.injEq] at hr
              obtain ⟨_, rfl⟩ := hr
              exact fun _ _ _ => rfl
            | ok v =>
              simp only [storeLazy] at hr
              split at hr
              · simp only [Prod.mk.injEq] at hr
                obtain ⟨_, rfl⟩ := hr
                exact fun _ _ _ => rfl
              · simp only [Prod.mk.injEq] at hr
                obtain ⟨_, rfl⟩ := hr
                intro j x hx
                unfold upd
                split
                · rename_i hj
                  subst hj
                  by_cases hxn : x = nm
                  · subst hxn; exact absurd hp hx
                  · simp [State.put, hxn]
                · rfl
        · cases hr; exact fun _ _ _ => rfl

/-! ## The operations -/

variable {o : Look V}

theorem yields_attr (hS : Readers S) {i : Nat} {p : String} {a : Option V} (hy : Yields S h (getOr i p) (.ok a)) :
    Attr S h i p a := by
  obtain ⟨m, hm⟩ := hy
  exact fr_attr hS hm

/-- The record, if it is one, is seen. -/
def SeenVal (S : Setup V) (h : Heap V) (o : Look V) (a : V) : Prop := ∀ i, S.asRec a = some i → Seen S h o i

theorem only_eq (hS : Readers S) {x y : V} (ho : o = .eq x y) : ∀ (d : Nat) (a b : V), SeenVal S h o a →
    SeenVal S h o b → Only S h (Needed S h o) (eqVal S d a b)
  | 0, _, _, _, _ => .done
  | d + 1, a, b, ha, hb => by
    have ih := only_eq hS ho d
    have loop : ∀ i j ps, S.typ i = S.typ j → Seen S h o i → Seen S h o j → (∀ p ∈ ps, o.about S (S.typ i) p) →
        Only S h (Needed S h o) (eqProps (eqVal S d) i j ps) := by
      intro i j ps ht hi hj
      induction ps with
      | nil => intro _; exact .done
      | cons p ps ihp =>
        intro hps
        have h1 : o.about S (S.typ i) p := hps p List.mem_cons_self
        have h2 : o.about S (S.typ j) p := by rw [← ht]; exact h1
        refine only_thenDo (only_getOr (.about hi h1)) fun u hu => ?_
        refine only_thenDo (only_getOr (.about hj h2)) fun w hw => ?_
        refine only_thenDo ?_ fun same _ => ?_
        · cases u with
          | none => cases w <;> exact .done
          | some u =>
            cases w with
            | none => exact .done
            | some w =>
              exact ih u w (fun k hk => .inside hi h1 (yields_attr hS hu) hk)
                (fun k hk => .inside hj h2 (yields_attr hS hw) hk)
        · split
          · exact ihp (fun q hq => hps q (List.mem_cons_of_mem _ hq))
          · exact .done
    unfold eqVal
    split
    · rename_i i j hi hj
      split
      · rename_i ht
        refine loop i j _ ht (ha i hi) (hb j hj) (fun p hp => ?_)
        obtain ⟨hp, he⟩ := List.mem_filter.1 hp
        subst ho
        exact ⟨hp, by simpa using he⟩
      · exact .done
    · exact .done

theorem only_key (hS : Readers S) (hnone : S.asRec S.w.none = none) {x : V} (ho : o = .key x) :
    ∀ (d : Nat) (a : V), SeenVal S h o a → Only S h (Needed S h o) (keyVal S d a)
  | 0, _, _ => .done
  | d + 1, a, ha => by
    have ih := only_key hS hnone ho d
    have loop : ∀ i ps, Seen S h o i → (∀ p ∈ ps, o.about S (S.typ i) p) →
        Only S h (Needed S h o) (keyProps S (keyVal S d) i ps) := by
      intro i ps hi
      induction ps with
      | nil => intro _; exact .done
      | cons p ps ihp =>
        intro hps
        have h1 : o.about S (S.typ i) p := hps p List.mem_cons_self
        refine only_thenDo (only_getOr (.about hi h1)) fun u hu => ?_
        refine only_thenDo ?_ fun k _ => ?_
        · refine ih _ (fun k hk => ?_)
          cases u with
          | none => rw [Option.getD_none, hnone] at hk; cases hk
          | some u => exact .inside hi h1 (yields_attr hS hu) hk
        · exact only_thenDo (ihp (fun q hq => hps q (List.mem_cons_of_mem _ hq))) fun _ _ => .done
    unfold keyVal
    split
    · rename_i i hi
      refine only_thenDo (loop i _ (ha i hi) (fun p hp => ?_)) fun _ _ => .done
      subst ho
      exact hp
    · exact .done

theorem only_slotEmpty {i : Nat} {p : String} : Only S h P (slotEmpty S i p) := by
  unfold slotEmpty
  split
  · exact .done
  · rename_i q hf
    split
    · exact .done
    · rename_i hl
      split
      · split <;> exact .done
      · refine .slot ?_ .done
        rintro ⟨q', hq, hl'⟩
        rw [hf] at hq
        cases hq
        exact hl hl'

theorem only_json (hS : Readers S) {x : Bool} {y : V} (ho : o = .json x y) :
    ∀ (d : Nat) (a : V), SeenVal S h o a → Only S h (Needed S h o) (jsonVal S x d a)
  | 0, _, _ => .done
  | d + 1, a, ha => by
    have ih := only_json hS ho d
    have one : ∀ i p, Seen S h o i → o.about S (S.typ i) p →
        Only S h (Needed S h o) (jsonProp S (jsonVal S x d) i p) := by
      intro i p hi hp
      refine only_thenDo (only_get (.about hi hp)) fun v hv => ?_
      split
      · rename_i j hj
        refine ih v (fun k hk => .inside hi hp ?_ hk)
        obtain ⟨m, hm⟩ := hv
        exact .set (fr_get hS hm)
      · split <;> exact .done
    have loop : ∀ i ps, Seen S h o i → (∀ p ∈ ps, p ∈ S.names (S.typ i)) →
        Only S h (Needed S h o) (jsonProps S (jsonVal S x d) x i ps) := by
      intro i ps hi
      induction ps with
      | nil => intro _; exact .done
      | cons p ps ihp =>
        intro hps
        have ihp := ihp (fun q hq => hps q (List.mem_cons_of_mem _ hq))
        simp only [jsonProps]
        split
        · exact ihp
        · rename_i hx
          refine only_thenDo only_slotEmpty fun empty _ => ?_
          split
          · exact ihp
          · split
            · exact ihp
            · rename_i k hk
              have hp : o.about S (S.typ i) p := by
                subst ho
                refine ⟨hps p List.mem_cons_self, ?_, by rw [hk]; simp⟩
                cases x with
                | true => exact .inl rfl
                | false => exact .inr (by simpa using hx)
              refine only_thenDo (only_andThen (one i p hi hp) (fun r _ => only_unlessSet r)) fun v _ => ?_
              exact only_thenDo ihp fun _ _ => .done
    unfold jsonVal
    split
    · rename_i i hi
      exact only_thenDo (loop i _ (ha i hi) (fun p hp => hp)) fun _ _ => .done
    · exact .done

theorem only_diff (hS : Readers S) {x y : V} (ho : o = .diff x y) : ∀ (d : Nat) (a b : V), SeenVal S h o a →
    SeenVal S h o b → Only S h (Needed S h o) (diffVal S d a b)
  | 0, _, _, _, _ => .done
  | d + 1, a, b, ha, hb => by
    have ih := only_diff hS ho d
    have hdiff : o.isDiff := by subst ho; trivial
    have norm : ∀ i p v, Seen S h o i → o.about S (S.typ i) p → Only S h (Needed S h o) (slotNorm S i p v) := by
      intro i p v hi hp
      cases v with
      | none => exact .done
      | some v =>
        simp only [slotNorm]
        split
        · exact .done
        · rename_i f hf
          exact only_thenDo (only_mayRead (hS.compareAs i p f hf v)
            (fun j q hj => .compareAs hi hp hdiff hf hj)) fun _ _ => .done
    have loop : ∀ i j ps, S.typ i = S.typ j → Seen S h o i → Seen S h o j → (∀ p ∈ ps, o.about S (S.typ i) p) →
        Only S h (Needed S h o) (diffProps S (diffVal S d) i j ps) := by
      intro i j ps ht hi hj
      induction ps with
      | nil => intro _; exact .done
      | cons p ps ihp =>
        intro hps
        have h1 : o.about S (S.typ i) p := hps p List.mem_cons_self
        have h2 : o.about S (S.typ j) p := by rw [← ht]; exact h1
        refine only_thenDo (only_getOr (.about hi h1)) fun u hu => ?_
        refine only_thenDo (norm i p u hi h1) fun u' hu' => ?_
        refine only_thenDo (only_getOr (.about hj h2)) fun w hw => ?_
        refine only_thenDo (norm j p w hj h2) fun w' hw' => ?_
        refine only_thenDo ?_ fun xs _ => ?_
        · cases u' with
          | none => cases w' <;> exact .done
          | some u' =>
            cases w' with
            | none => exact .done
            | some w' =>
              simp only [diffSlot]
              split
              · split
                · refine only_thenDo (ih u' w' (fun k hk => ?_) (fun k hk => ?_)) fun _ _ => .done
                  · obtain ⟨m, hm⟩ := hu'
                    exact .compared hi h1 hdiff (slotNorm_expected hS (yields_attr hS hu) hm) hk
                  · obtain ⟨m, hm⟩ := hw'
                    exact .compared hj h2 hdiff (slotNorm_expected hS (yields_attr hS hw) hm) hk
                · exact .done
              · split <;> exact .done
        · exact only_thenDo (ihp (fun q hq => hps q (List.mem_cons_of_mem _ hq))) fun _ _ => .done
    unfold diffVal
    split
    · rename_i i j hi hj
      split
      · rename_i ht
        refine only_thenDo (loop i j _ ht (ha i hi) (hb j hj) (fun p hp => ?_)) fun _ _ => .done
        subst ho
        exact hp
      · exact .done
    · exact .done

theorem only_visit (hS : Readers S) {y : V} (ho : o = .visit y) :
    ∀ (d : Nat) (a : V), SeenVal S h o a → Only S h (Needed S h o) (visitVal S d a)
  | 0, _, _ => .done
  | d + 1, a, ha => by
    have ih := only_visit hS ho d
    have slot : ∀ i p r, (∀ v, r = .ok v → SeenVal S h o v) →
        Only S h (Needed S h o) (visitSlot S (visitVal S d) i p r) := by
      intro i p r hr
      cases r with
      | ok v =>
        simp only [visitSlot]
        split
        · exact ih v (hr v rfl)
        · split <;> exact .done
      | error e =>
        simp only [visitSlot]
        split <;> exact .done
    have one : ∀ i p r, (∀ v, r = .ok v → SeenVal S h o v) →
        Only S h (Needed S h o) (visitProp S (visitVal S d) i p r) := by
      intro i p r hr
      cases r with
      | ok v => exact only_thenDo (slot i p _ hr) fun _ _ => .done
      | error e =>
        simp only [visitProp]
        split
        · split
          · exact only_thenDo (slot i p _ hr) fun _ _ => .done
          · exact .done
        · exact .done
    have loop : ∀ i ps, Seen S h o i → (∀ p ∈ ps, p ∈ S.names (S.typ i)) →
        Only S h (Needed S h o) (visitProps S (visitVal S d) i ps) := by
      intro i ps hi
      induction ps with
      | nil => intro _; exact .done
      | cons p ps ihp =>
        intro hps
        have ihp := ihp (fun q hq => hps q (List.mem_cons_of_mem _ hq))
        simp only [visitProps]
        split
        · exact ihp
        · rename_i hx
          have hp : o.about S (S.typ i) p := by
            subst ho
            exact ⟨hps p List.mem_cons_self, by simpa using hx⟩
          refine only_thenDo (only_andThen (only_get (.about hi hp)) (fun r hr => one i p r ?_)) fun v _ => ?_
          · rintro v rfl k hk
            obtain ⟨m, hm⟩ := hr
            exact .inside hi hp (.set (fr_get hS hm)) hk
          · exact only_thenDo ihp fun _ _ => .done
    unfold visitVal
    split
    · rename_i i hi
      exact only_thenDo (loop i _ (ha i hi) (fun p hp => hp)) fun _ _ => .done
    · exact .done

/-- An operation, whether it returns or raises, computes and stores only lazy attributes that it needs. -/
theorem C124 (hS : Readers S) (hnone : S.asRec S.w.none = none) {d n : Nat} {o : Look V} {r : Except Exc (Out V)}
    {h' : Heap V} (hr : run S n (o.code S d) h = some (r, h')) {i : Nat} {nm : String}
    (hn : ¬ Needed S h o i nm) : (h' i).slots nm = (h i).slots nm := by
  have given : ∀ a ∈ o.given, SeenVal S h o a := fun a ha i hi => .given ha hi
  have hc : Only S h (Needed S h o) (o.code S d) := by
    cases o with
    | attr i nm => exact only_thenDo (only_get (.attr rfl)) fun _ _ => .done
    | eq a b => exact only_thenDo (only_eq hS rfl d a b (given a (by simp [Look.given])) (given b (by simp [Look.given]))) fun _ _ => .done
    | key a => exact only_key hS hnone rfl d a (given a (by simp [Look.given]))
    | json x a => exact only_json hS rfl d a (given a (by simp [Look.given]))
    | diff a b => exact only_diff hS rfl d a b (given a (by simp [Look.given])) (given b (by simp [Look.given]))
    | visit a => exact only_visit hS rfl d a (given a (by simp [Look.given]))
  exact only_run hS (only_getAt hS (fun i nm f j p hp hd hm => .default hp hd hm) n) hc h r h' (cached_refl h) hr i nm hn

/-! ## The theorem applies -/

/-- To read the total of an item, no other record is needed. -/
theorem exShop_needs {i : Nat} {nm : String} (h : Needed exShop exShopH (.attr 0 "total") i nm) : i = 0 := by
  generalize ho : (Look.attr 0 "total" : Look Int) = o at h
  induction h with
  | attr h1 => subst ho; cases h1; rfl
  | @about i nm h1 h2 => subst ho; exact h2.elim
  | @default i nm f j p _ hd hm ih =>
    have := ih
    rw [exShop_dflt hd] at hm
    subst this
    simp only [exTotal, Code.thenDo, Code.andThen] at hm
    cases hm with
    | here => rfl
    | @get _ _ _ r hm =>
      cases r with
      | error e => cases hm
      | ok v =>
        cases hm with
        | here => rfl
        | @get _ _ _ r hm => cases r <;> cases hm
  | @compareAs i nm f v j p h1 h2 => subst ho; exact h2.elim

/-- Reading the total of an item leaves all other records as they are. -/
example {n : Nat} {r : Except Exc (Out Int)} {h' : Heap Int}
    (hr : run exShop n (Look.code exShop 0 (.attr 0 "total")) exShopH = some (r, h')) {i : Nat} (hi : i ≠ 0)
    (nm : String) : (h' i).slots nm = (exShopH i).slots nm :=
  C124 exShop_readers (by decide) hr (fun hn => hi (exShop_needs hn))

/-- The hypothesis is met: the total is computed and stored. -/
example : (run exShop 3 (Look.code exShop 0 (.attr 0 "total")) exShopH).map
    (fun q => ((q.2 0).slots "total", (q.2 1).slots "total")) = some (some 4, none) := by decide +kernel

end Normalize.Observe
