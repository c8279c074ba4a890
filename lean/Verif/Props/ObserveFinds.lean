import Verif.Spec.ObserveFinds
import Verif.Props.Observe

/-!
# C123: what operations on records with lazy attributes find
-/

namespace Normalize.Observe

open Slots (World PropDef Cls State)

variable {V : Type} [DecidableEq V] {S : Setup V} {h : Heap V} {m : Nat}

theorem fr_andThen {α β : Type} (g : Nat → String → Option (Except Exc V)) (c : Code V α)
    (f : Except Exc α → Code V β) :
    freshRun g h (c.andThen f) = (freshRun g h c).bind (fun r => freshRun g h (f r)) := by
  induction c with
  | done r => rfl
  | get i nm k ih =>
    simp only [Code.andThen, freshRun]
    cases g i nm with
    | none => rfl
    | some r => exact ih r
  | slot i nm k ih =>
    simp only [Code.andThen, freshRun]
    exact ih _
  | set i nm v k ih => rfl
  | del i nm k ih => rfl

theorem fr_thenDo {α β : Type} {g : Nat → String → Option (Except Exc V)} {c : Code V α} {f : α → Code V β} {x : β}
    (hr : freshRun g h (c.thenDo f) = some (.ok x)) :
    ∃ a, freshRun g h c = some (.ok a) ∧ freshRun g h (f a) = some (.ok x) := by
  rw [Code.thenDo, fr_andThen] at hr
  cases hc : freshRun g h c with
  | none => rw [hc] at hr; cases hr
  | some r =>
    rw [hc] at hr
    cases r with
    | error e => cases hr
    | ok a => exact ⟨a, rfl, hr⟩

theorem fr_done {α : Type} {g : Nat → String → Option (Except Exc V)} {a b : α}
    (hr : freshRun (V := V) g h (.done (.ok a)) = some (.ok b)) : a = b := by
  cases hr; rfl

theorem fr_get {i : Nat} {p : String} {r : Except Exc V} (hS : Readers S)
    (hr : freshRun (fresh S m h) h (Code.get i p .done) = some r) : Finds S 0 h (.attr i p) (r.map .val) := by
  refine (gives_iff hS (reads_look hS 0 (.attr i p)) (cached_refl h) _).2 ⟨m, ?_⟩
  show freshRun _ _ ((Code.get i p .done).thenDo _) = _
  rw [Code.thenDo, fr_andThen, hr]
  cases r with
  | ok v => rfl
  | error e => rfl

theorem fr_attr {i : Nat} {p : String} {a : Option V} (hS : Readers S)
    (hr : freshRun (fresh S m h) h (getOr i p) = some (.ok a)) : Attr S h i p a := by
  rw [getOr, fr_andThen] at hr
  cases hg : freshRun (fresh S m h) h (Code.get i p .done) with
  | none => rw [hg] at hr; cases hr
  | some r =>
    rw [hg] at hr
    have hf := fr_get hS hg
    cases r with
    | ok v => cases hr; exact .set hf
    | error e =>
      simp only [Option.bind_some, unlessSet] at hr
      split at hr
      · rename_i he; cases hr; exact .unset hf he
      · cases hr

/-! ## `==` -/

theorem eq_expected (hS : Readers S) : ∀ (d : Nat) (a b : V) (x : Bool),
    freshRun (fresh S m h) h (eqVal S d a b) = some (.ok x) → EqualTo S h a b x
  | 0, _, _, _, hr => by cases hr
  | d + 1, a, b, x, hr => by
    have ih := eq_expected hS d
    have one : ∀ i j p a b x, Attr S h i p a → Attr S h j p b →
        freshRun (fresh S m h) h (eqOpt (eqVal S d) a b) = some (.ok x) → EqualAt S h i j p x := by
      intro i j p a b x ha hb hr
      cases a with
      | none =>
        cases b with
        | none => cases hr; exact .neither ha hb
        | some b => cases hr; exact .right ha hb
      | some a =>
        cases b with
        | none => cases hr; exact .left ha hb
        | some b => exact .values ha hb (ih a b x hr)
    have loop : ∀ i j ps x, freshRun (fresh S m h) h (eqProps (eqVal S d) i j ps) = some (.ok x) →
        (x = true ∧ ∀ p ∈ ps, EqualAt S h i j p true) ∨ (x = false ∧ ∃ p ∈ ps, EqualAt S h i j p false) := by
      intro i j ps
      induction ps with
      | nil => intro x hr; cases hr; exact .inl ⟨rfl, by simp⟩
      | cons p ps ihp =>
        intro x hr
        simp only [eqProps] at hr
        obtain ⟨u, hu, hr⟩ := fr_thenDo hr
        obtain ⟨w, hw, hr⟩ := fr_thenDo hr
        obtain ⟨same, hs, hr⟩ := fr_thenDo hr
        have h1 := one i j p u w same (fr_attr hS hu) (fr_attr hS hw) hs
        cases same with
        | false =>
          simp only [Bool.false_eq_true, if_false] at hr
          cases hr
          exact .inr ⟨rfl, p, List.mem_cons_self, h1⟩
        | true =>
          simp only [if_true] at hr
          rcases ihp x hr with ⟨h2, h3⟩ | ⟨h2, q, hq, h3⟩
          · refine .inl ⟨h2, fun q hq => ?_⟩
            rcases List.mem_cons.1 hq with rfl | hq
            · exact h1
            · exact h3 q hq
          · exact .inr ⟨h2, q, List.mem_cons_of_mem _ hq, h3⟩
    unfold eqVal at hr
    split at hr
    · rename_i i j hi hj
      split at hr
      · rename_i ht
        rcases loop i j _ x hr with ⟨rfl, h1⟩ | ⟨rfl, p, hp, h1⟩
        · exact .same hi hj ht (fun p hp he => h1 p (List.mem_filter.2 ⟨hp, by simp [he]⟩))
        · obtain ⟨hp, he⟩ := List.mem_filter.1 hp
          exact .differ hi hj ht hp (by simpa using he) h1
      · rename_i ht
        cases hr
        exact .types hi hj ht
    · rename_i hn
      cases hr
      refine .plain ?_
      cases ha : S.asRec a with
      | none => exact .inl rfl
      | some i =>
        cases hb : S.asRec b with
        | none => exact .inr rfl
        | some j => exact absurd hb (hn i j ha)

/-! ## Keys -/

theorem key_expected (hS : Readers S) : ∀ (d : Nat) (a : V) (k : Out V),
    freshRun (fresh S m h) h (keyVal S d a) = some (.ok k) → KeyOf S h a k
  | 0, _, _, hr => by cases hr
  | d + 1, a, k, hr => by
    have ih := key_expected hS d
    have loop : ∀ i ps ks, freshRun (fresh S m h) h (keyProps S (keyVal S d) i ps) = some (.ok ks) →
        KeysOf S h i ps ks := by
      intro i ps
      induction ps with
      | nil => intro ks hr; cases hr; exact .nil
      | cons p ps ihp =>
        intro ks hr
        simp only [keyProps] at hr
        obtain ⟨u, hu, hr⟩ := fr_thenDo hr
        obtain ⟨k, hk, hr⟩ := fr_thenDo hr
        obtain ⟨ks', hks, hr⟩ := fr_thenDo hr
        cases hr
        refine .cons (v := u.getD S.w.none) ?_ (ih _ _ hk) (ihp _ hks)
        have := fr_attr hS hu
        cases u with
        | none => exact .unset this
        | some v => exact .set this
    unfold keyVal at hr
    split at hr
    · rename_i i hi
      obtain ⟨ks, hks, hr⟩ := fr_thenDo hr
      cases hr
      exact .record hi (loop _ _ _ hks)
    · rename_i hi
      cases hr
      exact .plain hi

/-! ## JSON -/

theorem json_finds (hS : Readers S) {x : Bool} {d : Nat} {v : V} {r : Except Exc (Out V)}
    (hr : freshRun (fresh S m h) h (jsonVal S x d v) = some r) : Finds S d h (.json x v) r :=
  (gives_iff hS (reads_look hS d (.json x v)) (cached_refl h) _).2 ⟨m, hr⟩

/-- What is written for one attribute. -/
theorem jsonProp_expected (hS : Readers S) {x : Bool} {d i : Nat} {p : String} {r : Except Exc (Out V)}
    (hr : freshRun (fresh S m h) h (jsonProp S (jsonVal S x d) i p) = some r) :
    (∃ e, r = .error e ∧ Finds S 0 h (.attr i p) (.error e)) ∨
    (∃ v j, Attr S h i p (some v) ∧ S.asRec v = some j ∧ freshRun (fresh S m h) h (jsonVal S x d v) = some r) ∨
    ∃ v, Attr S h i p (some v) ∧ S.asRec v = none ∧ r = (S.toJson (S.typ i) p v).map .val := by
  rw [jsonProp, Code.thenDo, fr_andThen] at hr
  cases hg : freshRun (fresh S m h) h (Code.get i p .done) with
  | none => rw [hg] at hr; cases hr
  | some q =>
    rw [hg] at hr
    have hf := fr_get hS hg
    cases q with
    | error e => cases hr; exact .inl ⟨e, rfl, hf⟩
    | ok v =>
      simp only [Option.bind_some, orRaise] at hr
      cases hv : S.asRec v with
      | some j => rw [hv] at hr; exact .inr (.inl ⟨v, j, .set hf, hv, hr⟩)
      | none =>
        rw [hv] at hr
        refine .inr (.inr ⟨v, .set hf, hv, ?_⟩)
        simp only at hr
        cases ht : S.toJson (S.typ i) p v with
        | error e => rw [ht] at hr; cases hr; rfl
        | ok u => rw [ht] at hr; cases hr; rfl

theorem slotEmpty_true {i : Nat} {p : String} (hfind : (S.clsOf i).find p ≠ none)
    (hr : freshRun (fresh S m h) h (slotEmpty S i p) = some (.ok true)) :
    ¬ IsLazy S i p ∧ (h i).slots p = none := by
  unfold slotEmpty at hr
  split at hr
  · rename_i hf; exact absurd hf hfind
  · rename_i q hf
    split at hr
    · cases hr
    · rename_i hl
      split at hr
      · split at hr <;> cases hr
      · refine ⟨?_, ?_⟩
        · rintro ⟨q', hq, hl'⟩
          rw [hf] at hq
          cases hq
          exact hl hl'
        · simp only [freshRun, Option.some.injEq, Except.ok.injEq] at hr
          simpa using hr

theorem find_names (i : Nat) : ∀ p ∈ S.names (S.typ i), (S.clsOf i).find p ≠ none := by
  intro p hp hn
  obtain ⟨x, hx, rfl⟩ := List.mem_map.1 hp
  have h1 := Option.map_eq_none_iff.1 hn
  exact List.find?_eq_none.1 h1 x hx (by simp)

theorem json_expected (hS : Readers S) {x : Bool} :
    ∀ (d : Nat) (a : V) (u : Out V), freshRun (fresh S m h) h (jsonVal S x d a) = some (.ok u) → JsonOf S h x a u
  | 0, _, _, hr => by cases hr
  | d + 1, a, u, hr => by
    have ih := json_expected hS (x := x) d
    have loop : ∀ i ps xs, (∀ p ∈ ps, (S.clsOf i).find p ≠ none) →
        freshRun (fresh S m h) h (jsonProps S (jsonVal S x d) x i ps) = some (.ok xs) →
        JsonsOf S h x i ps xs := by
      intro i ps
      induction ps with
      | nil => intro xs _ hr; cases hr; exact .nil
      | cons p ps ihp =>
        intro xs hps hr
        have ihp := fun xs => ihp xs (fun q hq => hps q (List.mem_cons_of_mem _ hq))
        simp only [jsonProps] at hr
        split at hr
        · rename_i hx
          rw [Bool.and_eq_true] at hx
          exact .skip (.extraneous (by simpa using hx.1) hx.2) (ihp xs hr)
        · rename_i hx
          have hx' : x = true ∨ S.extraneous (S.typ i) p = false := by
            cases x with
            | true => exact .inl rfl
            | false => exact .inr (by simpa using hx)
          obtain ⟨empty, he, hr⟩ := fr_thenDo hr
          cases empty with
          | true =>
            simp only [if_true] at hr
            obtain ⟨h1, h2⟩ := slotEmpty_true (hps p List.mem_cons_self) he
            exact .skip (.empty h1 h2) (ihp xs hr)
          | false =>
            simp only [Bool.false_eq_true, if_false] at hr
            split at hr
            · rename_i hk; exact .skip (.nameless hk) (ihp xs hr)
            · rename_i k hk
              obtain ⟨v, hv, hr⟩ := fr_thenDo hr
              obtain ⟨ys, hys, hr⟩ := fr_thenDo hr
              cases hr
              have hys := ihp ys hys
              rw [fr_andThen] at hv
              cases hj : freshRun (fresh S m h) h (jsonProp S (jsonVal S x d) i p) with
              | none => rw [hj] at hv; cases hv
              | some r =>
                rw [hj] at hv
                simp only [Option.bind_some] at hv
                have hcase := jsonProp_expected hS hj
                cases r with
                | ok w =>
                  cases hv
                  rcases hcase with ⟨e, h1, _⟩ | ⟨v, j, h1, h2, h3⟩ | ⟨v, h1, h2, h3⟩
                  · cases h1
                  · exact .record hx' hk h1 h2 (ih v w h3) hys
                  · cases ht : S.toJson (S.typ i) p v with
                    | error e => rw [ht] at h3; cases h3
                    | ok u =>
                      rw [ht] at h3
                      cases h3
                      exact .value hx' hk h1 h2 ht hys
                | error e =>
                  simp only [unlessSet] at hv
                  split at hv
                  · rename_i hea
                    cases hv
                    rcases hcase with ⟨e', h1, h2⟩ | ⟨v, j, h1, h2, h3⟩ | ⟨v, h1, h2, h3⟩
                    · cases h1; exact .skip (.unset (.unset h2 hea)) hys
                    · exact .lost h1 h2 (json_finds hS h3) hea hys
                    · cases ht : S.toJson (S.typ i) p v with
                      | ok u => rw [ht] at h3; cases h3
                      | error e' =>
                        rw [ht] at h3
                        cases h3
                        exact .skip (.silent h1 ht hea) hys
                  · cases hv
    unfold jsonVal at hr
    split at hr
    · rename_i i hi
      obtain ⟨xs, hxs, hr⟩ := fr_thenDo hr
      cases hr
      exact .record hi (loop _ _ _ (find_names i) hxs)
    · rename_i hi
      cases hr
      exact .plain hi

/-! ## Differences -/

theorem slotNorm_expected (hS : Readers S) {i : Nat} {p : String} {a x : Option V} (ha : Attr S h i p a)
    (hr : freshRun (fresh S m h) h (slotNorm S i p a) = some (.ok x)) : Compared S h i p x := by
  cases a with
  | none => cases hr; exact .unset ha
  | some v =>
    simp only [slotNorm] at hr
    split at hr
    · rename_i hc; cases hr; exact .value ha hc
    · rename_i f hc
      obtain ⟨u, hu, hr⟩ := fr_thenDo hr
      cases hr
      exact .other ha hc ((gives_iff hS (hS.compareAs i p f hc v) (cached_refl h) _).2 ⟨m, hu⟩)

theorem diff_expected (hS : Readers S) : ∀ (d : Nat) (a b : V) (u : Out V),
    freshRun (fresh S m h) h (diffVal S d a b) = some (.ok u) → DiffOf S h a b u
  | 0, _, _, _, hr => by cases hr
  | d + 1, a, b, u, hr => by
    have ih := diff_expected hS d
    have one : ∀ p x y xs, freshRun (fresh S m h) h (diffSlot S (diffVal S d) p x y) = some (.ok xs) →
        DiffAt S h p x y xs := by
      intro p x y xs hr
      cases x with
      | none =>
        cases y with
        | none => cases hr; exact .neither
        | some b => cases hr; exact .added
      | some a =>
        cases y with
        | none => cases hr; exact .removed
        | some b =>
          simp only [diffSlot] at hr
          split at hr
          · rename_i i j hi hj
            split at hr
            · obtain ⟨u, hu, hr⟩ := fr_thenDo hr
              cases hr
              exact .inside (ih a b u hu)
            · rename_i ht
              cases hr
              exact .types hi hj ht
          · rename_i hn
            have hplain : S.asRec a = none ∨ S.asRec b = none := by
              cases ha : S.asRec a with
              | none => exact .inl rfl
              | some i =>
                cases hb : S.asRec b with
                | none => exact .inr rfl
                | some j => exact absurd hb (hn i j ha)
            split at hr
            · rename_i he; cases hr; exact .equal hplain he
            · rename_i he; cases hr; exact .modified hplain (by simpa using he)
    have loop : ∀ i j ps xs, freshRun (fresh S m h) h (diffProps S (diffVal S d) i j ps) = some (.ok xs) →
        DiffsOf S h i j ps xs := by
      intro i j ps
      induction ps with
      | nil => intro xs hr; cases hr; exact .nil
      | cons p ps ihp =>
        intro xs hr
        simp only [diffProps] at hr
        obtain ⟨a, ha, hr⟩ := fr_thenDo hr
        obtain ⟨a', ha', hr⟩ := fr_thenDo hr
        obtain ⟨b, hb, hr⟩ := fr_thenDo hr
        obtain ⟨b', hb', hr⟩ := fr_thenDo hr
        obtain ⟨ys, hys, hr⟩ := fr_thenDo hr
        obtain ⟨zs, hzs, hr⟩ := fr_thenDo hr
        cases hr
        exact .cons (slotNorm_expected hS (fr_attr hS ha) ha') (slotNorm_expected hS (fr_attr hS hb) hb')
          (one p a' b' ys hys) (ihp zs hzs)
    unfold diffVal at hr
    split at hr
    · rename_i i j hi hj
      split at hr
      · rename_i ht
        obtain ⟨xs, hxs, hr⟩ := fr_thenDo hr
        cases hr
        exact .record hi hj ht (loop _ _ _ _ hxs)
      · cases hr
    · cases hr

/-! ## Visits -/

theorem visit_expected (hS : Readers S) : ∀ (d : Nat) (a : V) (u : Out V),
    freshRun (fresh S m h) h (visitVal S d a) = some (.ok u) → VisitOf S h a u
  | 0, _, _, hr => by cases hr
  | d + 1, a, u, hr => by
    have ih := visit_expected hS d
    have loop : ∀ i ps xs, freshRun (fresh S m h) h (visitProps S (visitVal S d) i ps) = some (.ok xs) →
        VisitsOf S h i ps xs := by
      intro i ps
      induction ps with
      | nil => intro xs hr; cases hr; exact .nil
      | cons p ps ihp =>
        intro xs hr
        simp only [visitProps] at hr
        split at hr
        · rename_i hx; exact .extraneous hx (ihp xs hr)
        · rename_i hx
          have hx : S.extraneous (S.typ i) p = false := by simpa using hx
          obtain ⟨v, hv, hr⟩ := fr_thenDo hr
          obtain ⟨ys, hys, hr⟩ := fr_thenDo hr
          cases hr
          have hys := ihp ys hys
          rw [fr_andThen] at hv
          cases hg : freshRun (fresh S m h) h (Code.get i p .done) with
          | none => rw [hg] at hv; cases hv
          | some r =>
            rw [hg] at hv
            simp only [Option.bind_some] at hv
            have hf := fr_get hS hg
            cases r with
            | ok w =>
              simp only [visitProp] at hv
              obtain ⟨y, hy, hv⟩ := fr_thenDo hv
              cases hv
              simp only [visitSlot] at hy
              split at hy
              · rename_i j hj; exact .record hx (.set hf) hj (ih w y hy) hys
              · rename_i hj
                split at hy
                · cases hy
                · rename_i u hu
                  cases hy
                  exact .value hx (.set hf) hj hu hys
            | error e =>
              simp only [visitProp] at hv
              split at hv
              · rename_i he
                rw [Bool.or_eq_true] at he
                split at hv
                · rename_i hae
                  obtain ⟨y, hy, hv⟩ := fr_thenDo hv
                  cases hv
                  simp only [visitSlot] at hy
                  split at hy
                  · cases hy
                  · rename_i u hu
                    cases hy
                    exact .empty hx hf he hae hu hys
                · rename_i hae
                  cases hv
                  exact .skipped hx hf he (by simpa using hae) hys
              · cases hv
    unfold visitVal at hr
    split at hr
    · rename_i i hi
      obtain ⟨xs, hxs, hr⟩ := fr_thenDo hr
      cases hr
      exact .record hi (loop _ _ _ hxs)
    · rename_i hi
      cases hr
      exact .plain hi

/-- What an operation on records with lazy attributes returns is what the attributes say when they are read. -/
theorem C123 (hS : Readers S) {d : Nat}
    {o : Look V} {u : Out V} (hr : Finds S d h o (.ok u)) : Expected S h o u := by
  obtain ⟨m, hm⟩ := (gives_iff hS (reads_look hS d o) (cached_refl h) _).1 hr
  cases o with
  | attr i nm =>
    obtain ⟨v, hv, h1⟩ := fr_thenDo hm
    cases h1
    exact .attr (.set (fr_get hS hv))
  | eq a b =>
    obtain ⟨x, hx, h1⟩ := fr_thenDo hm
    cases h1
    exact .eq (eq_expected hS d a b x hx)
  | key a => exact .key (key_expected hS d a u hm)
  | json x a => exact .json (json_expected hS d a u hm)
  | diff a b => exact .diff (diff_expected hS d a b u hm)
  | visit a => exact .visit (visit_expected hS d a u hm)

/-! ## What an attribute reads as -/

theorem fresh_readsAs (hS : Readers S) {i : Nat} {nm : String} {r : Except Exc V}
    (hr : fresh S m h i nm = some r) : ReadsAs S h i nm r := by
  cases m with
  | zero => cases hr
  | succ m =>
    rw [fresh] at hr
    split at hr
    · rename_i v hv; cases hr; exact .stored hv
    · rename_i hv
      split at hr
      · rename_i hf; cases hr; exact .unknown hv hf
      · rename_i p hf
        split at hr
        · rename_i hl
          split at hr
          · cases hr
          · rename_i q hq
            cases hr
            cases hd : S.dflt (S.typ i) nm with
            | none =>
              rw [defaultOf, hd] at hq
              cases hq
              exact .none hv hf hl hd
            | some f =>
              rw [defaultOf, hd] at hq
              have hg := (gives_iff hS (hS.dflt i nm f hd) (cached_refl h) q).2 ⟨m, hq⟩
              cases q with
              | ok v => exact .lazy hv hf hl hd hg
              | error e => exact .raises hv hf hl hd hg
        · rename_i hl
          cases hr
          unfold notSet
          split
          · rename_i hk
            cases hn : p.v1none with
            | none => exact .v1 hv hf hk hn
            | some v => exact .v1none hv hf hk hn
          · rename_i hk
            exact .empty hv hf hk (by simpa using hl)

/-- What reading an attribute gives. -/
theorem C123_attr (hS : Readers S) {d i : Nat} {nm : String} {r : Except Exc (Out V)}
    (hr : Finds S d h (.attr i nm) r) : ∃ r', ReadsAs S h i nm r' ∧ r = r'.map .val := by
  obtain ⟨m, hm⟩ := (gives_iff hS (reads_look hS d (.attr i nm)) (cached_refl h) _).1 hr
  have hm : freshRun (fresh S m h) h ((Code.get i nm .done).thenDo fun v => .done (.ok (.val v))) = some r := hm
  rw [Code.thenDo, fr_andThen] at hm
  cases hg : freshRun (fresh S m h) h (Code.get i nm .done) with
  | none => rw [hg] at hm; cases hm
  | some q =>
    rw [hg] at hm
    have hq : fresh S m h i nm = some q := by
      simp only [freshRun] at hg
      split at hg
      · cases hg
      · rename_i q' hq'; cases hg; exact hq'
    refine ⟨q, fresh_readsAs hS hq, ?_⟩
    cases q with
    | ok v => cases hm; rfl
    | error e => cases hm; rfl

/-! ## The theorems apply -/

theorem exShop_finds : Finds exShop 5 exShopH (.eq 1010 1011) (.ok (.flag true)) := by
  cases hr : run exShop 3 (Look.code exShop 5 (.eq 1010 1011)) exShopH with
  | none =>
    have h2 : (run exShop 3 (Look.code exShop 5 (.eq 1010 1011)) exShopH).isSome = true := by decide +kernel
    rw [hr] at h2
    cases h2
  | some q =>
    obtain ⟨r, h⟩ := q
    have h2 : (run exShop 3 (Look.code exShop 5 (.eq 1010 1011)) exShopH).map
        (fun q => match q.1 with | .ok (.flag b) => b | _ => false) = some true := by decide +kernel
    rw [hr] at h2
    have h2 := Option.some.inj h2
    match r, h2 with
    | .ok (.flag true), _ => exact ⟨3, h, hr⟩

/-- The records are equal, as their attributes are, with the totals that are computed for it. -/
example : EqualTo exShop exShopH 1010 1011 true := by
  cases C123 exShop_readers exShop_finds with
  | eq h => exact h

/-- The total of an item is computed from its price and tax. -/
example {r : Except Exc (Out Int)} (hr : Finds exShop 0 exShopH (.attr 0 "total") r) :
    ∃ r', ReadsAs exShop exShopH 0 "total" r' ∧ r = r'.map .val := C123_attr exShop_readers hr

end Normalize.Observe
