import Verif.Spec.IdentityUnion
import Verif.Lemmas.Hashing
import Verif.Props.JsonOut

/-!
# C128: the identity of a slot that may hold records of several types
-/

namespace Normalize.Ident

open Normalize.Spec

variable {S : Schema}

/-- C128: a slot that may hold several types of records is identified by the identity of the record that it holds. -/
def C128_statement : Prop :=
  ∀ (S : Schema) (n : Nat) (h : String) (s : List (String × Val)) (p : IProp) (c : String) (sl : List (String × Val))
    (k : List Key) (ks : List Key),
    (S.cls h).coll = none → Identifies S h p → readAttr S (.rcd h s) p.name = some (.rcd c sl) → .cls c ∈ p.types →
    rid S none n (.cls c) none (.rcd c sl) = .ok (.tup k) → k ≠ [] →
    recordId S (n + 1) (.rcd h s) = .ok (.tup ks) → .tup k ∈ ks

theorem setElements_parts (ks : List Key) : setElements ks = setParts ks := by
  induction ks with
  | nil => rfl
  | cons k ks ih =>
    have h : setElements (k :: ks) = setElements ks + (if k.isSet = true then 1 else 0) := by
      simp only [setElements, List.countP_cons]
    rw [h, ih]
    cases k with
    | tup l => simp [Key.isSet, setParts]
    | raw v =>
      by_cases hv : v = .atom .none
      · subst hv
        have h3 : (Key.raw (.atom .none)).isSet = false := by decide +kernel
        rw [h3]
        rfl
      · have : setParts (.raw v :: ks) = setParts ks + 1 := by
          rw [setParts]
          intro h
          exact hv (Key.raw.inj h)
        rw [this]
        have h2 : v ≠ Val.none := hv
        simp [Key.isSet, h2]

theorem setParts_nil_le (b : List Key) : setParts [] ≤ setParts b := Nat.zero_le _

theorem bestKey_spec {n : Nat} {v : Val} : ∀ (ts : List Ty) (best : List Key) (b : List Key),
    bestKey (fun c => rid S none n (.cls c) none v) ts best (setParts best) = .ok b →
    ∃ ids, IdsUnder S n v ts ids ∧
      ((b = best ∧ (best = [] → ∀ k ∈ ids, k = []) ∧ ∀ k ∈ ids, setParts k ≤ setParts best) ∨
       (FirstMost ids b ∧ (best ≠ [] → setParts best < setParts b)))
  | [], best, b, h => by
    simp only [bestKey, Except.ok.injEq] at h
    exact ⟨[], .nil, .inl ⟨h.symm, fun _ _ hk => (nomatch hk), fun _ hk => (nomatch hk)⟩⟩
  | .other t :: ts, best, b, h => by
    obtain ⟨ids, h1, h2⟩ := bestKey_spec ts best b h
    exact ⟨ids, .other h1, h2⟩
  | .cls c :: ts, best, b, h => by
    simp only [bestKey] at h
    generalize hk : rid S none n (.cls c) none v = r at h
    cases r with
    | error e => cases h
    | ok key =>
      have htup : ∃ l, key = .tup l := by
        cases n with
        | zero => simp only [rid] at hk; cases hk
        | succ n =>
          simp only [rid] at hk
          have has : ∀ (x : Except Exc (List Key)) (k : Key), asTuple x = .ok k → ∃ l, k = .tup l := by
            intro x k hx
            cases x with
            | error e => cases hx
            | ok l => cases hx; exact ⟨l, rfl⟩
          split at hk
          · split at hk
            · cases hk
            · exact has _ _ hk
          · exact has _ _ hk
      obtain ⟨l, rfl⟩ := htup
      simp only [Key.members, setElements_parts] at h
      split at h
      · rename_i hc
        obtain ⟨ids, h1, h2⟩ := bestKey_spec ts l b h
        refine ⟨l :: ids, .cls hk h1, ?_⟩
        simp only [Bool.or_eq_true, List.isEmpty_iff, decide_eq_true_eq] at hc
        rcases h2 with ⟨rfl, h3, h4⟩ | ⟨⟨pre, post, rfl, hb, hpre, hpost⟩, h4⟩
        · by_cases hl : b = []
          · rcases hc with hc | hc
            · refine .inl ⟨by rw [hl, hc], fun _ k hk => ?_, fun k hk => ?_⟩
              · rcases List.mem_cons.1 hk with rfl | hk
                · exact hl
                · exact h3 hl k hk
              · rcases List.mem_cons.1 hk with rfl | hk
                · rw [hl]; exact setParts_nil_le _
                · rw [h3 hl k hk]; exact setParts_nil_le _
            · rw [hl] at hc
              exact absurd hc (Nat.not_lt_zero _)
          · refine .inr ⟨⟨[], ids, rfl, hl, fun _ hk => (nomatch hk), h4⟩, fun hne => ?_⟩
            rcases hc with hc | hc
            · exact absurd hc hne
            · exact hc
        · refine .inr ⟨⟨l :: pre, post, rfl, hb, fun k hk hne => ?_, hpost⟩, fun hne => ?_⟩
          · rcases List.mem_cons.1 hk with rfl | hk
            · exact h4 hne
            · exact hpre k hk hne
          · rcases hc with hc | hc
            · exact absurd hc hne
            · by_cases hl : l = []
              · rw [hl] at hc
                exact absurd hc (Nat.not_lt_zero _)
              · exact Nat.lt_trans hc (h4 hl)
      · rename_i hc
        obtain ⟨ids, h1, h2⟩ := bestKey_spec ts best b h
        refine ⟨l :: ids, .cls hk h1, ?_⟩
        simp only [Bool.or_eq_true, List.isEmpty_iff, decide_eq_true_eq, not_or, Nat.not_lt] at hc
        obtain ⟨hne, hle⟩ := hc
        rcases h2 with ⟨rfl, h3, h4⟩ | ⟨⟨pre, post, rfl, hb, hpre, hpost⟩, h4⟩
        · refine .inl ⟨rfl, fun h => absurd h hne, fun k hk => ?_⟩
          rcases List.mem_cons.1 hk with rfl | hk
          · exact hle
          · exact h4 k hk
        · refine .inr ⟨⟨l :: pre, post, rfl, hb, fun k hk hne' => ?_, hpost⟩, h4⟩
          rcases List.mem_cons.1 hk with rfl | hk
          · exact Nat.lt_of_le_of_lt hle (h4 hne)
          · exact hpre k hk hne'

/-- Which identity counts: that under the first of the types under which most parts are set; if there are no parts
under any of the types, then the value itself. -/
theorem C128_rule (S : Schema) (n : Nat) (h : String) (s : List (String × Val)) (p : IProp) (v : Val) (ks : List Key)
    (hc : (S.cls h).coll = none) (hp : Identifies S h p) (hv : readAttr S (.rcd h s) p.name = some v) (hne : v ≠ .none)
    (hk : recordId S (n + 1) (.rcd h s) = .ok (.tup ks)) :
    ∃ ids, IdsUnder S n v p.types ids ∧ ∃ part ∈ ks,
      (∃ b, FirstMost ids b ∧ part = .tup b) ∨ ((∀ k ∈ ids, k = []) ∧ part = .raw v) := by
  have hk' : asTuple (mapE (slotKey S none (fun c' s w => rid S none n (.cls c') s w) (fun k => khash S n k) none
      (.rcd h s)) (idProps (S.cls h) none)) = .ok (.tup ks) := by
    have := hk
    simp only [recordId, typeOf, rid, hc] at this
    exact this
  generalize hm : mapE _ _ = r at hk'
  cases r with
  | error e => cases hk'
  | ok l =>
    cases hk'
    obtain ⟨part, hpart, hs⟩ := mapE_ok_left hm p (mem_idProps_none.2 hp)
    simp only [slotKey, runHook, hv, Option.getD_some] at hs
    split at hs
    · split at hs
      · cases hs
      · rename_i best hb
        have hsub : subSel none (.str p.name) = none := rfl
        rw [hsub] at hb
        obtain ⟨ids, h1, h2⟩ := bestKey_spec p.types [] best hb
        refine ⟨ids, h1, part, hpart, ?_⟩
        unfold checkedKey at hs
        split at hs
        · cases hs
          rcases h2 with ⟨rfl, h3, _⟩ | ⟨h3, _⟩
          · exact .inr ⟨h3 rfl, rfl⟩
          · refine .inl ⟨best, h3, ?_⟩
            obtain ⟨pre, post, _, hbn, _⟩ := h3
            cases best with
            | nil => exact absurd rfl hbn
            | cons _ _ => rfl
        · split at hs <;> cases hs
    · rename_i hno
      cases hs
      have ht : p.types = [] := by
        rcases Classical.em (p.types = []) with h | h
        · exact h
        · exact absurd ⟨hne, h⟩ hno
      exact ⟨[], by rw [ht]; exact .nil, .raw v, hpart, .inr ⟨fun _ hk => (nomatch hk), rfl⟩⟩

theorem idsUnder_mem {n : Nat} {v : Val} {ts : List Ty} {ids : List (List Key)} (h : IdsUnder S n v ts ids) :
    ∀ k ∈ ids, ∃ c, .cls c ∈ ts ∧ rid S none n (.cls c) none v = .ok (.tup k) := by
  induction h with
  | nil => intro k hk; cases hk
  | other _ ih =>
    intro k hk
    obtain ⟨c, hc, hr⟩ := ih k hk
    exact ⟨c, List.mem_cons_of_mem _ hc, hr⟩
  | @cls c ts k ids hr _ ih =>
    intro k' hk
    rcases List.mem_cons.1 hk with rfl | hk
    · exact ⟨c, List.mem_cons_self, hr⟩
    · obtain ⟨c', hc, hr⟩ := ih k' hk
      exact ⟨c', List.mem_cons_of_mem _ hc, hr⟩

theorem mem_idsUnder {n : Nat} {v : Val} {ts : List Ty} {ids : List (List Key)} (h : IdsUnder S n v ts ids)
    {c : String} {k : List Key} (hc : .cls c ∈ ts) (hk : rid S none n (.cls c) none v = .ok (.tup k)) : k ∈ ids := by
  induction h with
  | nil => cases hc
  | other _ ih =>
    rcases List.mem_cons.1 hc with h | h
    · cases h
    · exact ih h
  | @cls c' ts k' ids hr _ ih =>
    rcases List.mem_cons.1 hc with h | h
    · cases h
      rw [hk] at hr
      cases hr
      exact List.mem_cons_self
    · exact List.mem_cons_of_mem _ (ih h)

/-- If more parts are set under the record's own type than under the others, then the slot is identified by the
identity of the record. -/
theorem C128_partial (S : Schema) (n : Nat) (h : String) (s : List (String × Val)) (p : IProp) (c : String)
    (sl : List (String × Val)) (k ks : List Key)
    (hc : (S.cls h).coll = none) (hp : Identifies S h p) (hv : readAttr S (.rcd h s) p.name = some (.rcd c sl))
    (hct : .cls c ∈ p.types) (hk : rid S none n (.cls c) none (.rcd c sl) = .ok (.tup k)) (hkn : k ≠ [])
    (hmore : ∀ d l, .cls d ∈ p.types → d ≠ c → rid S none n (.cls d) none (.rcd c sl) = .ok (.tup l) →
      setParts l < setParts k)
    (hks : recordId S (n + 1) (.rcd h s) = .ok (.tup ks)) : .tup k ∈ ks := by
  obtain ⟨ids, h1, part, hpart, h2⟩ := C128_rule S n h s p (.rcd c sl) ks hc hp hv (fun h => (nomatch h)) hks
  have hkm := mem_idsUnder h1 hct hk
  rcases h2 with ⟨b, ⟨pre, post, rfl, hb, hpre, hpost⟩, rfl⟩ | ⟨h3, _⟩
  · obtain ⟨d, hd, hr⟩ := idsUnder_mem h1 b (by simp)
    by_cases hdc : d = c
    · subst hdc
      rw [hk] at hr
      cases hr
      exact hpart
    · have hlt := hmore d b hd hdc hr
      rcases List.mem_append.1 hkm with hm | hm
      · exact absurd (hpre k hm hkn) (Nat.not_lt.2 (Nat.le_of_lt hlt))
      · rcases List.mem_cons.1 hm with rfl | hm
        · exact hpart
        · exact absurd (hpost k hm) (Nat.not_le.2 hlt)
  · exact absurd (h3 k hkm) hkn

theorem setParts_nones {ks : List Key} (h : ∀ k ∈ ks, k = .raw .none) : setParts ks = 0 := by
  induction ks with
  | nil => rfl
  | cons k ks ih =>
    have := h k List.mem_cons_self
    subst this
    exact ih (fun k hk => h k (List.mem_cons_of_mem _ hk))

/-- In particular if the other types are identified by attributes that the record does not have, and one part of its
own identity is set. -/
theorem C128_disjoint (S : Schema) (n : Nat) (h : String) (s : List (String × Val)) (p : IProp) (c : String)
    (sl : List (String × Val)) (k ks : List Key)
    (hc : (S.cls h).coll = none) (hp : Identifies S h p) (hv : readAttr S (.rcd h s) p.name = some (.rcd c sl))
    (hct : .cls c ∈ p.types) (hk : rid S none n (.cls c) none (.rcd c sl) = .ok (.tup k)) (hset : 0 < setParts k)
    (hother : ∀ d, .cls d ∈ p.types → d ≠ c → (S.cls d).coll = none ∧
      ∀ q, Identifies S d q → readAttr S (.rcd c sl) q.name = none)
    (hks : recordId S (n + 1) (.rcd h s) = .ok (.tup ks)) : .tup k ∈ ks := by
  refine C128_partial S n h s p c sl k ks hc hp hv hct hk (fun h => by subst h; cases hset) ?_ hks
  intro d l hd hdc hl
  obtain ⟨hdn, hq⟩ := hother d hd hdc
  have : setParts l = 0 := by
    cases n with
    | zero => simp only [rid] at hl; cases hl
    | succ n =>
      have hl' : asTuple (mapE (slotKey S none (fun c' s w => rid S none n (.cls c') s w) (fun k => khash S n k) none
          (.rcd c sl)) (idProps (S.cls d) none)) = .ok (.tup l) := by
        have := hl
        simp only [rid, hdn] at this
        exact this
      generalize hm : mapE _ _ = r at hl'
      cases r with
      | error e => cases hl'
      | ok l' =>
        cases hl'
        refine setParts_nones fun x hx => ?_
        obtain ⟨q, hqm, hs⟩ := mapE_ok_right hm x hx
        have hnone := hq q (mem_idProps_none.1 hqm)
        simp only [slotKey, runHook, hnone, Option.getD_none] at hs
        rw [if_neg (fun h => h.1 rfl)] at hs
        cases hs
        rfl
  rw [this]
  exact hset

namespace Ex

/-- The owner of a pet is a person or a company. -/
def ownerClasses : String → ICls
  | "Pet" => { props := [{ name := "owner", types := [.cls "Person", .cls "Company"] }] }
  | "Person" =>
    { props := [{ name := "id" }, { name := "name" }, { name := "town" }], pk := [{ name := "id" }] }
  | "Company" => { props := [{ name := "label" }, { name := "name" }, { name := "town" }] }
  | "Boat" => { props := [{ name := "owner", types := [.cls "Yard", .cls "Person"] }] }
  | "Yard" => { props := [{ name := "berths" }] }
  | _ => {}

def owners : Schema := Json.exSchema ownerClasses

/-- A person has an id, a name and a town. -/
def person : List (String × Val) := [("id", .int 1), ("name", .str "Ann"), ("town", .str "Ulm")]

end Ex

/-- A boat is identified by the id of the person who owns it: a yard is identified by something else. -/
example : Key.tup [.raw (.int 1)] ∈ [Key.tup [.raw (.int 1)]] :=
  C128_disjoint Ex.owners 5 "Boat" [("owner", .rcd "Person" Ex.person)]
    { name := "owner", types := [.cls "Yard", .cls "Person"] } "Person" Ex.person [.raw (.int 1)] _
    (by decide +kernel) (by unfold Identifies; decide +kernel) (by decide +kernel) (by decide +kernel)
    (by decide +kernel)
    (by decide +kernel)
    (fun d hd hne => by
      simp only [List.mem_cons, Ty.cls.injEq, List.not_mem_nil, or_false] at hd
      rcases hd with rfl | rfl
      · refine ⟨by decide +kernel, fun q hq => ?_⟩
        have hall : ∀ q ∈ (Ex.owners.cls "Yard").props, readAttr Ex.owners (.rcd "Person" Ex.person) q.name = none := by
          decide +kernel
        unfold Identifies at hq
        rw [if_pos (by decide +kernel)] at hq
        exact hall q hq.1
      · exact absurd rfl hne)
    (by decide +kernel)

/-- A company is identified by its name and town, and persons have these too: the id of the person who owns the pet
does not count. -/
theorem C128_violated : ¬ C128_statement := by
  intro h
  have h1 := h Ex.owners 5 "Pet" [("owner", .rcd "Person" Ex.person)]
    { name := "owner", types := [.cls "Person", .cls "Company"] } "Person" Ex.person [.raw (.int 1)]
    [.tup [.raw .none, .raw (.str "Ann"), .raw (.str "Ulm")]]
    (by decide +kernel) (by unfold Identifies; decide +kernel) (by decide +kernel) (by decide +kernel)
    (by decide +kernel)
    (by decide +kernel) (by decide +kernel)
  revert h1
  decide +kernel

end Normalize.Ident
