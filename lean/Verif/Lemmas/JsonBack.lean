import Verif.Spec.JsonBack
import Verif.Props.JsonUnknown

/-!
# Lemmas about the trip through JSON
-/

namespace Normalize.Json
open Ident (IProp Sub Ty ItemTy veq WF AtomLaws SameRead readAttr DictEq)
open Spec

/-- A relation between what is read back and the original: a value without records is itself, and records and
collections are related if their attributes that count and their members are. -/
structure Trip (S : Ident.Schema) (Q : Val → Val → Prop) : Prop where
  eq : ∀ {w v}, Q w v → veq S w v = .ok true
  same : ∀ v, WF S v → Q v v
  rcd : ∀ {c s' s}, (∀ p ∈ (S.cls c).props, p.extraneous = false →
    Option.Rel Q (readAttr S (.rcd c s') p.name) (readAttr S (.rcd c s) p.name)) → Q (.rcd c s') (.rcd c s)
  lcoll : ∀ {c ws xs}, List.Forall₂ Q ws xs → Q (.lcoll c ws) (.lcoll c xs)
  dcoll : ∀ {c} {ws xs : List (Comp × Val)}, (xs.map (·.1)).Nodup →
    List.Forall₂ (fun w x => w.1 = x.1 ∧ Q w.2 x.2) ws xs → Q (.dcoll c ws) (.dcoll c xs)

theorem dictEq_of_forall₂ {S : Ident.Schema} {ws xs : List (Comp × Val)} (hn : (xs.map (·.1)).Nodup)
    (h : List.Forall₂ (fun w x => w.1 = x.1 ∧ veq S w.2 x.2 = .ok true) ws xs) : DictEq S ws xs := by
  refine ⟨h.length_eq, fun w hw => ?_⟩
  obtain ⟨x, hx, hwx⟩ : ∃ x ∈ xs, w.1 = x.1 ∧ veq S w.2 x.2 = .ok true := by
    clear hn
    induction h with
    | nil => simp at hw
    | @cons a b as bs h _ ih =>
      rcases List.mem_cons.mp hw with rfl | hw
      · exact ⟨b, List.mem_cons_self, h⟩
      · obtain ⟨x, hx, h'⟩ := ih hw
        exact ⟨x, List.mem_cons_of_mem _ hx, h'⟩
  refine ⟨x.2, ?_, hwx.2⟩
  rw [hwx.1]
  exact Ident.alookup_of_mem hn hx

/-- Equality is such a relation. -/
theorem trip_veq {S : Ident.Schema} (L : AtomLaws S) : Trip S (fun w v => veq S w v = .ok true) where
  eq h := h
  same v h := Ident.veq_refl L v h
  rcd h := Ident.veq_rcd.2 ⟨rfl, fun p hp hex => by
    have := h p hp hex
    generalize readAttr S _ p.name = a at this ⊢
    generalize readAttr S _ p.name = b at this ⊢
    cases this with
    | some h => exact h
    | none => trivial⟩
  lcoll h := Ident.veq_lcoll.mpr ⟨rfl, h⟩
  dcoll hn h := Ident.veq_dcoll.mpr ⟨rfl, dictEq_of_forall₂ hn h⟩

variable {J : Setup} {e : Bool} {Q : Val → Val → Prop}

theorem bound {α : Type} {l : List α} {P : Nat → α → Prop} (h : ∀ x ∈ l, ∃ n0, ∀ n, n0 ≤ n → P n x) :
    ∃ n0, ∀ n, n0 ≤ n → ∀ x ∈ l, P n x := by
  induction l with
  | nil => exact ⟨0, fun _ _ x hx => by simp at hx⟩
  | cons a l ih =>
    obtain ⟨n1, h1⟩ := h a List.mem_cons_self
    obtain ⟨n2, h2⟩ := ih (fun x hx => h x (List.mem_cons_of_mem _ hx))
    refine ⟨max n1 n2, fun n hn x hx => ?_⟩
    rcases List.mem_cons.mp hx with rfl | hx
    · exact h1 n (by omega)
    · exact h2 n (by omega) x hx

/-! ## Output -/

theorem aset_nodup {α β : Type} [DecidableEq α] {l : List (α × β)} (k : α) (v : β) (h : (l.map (·.1)).Nodup) :
    ((aset l k v).map (·.1)).Nodup := by
  induction l with
  | nil => simp [aset]
  | cons x l ih =>
    obtain ⟨a, b⟩ := x
    simp only [List.map_cons, List.nodup_cons] at h
    simp only [aset]
    split
    · next he => subst he; simp [h]
    · next he =>
      simp only [List.map_cons, List.nodup_cons]
      refine ⟨?_, ih h.2⟩
      rw [← alookup_none_iff] at h ⊢
      rw [alookup_aset, h.1]
      have : ¬ k = a := fun h => he h.symm
      simp [this]

theorem recordOut_nodup {c : String} {s : List (String × Val)} {d : List (Comp × Val)}
    (h : recordOut J e c (outs J e s) = .ok d) : (d.map (·.1)).Nodup :=
  writeProps_ind (P := fun d => (d.map (·.1)).Nodup) (fun rv p k j hrv _ _ => aset_nodup k j hrv) _
    (fun p hp => hp) [] d (by simp) h

theorem mergeUnknown_nodup : ∀ (us : List (Comp × Except Exc Val)) (jd d : List (Comp × Val)),
    mergeUnknown us jd = .ok d → (jd.map (·.1)).Nodup → (d.map (·.1)).Nodup := by
  intro us
  induction us with
  | nil => intro jd d h hn; simp [mergeUnknown] at h; subst h; exact hn
  | cons x us ih =>
    obtain ⟨k, r⟩ := x
    intro jd d h hn
    simp only [mergeUnknown] at h
    split at h
    · exact ih _ _ h hn
    · cases r with
      | error x => cases h
      | ok j => exact ih _ _ h (aset_nodup _ _ hn)

theorem slotRaises_none {c : String} {s : List (String × Val)} {p : IProp} (h : MayMiss J e c s p) :
    slotRaises J c (outs J e s) p = none := by
  unfold slotRaises
  rw [outs_lookup]
  cases hs : alookup s p.name with
  | some v => rfl
  | none => simp [h.unset hs]

/-- A record in which every written property can be converted is written. -/
theorem recordOut_total {c : String} {s : List (String × Val)} (hm : ∀ p ∈ (J.S.cls c).props, MayMiss J e c s p)
    (hw : ∀ p ∈ (J.S.cls c).props, Written J e c s p → ∃ j, Converts J e c s p (.ok j)) :
    ∃ d, recordOut J e c (outs J e s) = .ok d := by
  have : ∀ (ps : List IProp), (∀ p ∈ ps, p ∈ (J.S.cls c).props) → ∀ rv,
      ∃ d, writeProps J e c (outs J e s) ps rv = .ok d := by
    intro ps
    induction ps with
    | nil => intro _ rv; exact ⟨rv, rfl⟩
    | cons p ps ih =>
      intro hps rv
      have hp := hps p List.mem_cons_self
      have : ∃ rv', writeProp J e c (outs J e s) rv p = .ok rv' := by
        unfold writeProp
        split
        · exact ⟨_, rfl⟩
        · next hsel =>
          have hsel : Selected e p := by
            simp only [Bool.and_eq_true, Bool.not_eq_true', not_and, Bool.not_eq_true] at hsel
            cases he : e with
            | true => exact .inr rfl
            | false => exact .inl (hsel he)
          rw [slotRaises_none (hm p hp)]
          cases hn : jsonName J c p with
          | none => exact ⟨_, rfl⟩
          | some nm =>
            simp only []
            cases hs : alookup s p.name with
            | none =>
              have : slotOut J c (outs J e s) p = none := by
                simp [slotOut, outs_lookup, hs, (hm p hp).unset hs]
              rw [this]; exact ⟨_, rfl⟩
            | some v =>
              obtain ⟨j, hj⟩ := hw p hp ⟨⟨v, hs⟩, hsel, nm, named_iff.mpr hn⟩
              rw [(converts_iff hj).2]
              exact ⟨_, rfl⟩
      obtain ⟨rv', hrv'⟩ := this
      obtain ⟨d, hd⟩ := ih (fun q hq => hps q (List.mem_cons_of_mem _ hq)) rv'
      exact ⟨d, by simp [writeProps, hrv', hd]⟩
  exact this _ (fun p hp => hp) []

theorem converts_unique {c : String} {s : List (String × Val)} {p : IProp} {r r' : Except Exc Val}
    (h : Converts J e c s p r) (h' : Converts J e c s p r') : r = r' := by
  have h1 := (converts_iff h).2
  have h2 := (converts_iff h').2
  rw [h1] at h2
  exact Option.some.inj h2

/-- What the document has under the name of a property. -/
theorem recordOut_doc {c : String} {s : List (String × Val)} {d : List (Comp × Val)}
    (h : recordOut J e c (outs J e s) = .ok d) (hm : ∀ p ∈ (J.S.cls c).props, MayMiss J e c s p)
    (hd : ∀ p q k, p ∈ (J.S.cls c).props → q ∈ (J.S.cls c).props → Named J c p (some k) → Named J c q (some k) → p = q)
    {p : IProp} (hp : p ∈ (J.S.cls c).props) {k : String} (hk : Named J c p (some k)) :
    (∀ j, Written J e c s p → Converts J e c s p (.ok j) → alookup d (.str k) = some j) ∧
    (¬ Written J e c s p → alookup d (.str k) = none) := by
  have hl := writeProps_lookup (J := J) (e := e) (s := s) (k := .str k) _ _ _ h
  constructor
  · intro j hw hc
    have : (alookup d (.str k)).isSome = true := hl.1.mpr (.inr ⟨p, hp, j, hw.2.1, k, rfl, hk, hc⟩)
    cases hj : alookup d (.str k) with
    | none => rw [hj] at this; cases this
    | some j' =>
      rcases hl.2 j' hj with h0 | ⟨q, hq, _, nm, he, hn, hc'⟩
      · cases h0
      · cases he
        have := hd p q k hp hq hk hn
        subst this
        have := converts_unique hc hc'
        cases this
        rfl
  · intro hnw
    cases hj : alookup d (.str k) with
    | none => rfl
    | some j' =>
      exfalso
      rcases hl.2 j' hj with h0 | ⟨q, hq, hsel, nm, he, hn, hc'⟩
      · cases h0
      · cases he
        have := hd p q k hp hq hk hn
        subst this
        refine hnw ⟨?_, hsel, k, hk⟩
        cases hs : alookup s p.name with
        | some v => exact ⟨v, rfl⟩
        | none =>
          have := (converts_iff hc').2
          simp [slotOut, outs_lookup, hs, (hm p hp).unset hs] at this

/-! ## Input -/

theorem accepted_typeSafe {mk : Mk} {i : JInfo} {types : List Ty} {v : Val} (h : Accepted J i types v) :
    typeSafe J mk i types v = .ok (some v) := by
  have hc : runCheck i v = .ok (some v) := by
    unfold runCheck
    cases hf : i.check with
    | none => rfl
    | some f => simp [h.check f hf]
  unfold typeSafe
  rw [if_neg h.set]
  have : (!types.isEmpty && !types.any (fun t => instOf J t v)) = false := by
    rcases h.type with rfl | ⟨t, ht, hi⟩
    · rfl
    · have : types.any (fun t => instOf J t v) = true := List.any_eq_true.mpr ⟨t, ht, hi⟩
      simp [this]
  rw [this]
  exact hc

theorem noConv_in {i : JInfo} (h : NoConverters i) (v : Val) : propIn i v = .ok v := by
  unfold propIn
  cases hj : i.json with
  | none => rfl
  | some o => simp [(h o hj).1]

theorem noFromJson_init {mk : Mk} {types : List Ty} (h : NoFromJson J types) (v : Val) :
    valueInit J mk types v = .ok v := by
  match types, h with
  | [], _ => rfl
  | [.cls d], h => simp [valueInit, h.1 d rfl]
  | [.other n], h => simp [valueInit, h.2 n rfl]
  | _ :: _ :: _, _ => simp [valueInit]

theorem noConv_converts {c : String} {s : List (String × Val)} {p : IProp} {v j : Val}
    (h : NoConverters (J.info c p.name)) (hs : alookup s p.name = some v) (hj : jsonData J e v = .ok j) :
    Converts J e c s p (.ok j) := by
  rw [← hj]
  cases ho : (J.info c p.name).json with
  | none => exact .plain hs ho
  | some o => exact .auto hs ho (h o ho).2

/-- Containers are what JSON has for records and collections. -/
def IsContainer (j : Val) : Prop := (∃ xs, j = .dict xs) ∨ ∃ xs, j = .list xs

theorem container_clsOf {j : Val} (h : IsContainer j) : clsOf j = none := by
  rcases h with ⟨xs, rfl⟩ | ⟨xs, rfl⟩ <;> rfl

theorem container_decode {j : Val} (h : IsContainer j) : decode J j = .ok j := by
  rcases h with ⟨xs, rfl⟩ | ⟨xs, rfl⟩ <;> rfl

/-- Reading in one way or the other. -/
def readWith (J : Setup) (mk : Mk) (m : Bool) (d : String) (j : Val) : Except JErr Val :=
  if m then fromJsonWith J mk d j else mk d j

/-- What is to be shown for a value. -/
structure Good (Q : Val → Val → Prop) (J : Setup) (e : Bool) (m : Bool) (v : Val) : Prop where
  ex : ∃ d j, clsOf v = some d ∧ jsonData J e v = .ok j ∧ IsContainer j ∧
    ∃ n0, ∀ n, n0 ≤ n → ∃ w, readWith J (make J n) m d j = .ok w ∧ clsOf w = some d ∧ Q w v

theorem instOf_cls {d : String} {w : Val} (h : clsOf w = some d) : instOf J (.cls d) w = true := by
  simp [instOf, h]

theorem field_good (L : Trip J.S Q) {m : Bool} {c : String} {p : IProp} {v : Val} {s : List (String × Val)}
    (h : BackField J e m c p v) (hs : alookup s p.name = some v) (ih : ∀ m, Back J e m v → Good Q J e m v) :
    ∃ j, Converts J e c s p (.ok j) ∧ ∃ n0, ∀ n, n0 ≤ n → ∃ w u,
      (∀ k, m = true → convertIn J (make J n) c p k j = .ok w) ∧ (m = false → w = j) ∧
      typeSafe J (make J n) (J.info c p.name) p.types w = .ok (some u) ∧ Q u v := by
  cases h with
  | plain h1 h2 h3 h4 =>
    refine ⟨v, noConv_converts h1 hs (isJson_fixed h3.json).2, 0, fun n _ => ⟨v, v, ?_, fun _ => rfl, ?_, ?_⟩⟩
    · intro k _; simp [convertIn, noConv_in h1, noFromJson_init h2, boxing]
    · exact accepted_typeSafe h4
    · exact L.same v h3.wf
  | @conv _ _ _ o f g j h1 h2 h3 h4 h5 h6 h7 h8 =>
    refine ⟨j, ?_, 0, fun n _ => ⟨v, v, ?_, fun h => (by cases h), ?_, ?_⟩⟩
    · rw [← h4]; exact .own hs h1 h2
    · intro k _
      simp [convertIn, propIn, h1, h3, lift, h5, noFromJson_init h6, boxing]
    · exact accepted_typeSafe h8
    · exact L.same v h7
  | @record _ _ _ _ d h1 h2 h3 h4 h5 h6 =>
    obtain ⟨d', j, hd', hj, hcon, n0, hn0⟩ := (ih false h6).ex
    rw [h3] at hd'
    cases hd'
    refine ⟨j, noConv_converts h1 hs hj, n0, fun n hn => ?_⟩
    obtain ⟨w, hw, hcw, hvw⟩ := hn0 n hn
    simp only [readWith, Bool.false_eq_true, if_false] at hw
    have hrun : runCheck (J.info c p.name) w = .ok (some w) := by
      unfold runCheck
      cases hf : (J.info c p.name).check with
      | none => rfl
      | some f => simp [h5 f w hf (L.eq hvw)]
    have hinst : p.types.any (fun t => instOf J t w) = true := by
      rw [h2]; simp [instOf_cls hcw]
    have hraw : typeSafe J (make J n) (J.info c p.name) p.types j = .ok (some w) := by
      have hni : p.types.any (fun t => instOf J t j) = false := by
        rw [h2]; simp [instOf, container_clsOf hcon]
      unfold typeSafe
      rw [if_neg (by rw [h2]; simp)]
      rw [hni]
      simp only [coerceVal, h4, h2, callTy, hw]
      rw [h2] at hinst
      simp only [hinst]
      simp [hrun]
    have hdone : typeSafe J (make J n) (J.info c p.name) p.types w = .ok (some w) := by
      unfold typeSafe
      rw [if_neg (by rw [h2]; simp), hinst]
      simp [hrun]
    cases m with
    | false => exact ⟨j, w, fun k h => (by cases h), fun _ => rfl, hraw, hvw⟩
    | true =>
      cases hJ : J.isJson d with
      | true =>
        refine ⟨w, w, fun k _ => ?_, fun h => (by cases h), hdone, hvw⟩
        simp [convertIn, noConv_in h1, h2, valueInit, hJ, hw, boxing]
      | false =>
        refine ⟨j, w, fun k _ => ?_, fun h => (by cases h), hraw, hvw⟩
        simp [convertIn, noConv_in h1, h2, valueInit, hJ, boxing]

theorem eager_iff {c : String} {p : IProp} : eager J c p = true ↔ Eager J c p := by
  unfold eager Eager
  cases (J.info c p.name).lazy <;> cases (J.info c p.name).required <;> cases (J.info c p.name).default <;> simp

/-- Making the record from the arguments; `W` says which properties were written. -/
theorem initRecord_same (L : Trip J.S Q) {mk : Mk} {c : String} {s : List (String × Val)} {kw : List (String × Val)}
    {W : IProp → Prop}
    (hnd : ((J.S.cls c).props.map (·.name)).Nodup) (hkw : (kw.map (·.1)).Nodup)
    (heager : ∀ p ∈ (J.S.cls c).props, Eager J c p → ¬ W p → p.extraneous = true ∧
      ∃ d, (J.info c p.name).default = some d ∧ Accepted J (J.info c p.name) p.types d)
    (hunset : ∀ p ∈ (J.S.cls c).props, p.extraneous = false → ¬ W p → alookup s p.name = none)
    (hknown : ∀ x ∈ kw, ∃ p w, findProp J c x.1 = some p ∧
      typeSafe J mk (J.info c p.name) p.types x.2 = .ok (some w))
    (hwr : ∀ p ∈ (J.S.cls c).props, p.extraneous = false → W p → ∃ v w u, alookup s p.name = some v ∧
      alookup kw p.name = some w ∧ typeSafe J mk (J.info c p.name) p.types w = .ok (some u) ∧ Q u v)
    (hwe : ∀ p ∈ (J.S.cls c).props, W p → (alookup kw p.name).isSome = true)
    (hun : ∀ p ∈ (J.S.cls c).props, p.extraneous = false → ¬ W p → alookup kw p.name = none) :
    ∃ s', initRecord J mk c kw = .ok (.rcd c s') ∧ Q (.rcd c s') (.rcd c s) := by
  obtain ⟨s1, hs1⟩ := initArgs_total (J := J) (mk := mk) (c := c) kw [] hknown
  obtain ⟨s2, hs2⟩ := initMissing_total (J := J) (mk := mk) (c := c)
    ((J.S.cls c).props.filter (fun p => eager J c p && (alookup kw p.name).isNone)) s1 (fun p hp => by
      rw [List.mem_filter, Bool.and_eq_true] at hp
      have hnw : ¬ W p := fun h => by
        have := hwe p hp.1 h
        cases hk : alookup kw p.name <;> simp [hk] at this hp
      obtain ⟨_, d, hd, ha⟩ := heager p hp.1 (eager_iff.mp hp.2.1) hnw
      exact ⟨d, d, hd, accepted_typeSafe ha⟩)
  have hir : initRecord J mk c kw = .ok (.rcd c s2) := by simp [initRecord, hs1, hs2]
  refine ⟨s2, hir, ?_⟩
  refine L.rcd fun p hp hex => ?_
  have hsl := initRecord_slots hir hkw p.name
  by_cases hw : W p
  · obtain ⟨v, w, u, h1, h2, h3, h4⟩ := hwr p hp hex hw
    obtain ⟨q, r, hq, hr, hl⟩ := hsl.1 w h2
    rw [findProp_of_mem hnd hp] at hq
    cases hq
    rw [h3] at hr
    cases hr
    simp only [readAttr, hl, h1]
    exact .some h4
  · have hk := hun p hp hex hw
    have hne : ∀ q ∈ (J.S.cls c).props, q.name = p.name → eager J c q = false := by
      intro q hq he
      have : q = p := by
        have h1 := findProp_of_mem hnd hq
        rw [he, findProp_of_mem hnd hp] at h1
        exact (Option.some.inj h1).symm
      subst this
      cases hee : eager J c q with
      | false => rfl
      | true =>
        have := (heager q hp (eager_iff.mp hee) hw).1
        rw [hex] at this; cases this
    have hnone := hsl.2 hk hne
    have hs0 := hunset p hp hex hw
    simp only [readAttr, hnone, hs0]
    cases Ident.unsetOf J.S c p.name with
    | none => exact .none
    | some a => exact .some (L.same _ (fun w hw => by cases hw; trivial))

/-- Making the record from the arguments. -/
theorem initRecord_good (L : Trip J.S Q) {mk : Mk} {c : String} {s : List (String × Val)} {kw : List (String × Val)}
    (hnd : ((J.S.cls c).props.map (·.name)).Nodup) (hkw : (kw.map (·.1)).Nodup)
    (hm : ∀ p ∈ (J.S.cls c).props, MayMiss J e c s p)
    (hknown : ∀ x ∈ kw, ∃ p w, findProp J c x.1 = some p ∧
      typeSafe J mk (J.info c p.name) p.types x.2 = .ok (some w))
    (hwr : ∀ p ∈ (J.S.cls c).props, p.extraneous = false → Written J e c s p → ∃ v w u, alookup s p.name = some v ∧
      alookup kw p.name = some w ∧ typeSafe J mk (J.info c p.name) p.types w = .ok (some u) ∧ Q u v)
    (hwe : ∀ p ∈ (J.S.cls c).props, Written J e c s p → (alookup kw p.name).isSome = true)
    (hun : ∀ p ∈ (J.S.cls c).props, p.extraneous = false → ¬ Written J e c s p → alookup kw p.name = none) :
    ∃ s', initRecord J mk c kw = .ok (.rcd c s') ∧ Q (.rcd c s') (.rcd c s) := by
  refine initRecord_same L hnd hkw (fun p hp => (hm p hp).eager) (fun p hp hex hw => ?_) hknown hwr hwe hun
  cases hs : alookup s p.name with
  | none => rfl
  | some v =>
    exfalso
    refine hw ⟨⟨v, hs⟩, .inl hex, ?_⟩
    cases hn : jsonName J c p with
    | some k => exact ⟨k, named_iff.mpr hn⟩
    | none =>
      have := (hm p hp).hidden v hs (named_iff.mpr hn)
      rw [hex] at this; cases this

/-- Reading a document in which the properties' keys hold what was written. -/
theorem named_good (L : Trip J.S Q) {mk : Mk} {c : String} {s : List (String × Val)} {js : List (Comp × Val)}
    (hnd : ((J.S.cls c).props.map (·.name)).Nodup) (hjs : (js.map (·.1)).Nodup)
    (hd : ∀ p q k, p ∈ (J.S.cls c).props → q ∈ (J.S.cls c).props → Named J c p (some k) → Named J c q (some k) → p = q)
    (hm : ∀ p ∈ (J.S.cls c).props, MayMiss J e c s p)
    (hdoc : ∀ p ∈ (J.S.cls c).props, ∀ k, Named J c p (some k) →
      (¬ Written J e c s p → alookup js (.str k) = none) ∧
      (Written J e c s p → ∃ v j w u, alookup s p.name = some v ∧ alookup js (.str k) = some j ∧
        convertIn J mk c p k j = .ok w ∧ typeSafe J mk (J.info c p.name) p.types w = .ok (some u) ∧
        Q u v))
    (hu : KeepsUnknown J c ∨ ∀ k ∈ js.map (·.1), Claimed J c k) :
    ∃ kw s', initKwargs J mk c (.dict js) [] = .ok kw ∧ initRecord J mk c kw = .ok (.rcd c s') ∧
      Q (.rcd c s') (.rcd c s) := by
  have hfm : ((J.S.cls c).props.filterMap (jsonName J c)).Nodup := by
    have : ∀ ps : List IProp, (∀ p ∈ ps, p ∈ (J.S.cls c).props) → (ps.map (·.name)).Nodup →
        (ps.filterMap (jsonName J c)).Nodup := by
      intro ps
      induction ps with
      | nil => intro _ _; simp
      | cons p ps ih =>
        intro hps hn
        simp only [List.map_cons, List.nodup_cons, List.mem_map, not_exists, not_and] at hn
        have ih' := ih (fun q hq => hps q (List.mem_cons_of_mem _ hq)) hn.2
        cases hj : jsonName J c p with
        | none => rw [List.filterMap_cons_none hj]; exact ih'
        | some k =>
          rw [List.filterMap_cons_some hj, List.nodup_cons]
          refine ⟨?_, ih'⟩
          intro hk
          rw [List.mem_filterMap] at hk
          obtain ⟨q, hq, hqk⟩ := hk
          have := hd p q k (hps p List.mem_cons_self) (hps q (List.mem_cons_of_mem _ hq)) (named_iff.mpr hj)
            (named_iff.mpr hqk)
          subst this
          exact hn.1 p hq rfl
    exact this _ (fun p hp => hp) hnd
  obtain ⟨w, hw⟩ := kwProps_total (J := J) (mk := mk) (c := c) (js := js) (J.S.cls c).props ⟨[], js.map (·.1)⟩ hfm
    (fun p hp k j hk hl => by
      refine ⟨alookup_isSome_iff.mp (by rw [hl]; rfl), ?_⟩
      by_cases hwp : Written J e c s p
      · obtain ⟨v, j', w, u, _, h2, h3, _⟩ := (hdoc p hp k (named_iff.mpr hk)).2 hwp
        rw [hl] at h2; cases h2
        exact ⟨w, h3⟩
      · have := (hdoc p hp k (named_iff.mpr hk)).1 hwp
        rw [hl] at this; cases this) hjs
  have hik : initKwargs J mk c (.dict js) [] = .ok (withUnknown js w) := by simp [initKwargs, structOf, hw]
  obtain ⟨w', hw', _, hkn, hun⟩ := initKwargs_ok hik hjs
  rw [hw] at hw'
  cases hw'
  have hargs := fun p hp => kwProps_args _ _ _ hw hnd p hp rfl
  have hownN : KeepsUnknown J c → ∀ p ∈ (J.S.cls c).props, p.name = unknownKeys → ∀ k, ¬ Named J c p (some k) := by
    intro hk p hp hpn k hnm
    have := hk.hidden p hp hpn
    rw [named_iff] at this hnm
    rw [this] at hnm; cases hnm
  have hother : ∀ p ∈ (J.S.cls c).props, (∃ k, Named J c p (some k)) →
      alookup (withUnknown js w) p.name = alookup w.args p.name := by
    intro p hp ⟨k, hk⟩
    by_cases hpn : p.name = unknownKeys
    · rcases hu with hu | hu
      · exact absurd hk (hownN hu p hp hpn k)
      · have : w.unknown = [] := by
          cases hwu : w.unknown with
          | nil => rfl
          | cons a as =>
            have := (hun a).mp (by rw [hwu]; exact List.mem_cons_self)
            exact absurd (hu a (alookup_isSome_iff.mp this.1)) this.2
        simp [withUnknown, this]
    · exact withUnknown_other hpn
  obtain ⟨s', hs', hveq⟩ := initRecord_good L (mk := mk) (kw := withUnknown js w) hnd hkn hm
    (fun x hx => by
      have hl : alookup (withUnknown js w) x.1 = some x.2 := Ident.alookup_of_mem hkn hx
      by_cases hcase : x.1 = unknownKeys ∧ w.unknown ≠ []
      · obtain ⟨hx1, hx2⟩ := hcase
        rcases hu with hu | hu
        · obtain ⟨q, hq, hqn, _, hqt⟩ := hu.has
          refine ⟨q, x.2, ?_, ?_⟩
          · have := findProp_of_mem hu.only hq
            rw [hqn] at this
            rw [hx1]; exact this
          · have hc' := hu.check
            have hn' := hu.required
            rw [hqn]
            simp [typeSafe, hqt, hn', runCheck, hc']
        · exfalso
          obtain ⟨a, ha⟩ := List.exists_mem_of_ne_nil _ hx2
          have := (hun a).mp ha
          exact this.2 (hu a (alookup_isSome_iff.mp this.1))
      · have hl' : alookup w.args x.1 = some x.2 := by
          by_cases hx1 : x.1 = unknownKeys
          · have hwu : w.unknown = [] := by
              by_contra hne
              exact hcase ⟨hx1, hne⟩
            simpa [withUnknown, hwu] using hl
          · rw [withUnknown_other hx1] at hl; exact hl
        by_cases hex : ∃ p ∈ (J.S.cls c).props, p.name = x.1
        · obtain ⟨p, hp, hpn⟩ := hex
          rcases hargs p hp with ⟨_, h2⟩ | ⟨k, j, v, hk, hj, hv, h2⟩
          · rw [hpn, hl'] at h2; cases h2
          · rw [hpn, hl'] at h2
            cases h2
            have hwp : Written J e c s p := by
              by_contra hnw
              have := (hdoc p hp k (named_iff.mpr hk)).1 hnw
              rw [hj] at this; cases this
            obtain ⟨v, j', w1, u, _, h4, h5, h6, _⟩ := (hdoc p hp k (named_iff.mpr hk)).2 hwp
            rw [hj] at h4; cases h4
            rw [hv] at h5; cases h5
            refine ⟨p, u, ?_, h6⟩
            rw [← hpn]; exact findProp_of_mem hnd hp
        · exfalso
          have := kwProps_other _ _ _ hw x.1 (fun p hp he => hex ⟨p, hp, he⟩)
          rw [hl'] at this; cases this)
    (fun p hp _ hwp => by
      obtain ⟨k, hk⟩ := hwp.2.2
      obtain ⟨v, j, w1, u, h1, h2, h3, h4, h5⟩ := (hdoc p hp k hk).2 hwp
      refine ⟨v, w1, u, h1, ?_, h4, h5⟩
      rw [hother p hp ⟨k, hk⟩]
      rcases hargs p hp with ⟨h6, _⟩ | ⟨k', j', v', hk', hj', hv', h7⟩
      · have := h6 k (named_iff.mp hk)
        rw [h2] at this; cases this
      · rw [named_iff, hk'] at hk
        cases hk
        rw [h2] at hj'; cases hj'
        rw [h3] at hv'; cases hv'
        exact h7)
    (fun p hp hwp => by
      obtain ⟨k, hk⟩ := hwp.2.2
      obtain ⟨v, j, w1, u, h1, h2, h3, h4, h5⟩ := (hdoc p hp k hk).2 hwp
      rw [hother p hp ⟨k, hk⟩]
      rcases hargs p hp with ⟨h6, _⟩ | ⟨k', j', v', hk', hj', hv', h7⟩
      · have := h6 k (named_iff.mp hk)
        rw [h2] at this; cases this
      · rw [h7]; rfl)
    (fun p hp hex hnw => by
      have harg : alookup w.args p.name = none := by
        rcases hargs p hp with ⟨_, h7⟩ | ⟨k', j', v', hk', hj', _⟩
        · exact h7
        · have := (hdoc p hp k' (named_iff.mpr hk')).1 hnw
          rw [hj'] at this; cases this
      by_cases hpn : p.name = unknownKeys
      · rcases hu with hu | hu
        · exfalso
          obtain ⟨q, hq, hqn, hqe, _⟩ := hu.has
          have : q = p := by
            have h1 := findProp_of_mem hnd hq
            rw [hqn] at h1
            have h2 := findProp_of_mem hnd hp
            rw [hpn] at h2
            have h3 : findProp J c unknownKeys = some q := h1
            rw [h2] at h3
            exact (Option.some.inj h3).symm
          subst this
          rw [hex] at hqe; cases hqe
        · have hwu : w.unknown = [] := by
            cases hwu : w.unknown with
            | nil => rfl
            | cons a as =>
              have := (hun a).mp (by rw [hwu]; exact List.mem_cons_self)
              exact absurd (hu a (alookup_isSome_iff.mp this.1)) this.2
          simpa [withUnknown, hwu] using harg
      · rw [withUnknown_other hpn]; exact harg)
  exact ⟨_, s', hik, hs', hveq⟩

end Normalize.Json
