import Verif.Spec.Replay
import Verif.Props.DiffAgree
import Verif.Props.DiffUnchanged
import Verif.Props.DiffAssert
import Verif.Lemmas.DiffSelf
import Verif.Lemmas.Access
import Verif.Lemmas.AutoJson

/-!
# C90: the differences can be carried over
-/

namespace Normalize.Diff
open Ident (IProp ICls Ty ItemTy CollKind Schema readAttr Sub)
open Spec (Real Agree Compared Closed carry carryAll InRecords Carries Tells RecordsOnly)
open Gen

variable {E F : Type} [DecidableEq E] [DecidableEq F] {H : Hooks E F} {o : Opts} {V : Env}

/-! ## Records -/

theorem aset_aset {κ α : Type} [DecidableEq κ] (k : κ) (v w : α) : ∀ d : List (κ × α), aset (aset d k v) k w = aset d k w
  | [] => by simp [aset]
  | (k', v') :: d => by
    simp only [aset]
    split
    · simp_all [aset]
    · simp_all [aset, aset_aset k v w d]

theorem mem_aset' {κ α : Type} [DecidableEq κ] {k : κ} {v : α} : ∀ {d : List (κ × α)} {x : κ × α}, x ∈ aset d k v → x = (k, v) ∨ x ∈ d
  | [], x, h => by simp [aset] at h; exact .inl h
  | (k', v') :: d, x, h => by
    simp only [aset] at h
    split at h
    · rename_i e
      subst e
      rcases List.mem_cons.1 h with h | h
      · exact .inl h
      · exact .inr (List.mem_cons_of_mem _ h)
    · rcases List.mem_cons.1 h with h | h
      · exact .inr (h ▸ List.mem_cons_self)
      · exact (mem_aset' h).imp id (List.mem_cons_of_mem _)

theorem aerase_sub {κ α : Type} [DecidableEq κ] (k : κ) : ∀ d : List (κ × α), (aerase d k).Sublist d
  | [] => by simp [aerase]
  | (k', v') :: d => by
    simp only [aerase]
    split
    · exact (aerase_sub k d).trans (List.sublist_cons_self _ _)
    · exact (aerase_sub k d).cons₂ _

theorem real_parts {S : Schema} {c : String} {s : List (String × Val)} (h : Real S (.rcd c s)) :
    (s.map (·.1)).Nodup ∧ (∀ x ∈ s, ∃ p ∈ (S.cls c).props, p.name = x.1) ∧ (S.cls c).coll = none ∧ ∀ x ∈ s, Real S x.2 :=
  ⟨(h.1 _ (.self _)).1, (h.1 _ (.self _)).2, h.2 _ (.self _), fun x hx => Real.sub h (fun _ hu => .rcd hx hu)⟩

theorem real_aset {S : Schema} {c : String} {s : List (String × Val)} (h : Real S (.rcd c s)) {p : IProp} (hp : p ∈ (S.cls c).props) {v : Val} (hv : Real S v) :
    Real S (.rcd c (aset s p.name v)) := by
  obtain ⟨h1, h2, h3, h4⟩ := real_parts h
  refine .rcd ⟨AutoJson.aset_keys h1, fun x hx => ?_⟩ h3 (fun x hx => ?_)
  · rcases mem_aset' hx with rfl | hx
    · exact ⟨p, hp, rfl⟩
    · exact h2 x hx
  · rcases mem_aset' hx with rfl | hx
    · exact hv
    · exact h4 x hx

theorem real_aerase {S : Schema} {c : String} {s : List (String × Val)} (h : Real S (.rcd c s)) (nm : String) : Real S (.rcd c (aerase s nm)) := by
  obtain ⟨h1, h2, h3, h4⟩ := real_parts h
  exact .rcd ⟨h1.sublist ((aerase_sub nm s).map _), fun x hx => h2 x ((aerase_sub nm s).subset hx)⟩ h3 (fun x hx => h4 x ((aerase_sub nm s).subset hx))

/-! ## Carrying over -/

theorem carryAll_calm {b : Val} : ∀ {ds : List DInfo} {x : Val}, (∀ d ∈ ds, d.kind = .noChange ∨ d.kind = .moved) → carryAll V b ds x = (.ok (), x)
  | [], _, _ => rfl
  | d :: ds, x, h => by
    have hd : carry V b d x = (.ok (), x) := by rcases h d (by simp) with h | h <;> simp [carry, h]
    simp only [carryAll, hd]
    exact carryAll_calm (fun e he => h e (by simp [he]))

theorem carryAll_append {b : Val} : ∀ {ds es : List DInfo} {x y : Val}, carryAll V b ds x = (.ok (), y) → carryAll V b (ds ++ es) x = carryAll V b es y
  | [], _, _, _, h => by cases h; rfl
  | d :: ds, es, x, y, h => by
    simp only [carryAll, List.cons_append] at h ⊢
    split at h
    · exact carryAll_append h
    · cases h

/-- The entry, seen from the object that has the other one as attribute `nm`. -/
def under (nm : String) (d : DInfo) : DInfo := ⟨d.kind, .str nm :: d.base, .str nm :: d.other⟩

theorem carry_under {c : String} {s t : List (String × Val)} {nm : String} {x y x' : Val} {d : DInfo} (hx : alookup s nm = some x) (hy : alookup t nm = some y)
    (hd : Tells d → d.base ≠ []) (h : carry V y d x = (.ok (), x')) : carry V (.rcd c t) (under nm d) (.rcd c s) = (.ok (), .rcd c (aset s nm x')) := by
  have hg : get V (.str nm :: d.other) (.rcd c t) = get V d.other y := by
    rw [get_cons (by simp)]
    simp [step, tryIndex, getAttr, hy]
  have hst : step V (.rcd c s) (.str nm) = .ok x := by simp [step, tryIndex, getAttr, hx]
  have hst' : stepPut V (.rcd c s) (.str nm) = .ok x := by simp [stepPut, tryIndex, getAttr, hx]
  have hsame : aset s nm x = s := aset_same s nm x hx
  have hput : ∀ v, d.base ≠ [] → put V d.base v x = (.ok (), x') → put V (.str nm :: d.base) v (.rcd c s) = (.ok (), .rcd c (aset s nm x')) := by
    intro v hb h
    rw [put_cons (by simp) hb, hst']
    simp [h, replaceChild, areplace, hx]
  obtain ⟨k, q, r⟩ := d
  simp only [carry, under] at h ⊢
  cases k with
  | noChange => cases h; rw [hsame]
  | moved => cases h; rw [hsame]
  | added =>
    simp only at h ⊢
    rw [hg]
    split at h
    · rename_i v hv
      rw [hv]
      exact hput v (hd (by simp [Tells])) h
    · cases h
  | modified =>
    simp only at h ⊢
    rw [hg]
    split at h
    · rename_i v hv
      rw [hv]
      exact hput v (hd (by simp [Tells])) h
    · cases h
  | removed =>
    simp only at h ⊢
    have hb : q ≠ [] := hd (by simp [Tells])
    rw [delete_cons (by simp) hb, hst]
    simp [h, replaceChild, areplace, hx]

theorem carryAll_under {c : String} {t : List (String × Val)} {nm : String} {y : Val} (hy : alookup t nm = some y) :
    ∀ {ds : List DInfo} {s : List (String × Val)} {x x' : Val}, alookup s nm = some x → (∀ d ∈ ds, Tells d → d.base ≠ []) → carryAll V y ds x = (.ok (), x') →
      carryAll V (.rcd c t) (ds.map (under nm)) (.rcd c s) = (.ok (), .rcd c (aset s nm x'))
  | [], s, x, x', hx, _, h => by
    cases h
    simp [carryAll, aset_same s nm _ hx]
  | d :: ds, s, x, x', hx, hd, h => by
    simp only [carryAll, List.map_cons] at h ⊢
    split at h
    · rename_i x1 h1
      rw [carry_under hx hy (hd d (by simp)) h1]
      have := carryAll_under hy (c := c) (s := aset s nm x1) (x := x1) (by rw [alookup_aset]; simp) (fun e he => hd e (by simp [he])) h
      rw [aset_aset] at this
      exact this
    · cases h

/-! ## Entries -/

/-- The entry, seen from the places that are compared. -/
def rel (fa fb : FS) (d : DInfo) : DInfo := ⟨d.kind, d.base.drop fa.length, d.other.drop fb.length⟩

theorem rel_under {fa fb : FS} {nm : String} {d : DInfo} (ha : fa ++ [.str nm] <+: d.base) (hb : fb ++ [.str nm] <+: d.other) :
    rel fa fb d = under nm (rel (fa ++ [.str nm]) (fb ++ [.str nm]) d) := by
  obtain ⟨r, hr⟩ := ha
  obtain ⟨q, hq⟩ := hb
  simp only [rel, under, ← hr, ← hq]
  have h1 : ∀ (f r : FS) (k : Comp), (f ++ [k] ++ r).drop f.length = k :: (f ++ [k] ++ r).drop (f ++ [k]).length := by
    intro f r k
    rw [List.drop_left, List.append_assoc, List.drop_left]
    rfl
  rw [h1, h1]

/-- Entries are inside the place that is compared, on one side at least. -/
theorem yields_inside {a b : Option Val} {fa fb : FS} {d : DInfo} (h : Yields H o a b fa fb d) :
    fa.length + fb.length < d.base.length + d.other.length := by
  induction h with
  | sub _ _ _ ih => simp at ih; omega
  | item _ _ _ _ _ _ ih => simp at ih; omega
  | itemR _ _ _ _ ih => simp at ih; omega
  | itemL _ _ _ _ ih => simp at ih; omega
  | _ => simp <;> omega

theorem vals_prefixes (ho : OrdOK H) {n : Nat} {va vb : Option Val} {fa fb : FS} {d : DInfo}
    (h : d ∈ (compareVals H o (diffIter H o n) va vb fa fb).out) : fa <+: d.base ∧ fb <+: d.other := by
  refine ⟨vals_prefix ho h, ?_⟩
  have hnet : ∀ g : Gen, d ∈ (net o fa fb g).out → d.other = fb := by
    intro g hg
    unfold net at hg
    split at hg
    · simp at hg
    · split at hg
      · rw [mem_yield (mem_when hg).2]
      · rw [mem_yield hg]
      · simp at hg
  unfold compareVals at h
  split at h
  · simp at h
  · split at h
    · exact (yields_prefix (yields_diffIter ho n _ _ _ _ _ h)).2
    · obtain ⟨eq, _, h⟩ := mem_bindE h
      split at h
      · rw [mem_yield (mem_when h).2]; exact List.prefix_rfl
      · rw [mem_yield h]; exact List.prefix_rfl
  · split at h
    · rw [hnet _ h]; exact List.prefix_rfl
    · rw [mem_yield h]; exact List.prefix_rfl
  · split at h
    · rw [hnet _ h]; exact List.prefix_rfl
    · rw [mem_yield h]; exact List.prefix_rfl

/-- Entries of a comparison of records are inside both of them. -/
theorem record_inside (ho : OrdOK H) {n : Nat} {c : String} {s : List (String × Val)} {b : Val} {fa fb : FS} {d : DInfo}
    (h : d ∈ (diffIter H o n (some (.rcd c s)) (some b) fa fb).out) : fa ≠ d.base ∧ fb ≠ d.other := by
  cases n with
  | zero => simp [diffIter] at h
  | succ n =>
    have h : d ∈ (compareRecord H o (diffIter H o n) (some (.rcd c s)) (some b) fa fb).out := h
    unfold compareRecord at h
    split at h
    · simp at h
    · obtain ⟨p, _, h⟩ := mem_forEach h
      obtain ⟨va, _, h⟩ := mem_bindE (mem_when h).2
      obtain ⟨vb, _, h⟩ := mem_bindE h
      obtain ⟨⟨r, hr⟩, ⟨q, hq⟩⟩ := vals_prefixes ho h
      constructor
      · intro e
        have := congrArg List.length (e.trans hr.symm)
        simp at this
      · intro e
        have := congrArg List.length (e.trans hq.symm)
        simp at this

/-- A slot comparison that tells no difference means that they agree. -/
theorem agree_vals (hs : Std H o) (hfz : o.fuzzyMatch = false ∨ IdSound H o) {n : Nat} {va vb : Option Val} {fa fb : FS} (ha : OnO (Real H.S) va) (hb : OnO (Real H.S) vb)
    (h : Still (compareVals H o (diffIter H o n) va vb fa fb)) : Agree H o va vb := by
  match va, vb with
  | none, none => exact .unset
  | some x, none =>
    obtain ⟨h1, h2, h3⟩ := still_vals_one hs (l := true) (ha x rfl) h
    exact .blankL h2 (blank_of_still hs n true x _ _ (ha x rfl) h1 h3)
  | none, some y =>
    obtain ⟨h1, h2, h3⟩ := still_vals_one hs (l := false) (hb y rfl) h
    exact .blankR h2 (blank_of_still hs n false y _ _ (hb y rfl) h1 h3)
  | some x, some y =>
    simp only [compareVals] at h
    split at h
    · rename_i hc
      simp only [hs.duck, Bool.or_false, Bool.and_eq_true, Bool.or_eq_true, decide_eq_true_eq] at hc
      have hcx : comparable x = true := by
        rcases hc.1 with h | h
        · exact h
        · unfold comparable at h ⊢
          rw [hc.2]
          exact h
      exact agree_of_still hs hfz n x y _ _ (ha x rfl) (hb y rfl) hcx hc.2 h
    · rename_i hc
      simp only [hs.duck, Bool.or_false, Bool.and_eq_true, Bool.or_eq_true, decide_eq_true_eq, not_and_or, not_or] at hc
      obtain ⟨eq, heq, h⟩ := still_bindE.1 h
      cases eq with
      | false =>
        simp only [Bool.false_eq_true, if_false] at h
        rcases still_yield.1 h with h | h <;> cases h
      | true =>
        refine .equal ?_ heq
        rcases hc with hc | hc
        · left
          have := hc.1
          unfold comparable at this
          simpa using this
        · exact .inr hc

/-! ## One property -/

/-- What C90 assumes of the methods that can be overridden: normal forms do not depend on the object the value is in,
records are left alone, and values are equal to themselves. -/
structure Steady (H : Hooks E F) : Prop where
  good : GoodHooks H
  local_ : ∀ v p oa ob, H.normSlot v p oa = H.normSlot v p ob
  record : ∀ c s p ob, H.normSlot (some (.rcd c s)) p ob = .ok (some (.rcd c s))
  refl : ∀ x, Real H.S x → H.itemsEqual x x ≠ .ok false

theorem readSlot_rcd {S' : Schema} (hS : H.S = S') (hu : ∀ c nm, Ident.unsetOf S' c nm = none) (c : String) (s : List (String × Val)) (nm : String) : readSlot H (some (.rcd c s)) nm = alookup s nm := by
  subst hS
  simp only [readSlot, Option.bind_some, readAttr, hu]
  cases alookup s nm <;> rfl

/-- However the rest of the object is, comparing the property tells no difference. -/
def Settled (H : Hooks E F) (o : Opts) (c : String) (t : List (String × Val)) (p : IProp) (s : List (String × Val)) : Prop :=
  ∀ n fa fb s', alookup s' p.name = alookup s p.name → Calm (compareProp H o (diffIter H o n) (some (.rcd c s')) (some (.rcd c t)) fa fb p)

theorem settled_of (hu : ∀ c nm, Ident.unsetOf H.S c nm = none) (hl : ∀ v p oa ob, H.normSlot v p oa = H.normSlot v p ob) {c : String} {s t : List (String × Val)} {p : IProp}
    (h : ∀ va vb, H.normSlot (alookup s p.name) p none = .ok va → H.normSlot (alookup t p.name) p none = .ok vb → ∀ n fa fb, Calm (compareVals H o (diffIter H o n) va vb fa fb)) :
    Settled H o c t p s := by
  intro n fa fb s' hs'
  refine calm_when fun _ => calm_bindE fun va hva => calm_bindE fun vb hvb => ?_
  rw [readSlot_rcd rfl hu, hl _ p _ none] at hva hvb
  rw [hs'] at hva
  exact h va vb hva hvb _ _ _

theorem calm_same (hs : Std H o) (hh : Steady H) {v : Option Val} (hv : OnO (Real H.S) v) (n : Nat) (fa fb : FS) : Calm (compareVals H o (diffIter H o n) v v fa fb) := by
  cases v with
  | none => exact calm_nil
  | some x =>
    simp only [compareVals]
    split
    · exact fun d hd => .inl (quiet_diffIter hs.closed hs.ord hh.refl n x fa fb (hv x rfl) d hd)
    · refine calm_bindE fun eq heq => ?_
      cases eq with
      | false => exact absurd heq (hh.refl x (hv x rfl))
      | true => exact calm_when fun _ => calm_yield (.inl rfl)

theorem tells_of {d : DInfo} (h : ¬ (d.kind = .noChange ∨ d.kind = .moved)) : Tells d := by
  unfold Tells
  cases hk : d.kind <;> simp_all

theorem not_calm {g : Gen} (h : ¬ Calm g) : ∃ d ∈ g.out, Tells d := by
  unfold Calm at h
  push Not at h
  obtain ⟨d, hd, h⟩ := h
  exact ⟨d, hd, tells_of (by simpa using h)⟩

theorem single_of {α : Type} {l : List α} {d : α} (hd : d ∈ l) (h : l.length ≤ 1) : l = [d] := by
  match l with
  | [] => simp at hd
  | [e] => simp at hd; rw [hd]
  | _ :: _ :: _ => simp at h

theorem put_slot {c : String} {s : List (String × Val)} {nm : String} {v : Val} (h : ∀ a, V.attr c nm = some a → ∀ old, a.assign old v = .ok (some v)) :
    put V [.str nm] v (.rcd c s) = (.ok (), .rcd c (aset s nm v)) := by
  show put1 V (.str nm) v (.rcd c s) = _
  simp only [put1, tryIndex, Bool.false_eq_true, if_false, setAttr]
  cases ha : V.attr c nm with
  | none => rfl
  | some a => simp [h a ha, setSlot]

theorem delete_slot {c : String} {s : List (String × Val)} {nm : String} {v : Val} (hv : alookup s nm = some v) (h : ∀ a, V.attr c nm = some a → a.remove (some v) = .ok ()) :
    delete V [.str nm] (.rcd c s) = (.ok (), .rcd c (aerase s nm)) := by
  show delete1 V (.str nm) (.rcd c s) = _
  simp only [delete1, tryIndex, Bool.false_eq_true, if_false, getAttr, hv, delAttr]
  cases ha : V.attr c nm with
  | none => rfl
  | some a => simp [h a ha]

/-- What C90 says of records at some depth. -/
def Replays (H : Hooks E F) (o : Opts) (V : Env) (n : Nat) : Prop :=
  ∀ c s t fa fb, Real H.S (.rcd c s) → Real H.S (.rcd c t) → Carries H.S V (.rcd c t) → (diffIter H o n (some (.rcd c s)) (some (.rcd c t)) fa fb).exc = none →
    (∀ d ∈ (diffIter H o n (some (.rcd c s)) (some (.rcd c t)) fa fb).out, Tells d → InRecords (.rcd c s) (rel fa fb d).base ∧ InRecords (.rcd c t) (rel fa fb d).other) →
    ∃ s', carryAll V (.rcd c t) ((diffIter H o n (some (.rcd c s)) (some (.rcd c t)) fa fb).out.map (rel fa fb)) (.rcd c s) = (.ok (), .rcd c s') ∧ Real H.S (.rcd c s') ∧
      ∀ m fa fb, Calm (diffIter H o m (some (.rcd c s')) (some (.rcd c t)) fa fb)

theorem inRecords_cons {c : String} {s : List (String × Val)} {nm : String} {r : FS} (hr : r ≠ []) (h : InRecords (.rcd c s) (.str nm :: r)) :
    ∃ v, alookup s nm = some v ∧ InRecords v r := by
  cases r with
  | nil => exact absurd rfl hr
  | cons k r => simpa only [InRecords] using h

theorem inRecords_rcd {v : Val} {p : FS} (h : InRecords v p) : ∃ c s, v = .rcd c s := by
  cases v with
  | rcd c s => exact ⟨c, s, rfl⟩
  | _ => simp [InRecords] at h

theorem inRecords_ne {v : Val} {p : FS} (h : InRecords v p) : p ≠ [] := by
  rintro rfl
  cases v <;> simp [InRecords] at h

theorem carry_vals (hs : Std H o) (hfz : o.fuzzyMatch = false ∨ IdSound H o) (hh : Steady H) {n : Nat} (ih : Replays H o V n) {c : String} {s t s0 : List (String × Val)} {p : IProp}
    (hp : p ∈ (H.S.cls c).props) (h0 : alookup s0 p.name = alookup s p.name) (hr : Real H.S (.rcd c s)) (hr0 : Real H.S (.rcd c s0)) (ht : Real H.S (.rcd c t)) (hc : Carries H.S V (.rcd c t))
    {va vb : Option Val} (hva : H.normSlot (alookup s p.name) p none = .ok va) (hvb : H.normSlot (alookup t p.name) p none = .ok vb) {fa fb : FS}
    (hend : (compareVals H o (diffIter H o n) va vb (fa ++ [.str p.name]) (fb ++ [.str p.name])).exc = none)
    (hin : ∀ d ∈ (compareVals H o (diffIter H o n) va vb (fa ++ [.str p.name]) (fb ++ [.str p.name])).out, Tells d → InRecords (.rcd c s) (rel fa fb d).base ∧ InRecords (.rcd c t) (rel fa fb d).other) :
    ∃ s1, carryAll V (.rcd c t) ((compareVals H o (diffIter H o n) va vb (fa ++ [.str p.name]) (fb ++ [.str p.name])).out.map (rel fa fb)) (.rcd c s0) = (.ok (), .rcd c s1) ∧
      Real H.S (.rcd c s1) ∧ (∀ nm, nm ≠ p.name → alookup s1 nm = alookup s0 nm) ∧ Settled H o c t p s1 := by
  have hread : ∀ s : List (String × Val), readAttr H.S (.rcd c s) p.name = alookup s p.name := fun s => readSlot_rcd (H := H) rfl hc.unset c s p.name
  have hra : OnO (Real H.S) va := by
    intro x hx
    subst hx
    exact hs.closed.slot (.rcd c s) p x hr (by rw [hread, hh.local_ _ p _ none]; exact hva)
  have hrb : OnO (Real H.S) vb := by
    intro x hx
    subst hx
    exact hs.closed.slot (.rcd c t) p x ht (by rw [hread, hh.local_ _ p _ none]; exact hvb)
  -- what is set in `t`
  have hset : ∀ y, vb = some y → ∃ v, alookup t p.name = some v := by
    intro y hy
    cases h : alookup t p.name with
    | none =>
      rw [h, hs.plain.unset] at hvb
      subst hy
      cases hvb
    | some v => exact ⟨v, rfl⟩
  have hset' : ∀ y, va = some y → ∃ v, alookup s p.name = some v := by
    intro y hy
    cases h : alookup s p.name with
    | none =>
      rw [h, hs.plain.unset] at hva
      subst hy
      cases hva
    | some v => exact ⟨v, rfl⟩
  -- putting the value of `t`
  have hput : ∀ k, k = DType.added ∨ k = DType.modified → ∀ y, vb = some y →
      ∃ s1, carryAll V (.rcd c t) ([(⟨k, fa ++ [.str p.name], fb ++ [.str p.name]⟩ : DInfo)].map (rel fa fb)) (.rcd c s0) = (.ok (), .rcd c s1) ∧
      Real H.S (.rcd c s1) ∧ (∀ nm, nm ≠ p.name → alookup s1 nm = alookup s0 nm) ∧ Settled H o c t p s1 := by
    intro k hk y hy
    obtain ⟨v, hv⟩ := hset y hy
    refine ⟨aset s0 p.name v, ?_, real_aset hr0 hp ((real_parts ht).2.2.2 _ (alookup_mem' hv)), fun nm hnm => by rw [alookup_aset, if_neg (Ne.symm hnm)], ?_⟩
    · have hg : get V [.str p.name] (.rcd c t) = .ok v := by
        rw [get_cons (by simp)]
        simp [step, tryIndex, getAttr, hv, get]
      have hpt := put_slot (V := V) (c := c) (s := s0) (nm := p.name) (v := v) (fun a ha => hc.take c t p.name v a (.self _) hv ha)
      rcases hk with rfl | rfl <;> simp [carryAll, carry, rel, hg, hpt]
    · refine settled_of hc.unset hh.local_ ?_
      intro va' vb' ha hb n fa fb
      rw [alookup_aset, if_pos rfl, ← hv, hb] at ha
      cases ha
      rw [hb] at hvb
      cases hvb
      exact calm_same hs hh hrb n fa fb
  by_cases hst : Calm (compareVals H o (diffIter H o n) va vb (fa ++ [.str p.name]) (fb ++ [.str p.name]))
  · refine ⟨s0, carryAll_calm ?_, hr0, fun _ _ => rfl, ?_⟩
    · intro d hd
      obtain ⟨e, he, rfl⟩ := List.mem_map.1 hd
      exact hst e he
    · refine settled_of hc.unset hh.local_ ?_
      intro va' vb' ha hb n' fa' fb'
      rw [h0, hva] at ha
      cases ha
      rw [hvb] at hb
      cases hb
      exact (calm_of_agree hs (agree_vals hs hfz hra hrb ⟨hend, hst⟩) n' fa' fb' hra hrb).1
  · obtain ⟨d, hd, htell⟩ := not_calm hst
    match va, vb, hva, hvb, hend, hin, hra, hrb, hset, hset', hput, hst, d, hd, htell with
    | none, none, _, _, _, _, _, _, _, _, _, hst, _, _, _ => exact absurd calm_nil hst
    | none, some y, hva, hvb, hend, hin, hra, hrb, hset, hset', hput, hst, d, hd, htell =>
      have h1 := (C89_one_sided (o := o) hh.good hs.ord ordOK_id (qs := []) (fun h hf => by rw [hs.filter] at hf; cases hf) n y (fa ++ [.str p.name]) (fb ++ [.str p.name])).1
      have h2 := (C89_one_entry (H := H) (o := o) n y (fa ++ [.str p.name]) (fb ++ [.str p.name])).1
      have : (compareVals H o (diffIter H o n) none (some y) (fa ++ [.str p.name]) (fb ++ [.str p.name])).out = [⟨.added, fa ++ [.str p.name], fb ++ [.str p.name]⟩] := by
        obtain ⟨hk, hb, ho⟩ := h1 d hd
        have hk : d.kind = .added := by rcases hk with h | h; exact h; simp [Tells, h] at htell
        have : d = ⟨.added, fa ++ [.str p.name], fb ++ [.str p.name]⟩ := by obtain ⟨a, b, c⟩ := d; simp_all
        subst this
        exact single_of hd h2
      rw [this]
      exact hput .added (.inl rfl) y rfl
    | some x, none, hva, hvb, hend, hin, hra, hrb, hset, hset', hput, hst, d, hd, htell =>
      have h1 := (C89_one_sided (o := o) hh.good hs.ord ordOK_id (qs := []) (fun h hf => by rw [hs.filter] at hf; cases hf) n x (fa ++ [.str p.name]) (fb ++ [.str p.name])).2
      have h2 := (C89_one_entry (H := H) (o := o) n x (fa ++ [.str p.name]) (fb ++ [.str p.name])).2.1
      have : (compareVals H o (diffIter H o n) (some x) none (fa ++ [.str p.name]) (fb ++ [.str p.name])).out = [⟨.removed, fa ++ [.str p.name], fb ++ [.str p.name]⟩] := by
        obtain ⟨hk, hb, ho⟩ := h1 d hd
        have hk : d.kind = .removed := by rcases hk with h | h; exact h; simp [Tells, h] at htell
        have : d = ⟨.removed, fa ++ [.str p.name], fb ++ [.str p.name]⟩ := by obtain ⟨a, b, c⟩ := d; simp_all
        subst this
        exact single_of hd h2
      rw [this]
      obtain ⟨v, hv⟩ := hset' x rfl
      refine ⟨aerase s0 p.name, ?_, real_aerase hr0 _, fun nm hnm => by rw [alookup_aerase, if_neg (Ne.symm hnm)], ?_⟩
      · have := delete_slot (V := V) (c := c) (s := s0) (nm := p.name) (h0.trans hv) (fun a ha => hc.drop c p.name a v ha)
        simp [carryAll, carry, rel, this]
      · refine settled_of hc.unset hh.local_ ?_
        intro va' vb' ha hb n fa fb
        rw [alookup_aerase, if_pos rfl, hs.plain.unset] at ha
        cases ha
        rw [hvb] at hb
        cases hb
        exact calm_nil
    | some x, some y, hva, hvb, hend, hin, hra, hrb, hset, hset', hput, hst, d, hd, htell =>
      by_cases hdc : ((comparable x || comparable y) && (decide (tagOf x = tagOf y) || o.duckType)) = true
      · have hg : compareVals H o (diffIter H o n) (some x) (some y) (fa ++ [.str p.name]) (fb ++ [.str p.name]) = diffIter H o n (some x) (some y) (fa ++ [.str p.name]) (fb ++ [.str p.name]) := by
          simp only [compareVals, hdc, if_true]
        rw [hg] at hend hin hd ⊢
        simp only [hs.duck, Bool.or_false, Bool.and_eq_true, Bool.or_eq_true, decide_eq_true_eq] at hdc
        have hcx : comparable x = true ∧ comparable y = true := by
          unfold comparable at hdc ⊢
          have h1 := hdc.1
          rw [hdc.2] at h1
          rw [hdc.2]
          simpa using h1
        obtain ⟨v, hv⟩ := hset' x rfl
        obtain ⟨w, hw⟩ := hset y rfl
        have hvx : x = v := hs.plain.keeps v p none x (by rw [← hv]; exact hva) (.inr hcx.1)
        have hwy : y = w := hs.plain.keeps w p none y (by rw [← hw]; exact hvb) (.inr hcx.2)
        subst hvx hwy
        have hpre : ∀ d ∈ (diffIter H o n (some x) (some y) (fa ++ [.str p.name]) (fb ++ [.str p.name])).out, rel fa fb d = under p.name (rel (fa ++ [.str p.name]) (fb ++ [.str p.name]) d) :=
          fun d hd => rel_under (yields_prefix (yields_diffIter hs.ord n _ _ _ _ d hd)).1 (yields_prefix (yields_diffIter hs.ord n _ _ _ _ d hd)).2
        have hins := fun d hd => yields_inside (yields_diffIter (o := o) hs.ord n (some x) (some y) (fa ++ [.str p.name]) (fb ++ [.str p.name]) d hd)
        by_cases hrx : ∃ c1 s1, x = .rcd c1 s1
        · obtain ⟨c1, sx, rfl⟩ := hrx
          obtain ⟨ty, rfl⟩ : ∃ t1, y = .rcd c1 t1 := by
            have ht := hdc.2
            have hcl : (H.S.cls c1).coll = none := (hra _ rfl).2 _ (.self _)
            cases y with
            | rcd c2 t1 => simp [tagOf] at ht; exact ⟨t1, by rw [ht]⟩
            | lcoll c2 ys =>
              simp [tagOf] at ht
              subst ht
              obtain ⟨it, hit⟩ := ((hrb _ rfl).2 _ (.self _)).1
              rw [hcl] at hit
              cases hit
            | dcoll c2 ys =>
              simp [tagOf] at ht
              subst ht
              obtain ⟨it, hit⟩ := ((hrb _ rfl).2 _ (.self _)).1
              rw [hcl] at hit
              cases hit
            | _ => simp [tagOf] at ht
          have hne : ∀ d ∈ (diffIter H o n (some (.rcd c1 sx)) (some (.rcd c1 ty)) (fa ++ [.str p.name]) (fb ++ [.str p.name])).out,
              (rel (fa ++ [.str p.name]) (fb ++ [.str p.name]) d).base ≠ [] ∧ (rel (fa ++ [.str p.name]) (fb ++ [.str p.name]) d).other ≠ [] := by
            intro d hd
            obtain ⟨h1, h2⟩ := record_inside hs.ord hd
            obtain ⟨⟨r, hr⟩, ⟨q, hq⟩⟩ := yields_prefix (yields_diffIter hs.ord n _ _ _ _ d hd)
            simp only [rel, ← hr, ← hq, List.drop_left]
            constructor
            · rintro rfl; rw [List.append_nil] at hr; exact h1 hr
            · rintro rfl; rw [List.append_nil] at hq; exact h2 hq
          obtain ⟨s', h1, h2, h3⟩ := ih c1 sx ty (fa ++ [.str p.name]) (fb ++ [.str p.name]) (hra _ rfl) (hrb _ rfl)
            ⟨hc.names, hc.unset, fun c' t' nm v a hsub => hc.take c' t' nm v a (.rcd (alookup_mem' hw) hsub), hc.drop⟩ hend (by
              intro d hd ht
              obtain ⟨h1, h2⟩ := hin d hd ht
              rw [hpre d hd] at h1 h2
              obtain ⟨v1, hv1, h1⟩ := inRecords_cons (hne d hd).1 h1
              obtain ⟨w1, hw1, h2⟩ := inRecords_cons (hne d hd).2 h2
              rw [hv] at hv1
              rw [hw] at hw1
              cases hv1
              cases hw1
              exact ⟨h1, h2⟩)
          refine ⟨aset s0 p.name (.rcd c1 s'), ?_, real_aset hr0 hp h2, fun nm hnm => by rw [alookup_aset, if_neg (Ne.symm hnm)], ?_⟩
          · rw [List.map_congr_left hpre]
            have := carryAll_under (c := c) hw (h0.trans hv) (ds := (diffIter H o n (some (.rcd c1 sx)) (some (.rcd c1 ty)) (fa ++ [.str p.name]) (fb ++ [.str p.name])).out.map
              (rel (fa ++ [.str p.name]) (fb ++ [.str p.name]))) (by
                intro d hd _
                obtain ⟨e, he, rfl⟩ := List.mem_map.1 hd
                exact (hne e he).1) h1
            rw [List.map_map] at this
            exact this
          · refine settled_of hc.unset hh.local_ ?_
            intro va' vb' ha hb n' fa' fb'
            rw [alookup_aset, if_pos rfl, hh.record] at ha
            cases ha
            rw [hvb] at hb
            cases hb
            simp only [compareVals, comparable, tagOf, Option.isSome_some, Bool.or_self, decide_true, Bool.true_or, Bool.and_self, if_true]
            exact h3 n' fa' fb'
        · exfalso
          have hry : ¬ ∃ c1 s1, y = .rcd c1 s1 := by
            rintro ⟨c1, ty, rfl⟩
            have ht := hdc.2
            have hcl : (H.S.cls c1).coll = none := (hrb _ rfl).2 _ (.self _)
            cases x with
            | rcd c2 t1 => exact hrx ⟨_, _, rfl⟩
            | lcoll c2 ys =>
              simp [tagOf] at ht
              subst ht
              obtain ⟨it, hit⟩ := ((hra _ rfl).2 _ (.self _)).1
              rw [hcl] at hit
              cases hit
            | dcoll c2 ys =>
              simp [tagOf] at ht
              subst ht
              obtain ⟨it, hit⟩ := ((hra _ rfl).2 _ (.self _)).1
              rw [hcl] at hit
              cases hit
            | _ => simp [tagOf] at ht
          obtain ⟨h1, h2⟩ := hin d hd htell
          rw [hpre d hd] at h1 h2
          have hlen := hins d hd
          obtain ⟨⟨r, hr⟩, ⟨q, hq⟩⟩ := yields_prefix (yields_diffIter hs.ord n _ _ _ _ d hd)
          simp only [rel, under, ← hr, ← hq, List.drop_left] at h1 h2
          by_cases hr0 : r = []
          · by_cases hq0 : q = []
            · subst hr0 hq0
              rw [← hr, ← hq] at hlen
              simp at hlen
            · obtain ⟨w1, hw1, h2⟩ := inRecords_cons hq0 h2
              rw [hw] at hw1
              cases hw1
              exact hry (inRecords_rcd h2)
          · obtain ⟨v1, hv1, h1⟩ := inRecords_cons hr0 h1
            rw [hv] at hv1
            cases hv1
            exact hrx (inRecords_rcd h1)
      · have hg : compareVals H o (diffIter H o n) (some x) (some y) (fa ++ [.str p.name]) (fb ++ [.str p.name]) =
            .bindE (H.itemsEqual x y) (fun eq => if eq then .when o.unchanged (.yield .noChange (fa ++ [.str p.name]) (fb ++ [.str p.name])) else .yield .modified (fa ++ [.str p.name]) (fb ++ [.str p.name])) := by
          simp only [compareVals, hdc, if_false, Bool.false_eq_true]
        rw [hg] at hend hst ⊢
        obtain ⟨eq, heq, hend⟩ := exc_bindE.1 hend
        rw [heq] at hst ⊢
        cases eq with
        | true => exact absurd (calm_when fun _ => calm_yield (.inl rfl)) hst
        | false => exact hput .modified (.inr rfl) y rfl

/-! ## All properties -/

theorem carry_loop (hs : Std H o) (hfz : o.fuzzyMatch = false ∨ IdSound H o) (hh : Steady H) {n : Nat} (ih : Replays H o V n) {c : String} {s t : List (String × Val)}
    (hr : Real H.S (.rcd c s)) (ht : Real H.S (.rcd c t)) (hc : Carries H.S V (.rcd c t)) {fa fb : FS} :
    ∀ (ps : List IProp) (s0 : List (String × Val)), (∀ p ∈ ps, p ∈ (H.S.cls c).props) → (ps.map (·.name)).Nodup → (∀ p ∈ ps, alookup s0 p.name = alookup s p.name) → Real H.S (.rcd c s0) →
      (forEach (compareProp H o (diffIter H o n) (some (.rcd c s)) (some (.rcd c t)) fa fb) ps).exc = none →
      (∀ d ∈ (forEach (compareProp H o (diffIter H o n) (some (.rcd c s)) (some (.rcd c t)) fa fb) ps).out, Tells d → InRecords (.rcd c s) (rel fa fb d).base ∧ InRecords (.rcd c t) (rel fa fb d).other) →
      ∃ s1, carryAll V (.rcd c t) ((forEach (compareProp H o (diffIter H o n) (some (.rcd c s)) (some (.rcd c t)) fa fb) ps).out.map (rel fa fb)) (.rcd c s0) = (.ok (), .rcd c s1) ∧
        Real H.S (.rcd c s1) ∧ (∀ nm, nm ∉ ps.map (·.name) → alookup s1 nm = alookup s0 nm) ∧ ∀ p ∈ ps, Settled H o c t p s1
  | [], s0, _, _, _, hr0, _, _ => ⟨s0, rfl, hr0, fun _ _ => rfl, fun _ h => by simp at h⟩
  | p :: ps, s0, hps, hnd, h0, hr0, hend, hin => by
    rw [forEach_cons] at hend hin ⊢
    obtain ⟨hend1, hend2⟩ := exc_append.1 hend
    rw [out_append hend1] at hin ⊢
    simp only [List.map_cons, List.nodup_cons] at hnd
    have hone : ∃ s1, carryAll V (.rcd c t) ((compareProp H o (diffIter H o n) (some (.rcd c s)) (some (.rcd c t)) fa fb p).out.map (rel fa fb)) (.rcd c s0) = (.ok (), .rcd c s1) ∧
        Real H.S (.rcd c s1) ∧ (∀ nm, nm ≠ p.name → alookup s1 nm = alookup s0 nm) ∧ Settled H o c t p s1 := by
      have hin1 := fun d hd => hin d (List.mem_append_left _ hd)
      unfold compareProp at hend1 hin1 ⊢
      cases hf : isFiltered o p (fa ++ [.str p.name]) with
      | true =>
        refine ⟨s0, by rfl, hr0, fun _ _ => rfl, ?_⟩
        intro n' fa' fb' s' _
        have : isFiltered o p (fa' ++ [.str p.name]) = true := by
          cases h : isFiltered o p (fa' ++ [.str p.name]) with
          | true => rfl
          | false =>
            have h1 := (isFiltered_compared hs.filter (p := p) (fs := fa' ++ [.str p.name])).1 (by rw [h]; rfl)
            have := (isFiltered_compared hs.filter (p := p) (fs := fa ++ [.str p.name])).2 h1
            rw [hf] at this
            cases this
        unfold compareProp
        rw [this]
        exact calm_nil
      | false =>
        rw [hf] at hend1 hin1
        obtain ⟨va, hva, hend1⟩ := exc_bindE.1 hend1
        obtain ⟨vb, hvb, hend1⟩ := exc_bindE.1 hend1
        simp only [hva, hvb, bindE_ok, Bool.not_false, when_true] at hin1 ⊢
        rw [readSlot_rcd rfl hc.unset, hh.local_ _ p _ none] at hva hvb
        exact carry_vals hs hfz hh ih (hps p (by simp)) (h0 p (by simp)) hr hr0 ht hc hva hvb hend1 hin1
    obtain ⟨s1, h1, h2, h3, h4⟩ := hone
    obtain ⟨s2, g1, g2, g3, g4⟩ := carry_loop hs hfz hh ih hr ht hc ps s1 (fun q hq => hps q (by simp [hq])) hnd.2 (by
      intro q hq
      rw [h3 q.name (by rintro e; exact hnd.1 (e ▸ List.mem_map.2 ⟨q, hq, rfl⟩))]
      exact h0 q (by simp [hq])) h2 hend2 (fun d hd => hin d (List.mem_append_right _ hd))
    refine ⟨s2, ?_, g2, ?_, ?_⟩
    · rw [List.map_append, carryAll_append h1]
      exact g1
    · intro nm hnm
      simp only [List.map_cons, List.mem_cons, not_or] at hnm
      rw [g3 nm hnm.2, h3 nm hnm.1]
    · intro q hq
      rcases List.mem_cons.1 hq with rfl | hq
      · intro n' fa' fb' s' hs'
        exact h4 n' fa' fb' s' (hs'.trans (g3 _ hnd.1))
      · exact g4 q hq

theorem replays (hs : Std H o) (hfz : o.fuzzyMatch = false ∨ IdSound H o) (hh : Steady H) : ∀ n, Replays H o V n
  | 0 => by
    intro c s t fa fb _ _ _ hend
    simp [diffIter] at hend
  | n + 1 => by
    intro c s t fa fb hr ht hc hend hin
    have hg : ∀ m fa fb s, diffIter H o (m + 1) (some (.rcd c s)) (some (.rcd c t)) fa fb = forEach (compareProp H o (diffIter H o m) (some (.rcd c s)) (some (.rcd c t)) fa fb)
        ((H.S.cls c).props.insertionSort (fun p q => p.name ≤ q.name)) := by
      intro m fa fb s
      show compareRecord H o (diffIter H o m) (some (.rcd c s)) (some (.rcd c t)) fa fb = _
      simp [compareRecord, typeClash, tagOf, propsOf, clsOf]
    rw [hg] at hend hin ⊢
    have hperm := List.perm_insertionSort (fun p q : IProp => p.name ≤ q.name) (H.S.cls c).props
    obtain ⟨s1, h1, h2, _, h4⟩ := carry_loop hs hfz hh (replays hs hfz hh n) hr ht hc _ s (fun p hp => hperm.mem_iff.1 hp) ((hperm.map (·.name)).nodup_iff.2 (hc.names c)) (fun _ _ => rfl) hr hend hin
    refine ⟨s1, h1, h2, ?_⟩
    intro m fa' fb'
    cases m with
    | zero => exact calm_raise _
    | succ m =>
      rw [hg]
      exact calm_forEach fun p hp => h4 p hp m fa' fb' s1 rfl

/-- C90, for differences between the attributes of nested records: carrying over the entries of `diff(a, b)` to `a`, in
order, succeeds, and then there is no difference between `a` and `b`.  What is missing: differences inside lists,
dicts and collections, see `C90_violated`. -/
theorem C90_partial (hs : Std H o) (hfz : o.fuzzyMatch = false ∨ IdSound H o) (hh : Steady H) (n : Nat) (c : String) (s t : List (String × Val))
    (ha : Real H.S (.rcd c s)) (hb : Real H.S (.rcd c t)) (hc : Carries H.S V (.rcd c t)) (hend : (diff H o n (.rcd c s) (.rcd c t)).exc = none)
    (hin : ∀ d ∈ (diff H o n (.rcd c s) (.rcd c t)).out, Tells d → InRecords (.rcd c s) d.base ∧ InRecords (.rcd c t) d.other) :
    ∃ a', carryAll V (.rcd c t) (diff H o n (.rcd c s) (.rcd c t)).out (.rcd c s) = (.ok (), a') ∧ Real H.S a' ∧
      ∀ m, ∀ d ∈ (diff H o m a' (.rcd c t)).out, d.kind = .noChange ∨ d.kind = .moved := by
  obtain ⟨s', h1, h2, h3⟩ := replays hs hfz hh n c s t [] [] ha hb hc hend hin
  refine ⟨.rcd c s', ?_, h2, fun m => h3 m [] []⟩
  have : ∀ l : List DInfo, l.map (rel [] []) = l := by
    intro l
    conv_rhs => rw [← List.map_id l]
    rfl
  rw [this] at h1
  exact h1

/-! ## Objects without lists -/

theorem inRecords_one {c : String} {s : List (String × Val)} (nm : String) : InRecords (.rcd c s) [.str nm] := by simp [InRecords]

theorem inRecords_next {c : String} {s : List (String × Val)} {nm : String} {v : Val} {p : FS} (hv : alookup s nm = some v) (h : InRecords v p) : InRecords (.rcd c s) (.str nm :: p) := by
  cases p with
  | nil => exact inRecords_one nm
  | cons k p => simpa only [InRecords] using ⟨v, hv, h⟩

theorem nested_inRecords (hs : Std H o) (hh : Steady H) (hu : ∀ c nm, Ident.unsetOf H.S c nm = none) : ∀ (n : Nat) (c : String) (s t : List (String × Val)) (fa fb : FS),
    RecordsOnly (.rcd c s) → RecordsOnly (.rcd c t) → ∀ d ∈ (diffIter H o n (some (.rcd c s)) (some (.rcd c t)) fa fb).out,
      InRecords (.rcd c s) (rel fa fb d).base ∧ InRecords (.rcd c t) (rel fa fb d).other
  | 0, _, _, _, _, _, _, _, d, hd => by simp [diffIter] at hd
  | n + 1, c, s, t, fa, fb, ha, hb, d, hd => by
    have hd : d ∈ (compareRecord H o (diffIter H o n) (some (.rcd c s)) (some (.rcd c t)) fa fb).out := hd
    unfold compareRecord at hd
    split at hd
    · simp at hd
    · obtain ⟨p, _, hd⟩ := mem_forEach hd
      obtain ⟨va, hva, hd⟩ := mem_bindE (mem_when hd).2
      obtain ⟨vb, hvb, hd⟩ := mem_bindE hd
      rw [readSlot_rcd rfl hu, hh.local_ _ p _ none] at hva hvb
      have hhere : ∀ k, InRecords (.rcd c s) (rel fa fb ⟨k, fa ++ [.str p.name], fb ++ [.str p.name]⟩).base ∧
          InRecords (.rcd c t) (rel fa fb ⟨k, fa ++ [.str p.name], fb ++ [.str p.name]⟩).other := by
        intro k
        simp only [rel, List.drop_left]
        exact ⟨inRecords_one _, inRecords_one _⟩
      have hnofilter : ∀ h, o.compareFilter = some h → Built id h [] := fun h hf => by rw [hs.filter] at hf; cases hf
      match va, vb, hva, hvb, hd with
      | none, none, _, _, hd => simp [compareVals] at hd
      | none, some y, _, _, hd =>
        obtain ⟨_, h1, h2⟩ := (C89_one_sided (o := o) hh.good hs.ord ordOK_id hnofilter n y _ _).1 d hd
        obtain ⟨k, b, q⟩ := d
        simp only at h1 h2
        subst h1 h2
        exact hhere k
      | some x, none, _, _, hd =>
        obtain ⟨_, h1, h2⟩ := (C89_one_sided (o := o) hh.good hs.ord ordOK_id hnofilter n x _ _).2 d hd
        obtain ⟨k, b, q⟩ := d
        simp only at h1 h2
        subst h1 h2
        exact hhere k
      | some x, some y, hva, hvb, hd =>
        simp only [compareVals] at hd
        split at hd
        · rename_i hdc
          simp only [hs.duck, Bool.or_false, Bool.and_eq_true, Bool.or_eq_true, decide_eq_true_eq] at hdc
          have hcx : comparable x = true ∧ comparable y = true := by
            unfold comparable at hdc ⊢
            have h1 := hdc.1
            rw [hdc.2] at h1
            rw [hdc.2]
            simpa using h1
          have hset : ∀ {s : List (String × Val)} {x : Val}, H.normSlot (alookup s p.name) p none = .ok (some x) → comparable x = true → alookup s p.name = some x := by
            intro s x h hcx
            cases hv : alookup s p.name with
            | none => rw [hv, hs.plain.unset] at h; cases h
            | some v =>
              rw [hv] at h
              rw [hs.plain.keeps v p none x h (.inr hcx)]
          have hv := hset hva hcx.1
          have hw := hset hvb hcx.2
          have hax : RecordsOnly x := fun w hw' => ha w (.rcd (alookup_mem' hv) hw')
          have hby : RecordsOnly y := fun w hw' => hb w (.rcd (alookup_mem' hw) hw')
          have hrcd : ∀ {v : Val}, RecordsOnly v → comparable v = true → ∃ c s, v = .rcd c s := by
            intro v h hc
            rcases h v (.self _) with ⟨a, rfl⟩ | h
            · simp [comparable, tagOf] at hc
            · exact h
          obtain ⟨c1, s1, rfl⟩ := hrcd hax hcx.1
          obtain ⟨c2, t1, rfl⟩ := hrcd hby hcx.2
          have hcc := hdc.2
          simp only [tagOf, Option.some.injEq, Tag.cls.injEq] at hcc
          subst hcc
          obtain ⟨h1, h2⟩ := nested_inRecords hs hh hu n c1 s1 t1 _ _ hax hby d hd
          have hp := yields_prefix (yields_diffIter hs.ord n _ _ _ _ d hd)
          rw [rel_under hp.1 hp.2]
          exact ⟨inRecords_next hv h1, inRecords_next hw h2⟩
        · obtain ⟨eq, _, hd⟩ := mem_bindE hd
          split at hd
          · rw [mem_yield (mem_when hd).2]
            exact hhere _
          · rw [mem_yield hd]
            exact hhere _

theorem records_atom (a : Atom) : RecordsOnly (.atom a) := fun w hw => by
  cases hw
  exact .inl ⟨a, rfl⟩

theorem records_rcd {c : String} {s : List (String × Val)} (h : ∀ x ∈ s, RecordsOnly x.2) : RecordsOnly (.rcd c s) := fun w hw => by
  cases hw with
  | self => exact .inr ⟨c, s, rfl⟩
  | rcd hx hw => exact h _ hx w hw

/-- C90 for objects made of nested records: all differences can be carried over. -/
theorem C90_nested_partial (hs : Std H o) (hfz : o.fuzzyMatch = false ∨ IdSound H o) (hh : Steady H) (n : Nat) (c : String) (s t : List (String × Val))
    (ha : Real H.S (.rcd c s)) (hb : Real H.S (.rcd c t)) (hna : RecordsOnly (.rcd c s)) (hnb : RecordsOnly (.rcd c t)) (hc : Carries H.S V (.rcd c t))
    (hend : (diff H o n (.rcd c s) (.rcd c t)).exc = none) :
    ∃ a', carryAll V (.rcd c t) (diff H o n (.rcd c s) (.rcd c t)).out (.rcd c s) = (.ok (), a') ∧ Real H.S a' ∧
      ∀ m, ∀ d ∈ (diff H o m a' (.rcd c t)).out, d.kind = .noChange ∨ d.kind = .moved :=
  C90_partial hs hfz hh n c s t ha hb hc hend (fun d hd _ => nested_inRecords hs hh hc.unset n c s t [] [] hna hnb d hd)

/-- The default methods of DiffOptions are steady. -/
theorem steady_default (D : Setup) (hc : ∀ p, D.compareAs p = none) (hi : ∀ c f, D.compareItemAs c = some f → ∀ v, f v ≠ .error .assertionError) (L : Ident.AtomLaws D.S) (hm : GoodMix D.S) :
    Steady D.hooks where
  good := C89_default D hm (fun p f h => by rw [hc p] at h; cases h) hi
  local_ v p oa ob := by
    show normalizeObjectSlot D v p oa = normalizeObjectSlot D v p ob
    unfold normalizeObjectSlot
    rw [hc p]
  record c s p ob := by
    show normalizeObjectSlot D (some (.rcd c s)) p ob = .ok (some (.rcd c s))
    unfold normalizeObjectSlot
    rw [hc p]
    simp [normalizeVal, scrub, valueIsEmpty]
  refl x hx h := by
    have h1 : Ident.veq D.S x x = .ok false := h
    rw [Ident.veq_refl L x hx.1] at h1
    simp at h1

/-- C90 for the default methods of DiffOptions. -/
theorem C90_default_partial (D : Setup) (hca : ∀ p, D.compareAs p = none) (hci : ∀ c, D.compareItemAs c = none) (L : Ident.AtomLaws D.S) (hm : GoodMix D.S) (ho : OrdOK D.hooks)
    (hd : o.duckType = false) (hf : o.compareFilter = none) (hr : o.recurse = false) (hfz : o.fuzzyMatch = false) (n : Nat) (c : String) (s t : List (String × Val))
    (ha : Real D.S (.rcd c s)) (hb : Real D.S (.rcd c t)) (hc : Carries D.S V (.rcd c t)) (hend : (diff D.hooks o n (.rcd c s) (.rcd c t)).exc = none)
    (hin : ∀ d ∈ (diff D.hooks o n (.rcd c s) (.rcd c t)).out, Tells d → InRecords (.rcd c s) d.base ∧ InRecords (.rcd c t) d.other) :
    ∃ a', carryAll V (.rcd c t) (diff D.hooks o n (.rcd c s) (.rcd c t)).out (.rcd c s) = (.ok (), a') ∧ Real D.S a' ∧
      ∀ m, ∀ d ∈ (diff D.hooks o m a' (.rcd c t)).out, d.kind = .noChange ∨ d.kind = .moved :=
  C90_partial (std_default D (.none hca) ho hd hf hr) (.inl hfz) (steady_default D hca (fun c f h => by rw [hci c] at h; cases h) L hm) n c s t ha hb hc hend hin

/-- C90 in full: whatever is in the objects. -/
def C90_statement : Prop := ∀ (D : Setup) (o : Opts) (V : Env) (n : Nat) (c : String) (s t : List (String × Val)), (∀ p, D.compareAs p = none) → (∀ c, D.compareItemAs c = none) →
  Ident.AtomLaws D.S → GoodMix D.S → OrdOK D.hooks → o.duckType = false → o.compareFilter = none → o.recurse = false → o.fuzzyMatch = false → (∀ c v, V.coerceItem c v = .ok v) →
  Real D.S (.rcd c s) → Real D.S (.rcd c t) → Carries D.S V (.rcd c t) → (diff D.hooks o n (.rcd c s) (.rcd c t)).exc = none →
  ∃ a', carryAll V (.rcd c t) (diff D.hooks o n (.rcd c s) (.rcd c t)).out (.rcd c s) = (.ok (), a') ∧
    ∀ m, ∀ d ∈ (diff D.hooks o m a' (.rcd c t)).out, d.kind = .noChange ∨ d.kind = .moved

namespace Ex

/-- Classes that take anything. -/
def free : Env := ⟨fun _ _ => none, fun _ v => .ok v, fun _ _ => .error .typeError⟩

theorem unset_none (c nm : String) : Ident.unsetOf schema c nm = none := by
  unfold Ident.unsetOf
  cases h : Ident.propOf schema c nm with
  | none => rfl
  | some p =>
    have hp : p ∈ (schema.cls c).props := List.mem_of_find?_eq_some h
    have : ∀ p ∈ (schema.cls c).props, p.unset = none := by
      show ∀ p ∈ (cls c).props, p.unset = none
      unfold cls
      split <;> decide
    exact this p hp

theorem carries (b : Val) : Carries schema free b where
  names c := by
    show ((cls c).props.map (·.name)).Nodup
    unfold cls
    split <;> decide
  unset := unset_none
  take c t nm v a _ _ h := by cases h
  drop c nm a v h := by cases h

theorem steady (t : TextOpts) : Steady (hooks t) := steady_default (setup t) (fun _ => rfl) (fun _ _ h => nomatch h) laws goodMix

/-- Two documents without lists. -/
def flatA : Val := .rcd "Doc" [("title", .str "A"), ("author", person 1 "Ann")]
def flatB : Val := .rcd "Doc" [("author", person 1 "Anna"), ("tags", .str "none"), ("note", .str "x")]

example : (diff (hooks {}) {} 9 flatA flatB).out = [⟨.modified, [.str "author", .str "name"], [.str "author", .str "name"]⟩, ⟨.added, [.str "tags"], [.str "tags"]⟩,
    ⟨.removed, [.str "title"], [.str "title"]⟩] ∧ (diff (hooks {}) {} 9 flatA flatB).exc = none := by decide +kernel

example : carryAll free flatB (diff (hooks {}) {} 9 flatA flatB).out flatA = (.ok (), .rcd "Doc" [("author", person 1 "Anna"), ("tags", .str "none")]) := by decide +kernel

-- the hypotheses hold of them
example : Std (hooks {}) { fuzzyMatch := false } ∧ Steady (hooks {}) ∧ Real schema flatA ∧ Real schema flatB ∧ RecordsOnly flatA ∧ RecordsOnly flatB ∧ Carries schema free flatB := by
  refine ⟨std_default _ (.none fun _ => rfl) (ordOK {}) rfl rfl rfl, steady {}, ?_, ?_, ?_, ?_, carries _⟩
  · refine .rcd (by simp [Ident.Proper, schema, cls]) rfl ?_
    intro x hx
    simp only [List.mem_cons, List.not_mem_nil, or_false] at hx
    rcases hx with rfl | rfl
    · exact .atom _
    · exact real_person _ _
  · refine .rcd (by simp [Ident.Proper, schema, cls]) rfl ?_
    intro x hx
    simp only [List.mem_cons, List.not_mem_nil, or_false] at hx
    rcases hx with rfl | rfl | rfl
    · exact real_person _ _
    · exact .atom _
    · exact .atom _
  · exact records_rcd (by simp; exact ⟨records_atom _, records_rcd (by simp; exact ⟨records_atom _, records_atom _⟩)⟩)
  · exact records_rcd (by simp; exact ⟨records_rcd (by simp; exact ⟨records_atom _, records_atom _⟩), records_atom _, records_atom _⟩)

end Ex

/-- C90 is false of lists: positions shift as items are removed. -/
theorem C90_violated : ¬ C90_statement := by
  intro h
  have h1 : Real Ex.schema (.rcd "Doc" [("tags", .list [.str "x", .str "y"])]) :=
    .rcd (by simp [Ident.Proper, Ex.schema, Ex.cls]) rfl (by simp; exact Ex.real_atoms (by simp; exact ⟨⟨_, rfl⟩, ⟨_, rfl⟩⟩))
  have h2 : Real Ex.schema (.rcd "Doc" [("tags", .list [])]) := .rcd (by simp [Ident.Proper, Ex.schema, Ex.cls]) rfl (by simp; exact Ex.real_atoms (by simp))
  obtain ⟨a', h, _⟩ := h (Ex.setup {}) { fuzzyMatch := false } Ex.free 9 "Doc" [("tags", .list [.str "x", .str "y"])] [("tags", .list [])] (fun _ => rfl) (fun _ => rfl) Ex.laws Ex.goodMix
    (Ex.ordOK {}) rfl rfl rfl rfl (fun _ _ => rfl) h1 h2 (Ex.carries _) (by decide +kernel)
  have : (carryAll Ex.free (.rcd "Doc" [("tags", .list [])]) (diff (Ex.setup {}).hooks { fuzzyMatch := false } 9 (.rcd "Doc" [("tags", .list [.str "x", .str "y"])]) (.rcd "Doc" [("tags", .list [])])).out
    (.rcd "Doc" [("tags", .list [.str "x", .str "y"])])).1 ≠ .ok () := by decide +kernel
  exact this (by rw [h])

end Normalize.Diff
