import Verif.Spec.JsonOut
import Verif.Lemmas.ValInd
import Verif.Lemmas.Identity

/-!
# Lemmas about JSON output
-/

namespace Normalize.Json
open Ident (IProp Sub)
open Spec (IsJson GoodConverters SafeConverters Writable Named Converts Selected)

variable {J : Setup} {e : Bool}

/-- A slot on its way out. -/
def outOf (J : Setup) (e : Bool) (v : Val) : Out :=
  { val := v, data := jsonData J e v, entries := entriesOf J e v }

theorem outs_eq (s : List (String × Val)) : outs J e s = s.map (fun x => (x.1, outOf J e x.2)) := by
  induction s with
  | nil => rfl
  | cons x s ih => obtain ⟨k, v⟩ := x; simp [outs, ih, outOf]

theorem outs_lookup (s : List (String × Val)) (nm : String) :
    alookup (outs J e s) nm = (alookup s nm).map (outOf J e) := by
  rw [outs_eq, Ident.alookup_map]

theorem dataL_eq (xs : List Val) : dataL J e xs = mapE (jsonData J e) xs := by
  induction xs with
  | nil => rfl
  | cons x xs ih =>
    simp only [dataL, mapE, ih]
    cases jsonData J e x with
    | error x => rfl
    | ok j => cases mapE (jsonData J e) xs <;> rfl

/-- An entry on its way out. -/
def dataE (J : Setup) (e : Bool) (kv : Comp × Val) : Except Exc (Comp × Val) :=
  match jsonData J e kv.2 with
  | .error x => .error x
  | .ok j => .ok (kv.1, j)

theorem dataC_eq (xs : List (Comp × Val)) : dataC J e xs = mapE (dataE J e) xs := by
  induction xs with
  | nil => rfl
  | cons x xs ih =>
    obtain ⟨k, v⟩ := x
    simp only [dataC, mapE, ih, dataE]
    cases jsonData J e v with
    | error x => rfl
    | ok j => simp only []; cases mapE (dataE J e) xs <;> rfl

theorem eachEntry_eq (xs : List (Comp × Val)) : eachEntry J e xs = xs.map (fun x => (x.1, toJson J e x.2)) := by
  induction xs with
  | nil => rfl
  | cons x xs ih => obtain ⟨k, v⟩ := x; simp [eachEntry, ih]

theorem named_iff {c : String} {p : IProp} {n : Option String} : Named J c p n ↔ jsonName J c p = n := by
  constructor
  · intro h
    cases h with
    | plain h => simp [jsonName, h]
    | default h h' => simp [jsonName, h, h']
    | explicit h h' => simp [jsonName, h, h']
  · intro h
    unfold jsonName at h
    split at h
    · next h1 => subst h; exact .plain h1
    · next o h1 =>
      split at h
      · next h2 => subst h; exact .default h1 h2
      · next n' h2 => subst h; exact .explicit h1 h2

theorem converts_iff {c : String} {s : List (String × Val)} {p : IProp} {r : Except Exc Val} :
    Converts J e c s p r → slotRaises J c (outs J e s) p = none ∧ slotOut J c (outs J e s) p = some r := by
  intro h
  cases h with
  | own h1 h2 h3 => simp [slotRaises, slotOut, outs_lookup, h1, propOut, h2, h3, outOf]
  | auto h1 h2 h3 => simp [slotRaises, slotOut, outs_lookup, h1, propOut, h2, h3, outOf]
  | plain h1 h2 => simp [slotRaises, slotOut, outs_lookup, h1, propOut, h2, outOf]
  | computed h1 h2 => simp [slotRaises, slotOut, outs_lookup, h1, h2]

theorem converts_of {c : String} {s : List (String × Val)} {p : IProp} {r : Except Exc Val}
    (hr : slotRaises J c (outs J e s) p = none) (h : slotOut J c (outs J e s) p = some r) :
    Converts J e c s p r := by
  cases hs : alookup s p.name with
  | some v =>
    simp only [slotOut, outs_lookup, hs, Option.map, propOut, outOf, Option.some.injEq] at h
    subst h
    cases hj : (J.info c p.name).json with
    | none => exact .plain hs hj
    | some o =>
      cases ho : o.jout with
      | none => simp only [Option.bind, ho]; exact .auto hs hj ho
      | some f => simp only [Option.bind, ho]; exact .own hs hj ho
  | none =>
    cases he : (J.info c p.name).empty with
    | skip => simp [slotOut, outs_lookup, hs, he] at h
    | gives j => simp [slotOut, outs_lookup, hs, he] at h; subst h; exact .computed hs he
    | raises x => simp [slotRaises, outs_lookup, hs, he] at hr

/-- What a property writes. -/
def Writes (J : Setup) (e : Bool) (c : String) (s : List (String × Val)) (p : IProp) (k : Comp) (j : Val) : Prop :=
  Selected e p ∧ ∃ nm, k = .str nm ∧ Named J c p (some nm) ∧ Converts J e c s p (.ok j)

theorem writeProp_writes {c : String} {s : List (String × Val)} {rv d : List (Comp × Val)} {p : IProp}
    (h : writeProp J e c (outs J e s) rv p = .ok d) :
    (∃ k j, Writes J e c s p k j ∧ d = aset rv k j) ∨ ((∀ k j, ¬ Writes J e c s p k j) ∧ d = rv) := by
  unfold writeProp at h
  split at h
  · next hs =>
    simp at h
    refine .inr ⟨?_, h.symm⟩
    rintro k j ⟨h1, _⟩
    simp only [Bool.and_eq_true, Bool.not_eq_true'] at hs
    rcases h1 with h1 | h1
    · simp [h1] at hs
    · simp [h1] at hs
  · next hs =>
    have hsel : Selected e p := by
      simp only [Bool.and_eq_true, Bool.not_eq_true', not_and, Bool.not_eq_true] at hs
      cases he : e with
      | true => exact .inr rfl
      | false => exact .inl (hs he)
    split at h
    · cases h
    · next hr =>
      split at h
      · next hn =>
        simp at h
        refine .inr ⟨?_, h.symm⟩
        rintro k j ⟨_, nm, _, h2, _⟩
        rw [named_iff, hn] at h2
        cases h2
      · next nm hn =>
        cases ho : slotOut J c (outs J e s) p with
        | none =>
          rw [ho] at h
          simp [writeKey] at h
          refine .inr ⟨?_, h.symm⟩
          rintro k j ⟨_, _, _, _, h3⟩
          have := (converts_iff h3).2
          rw [ho] at this; cases this
        | some r =>
          rw [ho] at h
          cases r with
          | ok j =>
            simp [writeKey] at h
            exact .inl ⟨.str nm, j, ⟨hsel, nm, rfl, named_iff.mpr hn, converts_of hr ho⟩, h.symm⟩
          | error x =>
            simp only [writeKey] at h
            split at h
            · simp at h
              refine .inr ⟨?_, h.symm⟩
              rintro k j ⟨_, _, _, _, h3⟩
              have := (converts_iff h3).2
              rw [ho] at this; cases this
            · cases h

theorem writeProps_ind {c : String} {s : List (String × Val)} {P : List (Comp × Val) → Prop}
    (hstep : ∀ rv p k j, P rv → p ∈ (J.S.cls c).props → Writes J e c s p k j → P (aset rv k j)) :
    ∀ (ps : List IProp), (∀ p ∈ ps, p ∈ (J.S.cls c).props) → ∀ rv d, P rv →
    writeProps J e c (outs J e s) ps rv = .ok d → P d := by
  intro ps
  induction ps with
  | nil => intro _ rv d h0 h; simp [writeProps] at h; subst h; exact h0
  | cons p ps ih =>
    intro hps rv d h0 h
    simp only [writeProps] at h
    split at h
    · cases h
    · next rv' hw =>
      refine ih (fun q hq => hps q (List.mem_cons_of_mem _ hq)) rv' d ?_ h
      rcases writeProp_writes hw with ⟨k, j, h1, rfl⟩ | ⟨_, rfl⟩
      · exact hstep _ _ _ _ h0 (hps p List.mem_cons_self) h1
      · exact h0

theorem writeProps_lookup {c : String} {s : List (String × Val)} {k : Comp} : ∀ (ps : List IProp) rv d,
    writeProps J e c (outs J e s) ps rv = .ok d →
    ((alookup d k).isSome = true ↔ (alookup rv k).isSome = true ∨ ∃ p ∈ ps, ∃ j, Writes J e c s p k j) ∧
    (∀ j, alookup d k = some j → alookup rv k = some j ∨ ∃ p ∈ ps, Writes J e c s p k j) := by
  intro ps
  induction ps with
  | nil => intro rv d h; simp [writeProps] at h; subst h; simp
  | cons p ps ih =>
    intro rv d h
    simp only [writeProps] at h
    split at h
    · cases h
    · next rv' hw =>
      obtain ⟨h1, h2⟩ := ih rv' d h
      rcases writeProp_writes hw with ⟨k', j', hwr, rfl⟩ | ⟨hn, rfl⟩
      · constructor
        · rw [h1, alookup_aset]
          by_cases hk : k' = k
          · subst hk
            simp only [if_true, Option.isSome_some, true_or, true_iff]
            exact .inr ⟨p, List.mem_cons_self, j', hwr⟩
          · have hk' : ¬ k = k' := fun h => hk h.symm
            simp only [hk, hk', if_false, List.mem_cons, exists_eq_or_imp]
            constructor
            · rintro (h | h)
              · exact .inl h
              · exact .inr (.inr h)
            · rintro (h | ⟨j, h⟩ | h)
              · exact .inl h
              · exfalso
                obtain ⟨_, nm, rfl, hnm, _⟩ := h
                obtain ⟨_, nm', rfl, hnm', _⟩ := hwr
                rw [named_iff] at hnm hnm'
                rw [hnm] at hnm'
                cases hnm'
                exact hk rfl
              · exact .inr h
        · intro j hj
          rcases h2 j hj with h3 | ⟨q, hq, h3⟩
          · rw [alookup_aset] at h3
            by_cases hk : k' = k
            · subst hk
              simp at h3
              subst h3
              exact .inr ⟨p, List.mem_cons_self, hwr⟩
            · have hk' : ¬ k = k' := fun h => hk h.symm
              simp only [hk, hk', if_false] at h3
              exact .inl h3
          · exact .inr ⟨q, List.mem_cons_of_mem _ hq, h3⟩
      · constructor
        · rw [h1]
          simp only [List.mem_cons, exists_eq_or_imp]
          constructor
          · rintro (h | h)
            · exact .inl h
            · exact .inr (.inr h)
          · rintro (h | ⟨j, h⟩ | h)
            · exact .inl h
            · exact absurd h (hn k j)
            · exact .inr h
        · intro j hj
          rcases h2 j hj with h3 | ⟨q, hq, h3⟩
          · exact .inl h3
          · exact .inr ⟨q, List.mem_cons_of_mem _ hq, h3⟩

end Normalize.Json
