import Verif.Lemmas.TraitKey
import Mathlib.Data.List.Sublists

/-!
# Theorems on the choice of property types
-/

namespace Normalize.Traits
open Spec

variable {r r' r'' : Reg} {n cls pt : Nat} {kw : List (String × Kw)}

/-! ## C57: the traits of the chosen type -/

theorem construct_ok : ∀ {n : Nat} {r : Reg} {selfie self : Nat} {kw : List (String × Kw)} {pt : Nat} {r' : Reg}, Inv r →
    construct n r selfie self kw = (.ok pt, r') →
    ∃ key extra sf T, KeyOf r self (mixKw (defaultsT r selfie) kw) key extra sf ∧ TypeAt r' pt T ∧ (∀ t ∈ key, t ∈ T.traits) ∧
      (after selfie (mroT r' self) = some [] → T.traits = key)
  | 0, _, _, _, _, _, _, _, h => by cases h
  | n + 1, r, selfie, self, kw, pt, r', hi, h => by
    simp only [construct] at h
    split at h
    · cases h
    · rename_i p1 r1 h1
      obtain ⟨key, T1, hkey, hT1, ht1⟩ := has_ok hi h1
      obtain ⟨hi1, hx1⟩ : Inv r1 ∧ CExt r r1 := by have := has_keeps r self (mixKw (defaultsT r selfie) kw) hi; rw [h1] at this; exact this
      obtain ⟨extra, sf, hK⟩ := traitKey_ok hkey
      split at h
      · cases h
      · cases h
        exact ⟨key, extra, sf, T1, hK, hT1, by rw [ht1]; exact fun t h => h, fun _ => ht1⟩
      · rename_i b tl hb
        obtain ⟨key2, extra2, sf2, T, hK2, hT, h2, _⟩ := construct_ok hi1 h
        refine ⟨key, extra, sf, T, hK, hT, ?_, ?_⟩
        · intro t ht
          refine h2 t (hK2.mono ?_ ?_)
          · rw [traitsT_eq hT1, ht1]; exact ht
          · rw [traitsT_eq hT1, ht1]
            by_cases hu : t = "unsafe"
            · subst hu; exact .inr (hK.tidy ht)
            · exact .inl hu
        · intro h3
          exfalso
          have hx2 := (construct_keeps n r1 b p1 [] hi1).2
          rw [h] at hx2
          cases hS : r1.types[self]? with
          | none =>
            unfold mroT at hb
            rw [hS] at hb
            cases hb
          | some S =>
            rw [mroT_eq (hx2.at hS), ← mroT_eq hS, hb] at h3
            cases h3

theorem call_lt {p : Except PErr Nat} (h : call n r cls kw = (p, r')) (hp : ∀ e, p ≠ .error e) : cls < r.types.length ∧ construct n r cls cls kw = (p, r') := by
  unfold call at h
  split at h
  · cases h
    exact absurd rfl (hp _)
  · exact ⟨by omega, h⟩

/-- C57: the type has every trait that is asked for or should be there. -/
theorem C57_traits (hr : Registry r) (hk : KwOnce kw) (h : call n r cls kw = (.ok pt, r')) (t : String) (ht : WantedTrait r cls kw t) :
    HasTrait r' pt t := by
  obtain ⟨hc, h⟩ := call_lt h (by simp)
  have hi := registry_inv hr
  obtain ⟨key, extra, sf, T, hK, hT, h1, _⟩ := construct_ok hi h
  exact ⟨T, hT, h1 t ((key_wanted hi hc hk hK t).2 ht)⟩

/-- C57: having a trait means to inherit from a type that stands for it. -/
theorem C57_provides (hr : Registry r) (i : Nat) (t : String) : HasTrait r i t ↔ Provides r i t := by
  have hi := registry_inv hr
  constructor
  · rintro ⟨T, hT, ht⟩
    obtain ⟨j, S, h1, h2, h3⟩ := hi.prov i T hT t ht
    exact ⟨j, ⟨T, hT, h1⟩, S, h2, h3⟩
  · rintro ⟨j, ⟨T, hT, hj⟩, S, hS, ht⟩
    exact ⟨T, hT, (hi.up i j T S hT hj hS).1 t (hi.own j S t hS ht)⟩

/-- C57: assignments are checked if the declaration has a type or a check, unless it is read-only or unsafe. -/
theorem C57_safe (hr : Registry r) (hk : KwOnce kw) (h : call n r cls kw = (.ok pt, r')) (hs : SafeByDefault r cls kw)
    (hro : ¬ Asked r cls kw "ro") (hun : ¬ Asked r cls kw "unsafe") : HasTrait r' pt "safe" :=
  C57_traits hr hk h _ (.safe hs hro hun)

/-- C57: an argument is one of the called type, or all the types that stand for a trait and have it agree on the traits. -/
theorem C57_args (hr : Registry r) (hk : KwOnce kw) (h : call n r cls kw = (.ok pt, r')) {a : String} {v : Kw} (hp : Passed r cls kw a v)
    (ha : a ≠ "traits") : Accepts r cls a ∨
      ∃ j, ImpliesType r cls kw a j ∧ ∀ i, ImpliesType r cls kw a i → ∀ t, HasTrait r i t ↔ HasTrait r j t := by
  obtain ⟨hc, h⟩ := call_lt h (by simp)
  have hi := registry_inv hr
  obtain ⟨key, extra, sf, T, hK, hT, h1, _⟩ := construct_ok hi h
  by_cases hacc : Accepts r cls a
  · exact .inl hacc
  right
  rcases hK.known a v ((passed_mem hi hk).1 hp) ha with h2 | ⟨k, j, h2, h3⟩
  · exact absurd ((accepts_iff hi hc).2 h2) hacc
  · obtain ⟨D, h4, h5, h6, h7⟩ := (mem_duckOf hi).1 h2
    refine ⟨j, ⟨ha, ⟨v, hp⟩, hacc, D, h4, h7, h5⟩, ?_⟩
    rintro i ⟨_, _, _, E, h8, h9, h10⟩ t
    have := h3 E.traits i ((mem_duckOf hi).2 ⟨E, h8, h10, rfl, h9⟩)
    constructor
    · rintro ⟨E', hE', ht⟩
      cases typeAt_unique h8 hE'
      exact ⟨D, h4, by rw [h6, ← this]; exact ht⟩
    · rintro ⟨D', hD', ht⟩
      cases typeAt_unique h4 hD'
      exact ⟨E, h8, by rw [this, ← h6]; exact ht⟩

/-- C57 in full: the type has exactly these traits, and what came before does not matter. -/
def C57_statement : Prop := ∀ (r r1 r2 : Reg) (cls n pt : Nat) (kw : List (String × Kw)) (r1' : Reg), Registry r → CallsFrom r r1 → CallsFrom r r2 →
  cls < r.types.length → KwOnce kw → call n r1 cls kw = (.ok pt, r1') →
  (∀ t, HasTrait r1' pt t ↔ WantedTrait r cls kw t) ∧
  ∃ m pt2 r2', call m r2 cls kw = (.ok pt2, r2') ∧ ∀ t, HasTrait r2' pt2 t ↔ HasTrait r1' pt t

/-- The type has no bases, like `Property`. -/
def NoBases (r : Reg) (cls : Nat) : Prop := ∃ T, TypeAt r cls T ∧ T.mro = [cls]

theorem after_noBases (h : NoBases r cls) : after cls (mroT r cls) = some [] := by
  obtain ⟨T, hT, hm⟩ := h
  rw [mroT_eq hT, hm]
  simp [after]

theorem NoBases.ext (h : NoBases r cls) (hx : CExt r r') : NoBases r' cls := by
  obtain ⟨T, hT, hm⟩ := h
  exact ⟨T, hx.at hT, hm⟩

theorem noBases_property (hr : Registry r) : NoBases r 0 := by
  obtain ⟨T, h1, h2, _⟩ := (registry_inv hr).rootMro
  exact ⟨T, h1, h2⟩

/-- C57: the type that `Property(...)` chooses has exactly the traits that it should have. -/
theorem C57_exact_partial (hr : Registry r) (hk : KwOnce kw) (h : call n r 0 kw = (.ok pt, r')) (t : String) :
    HasTrait r' pt t ↔ WantedTrait r 0 kw t := by
  refine ⟨?_, C57_traits hr hk h t⟩
  obtain ⟨hc, h⟩ := call_lt h (by simp)
  have hi := registry_inv hr
  have hx := (construct_keeps n r 0 0 kw hi).2
  rw [h] at hx
  obtain ⟨key, extra, sf, T, hK, hT, _, h1⟩ := construct_ok hi h
  have h1 := h1 (after_noBases ((noBases_property hr).ext hx))
  rintro ⟨T', hT', ht⟩
  cases typeAt_unique hT hT'
  rw [h1] at ht
  exact (key_wanted hi hc hk hK t).1 ht

/-! ### History -/

theorem findSafe_ext (hi : Inv r) (hx : CExt r r') : ∀ {l : List Nat}, (∀ j ∈ l, j < r.types.length) → findSafe r' l = findSafe r l
  | [], _ => rfl
  | c :: cs, h => by
    obtain ⟨T, hT⟩ := typeAt_of_lt (h c List.mem_cons_self)
    have hT' : r'.types[c]? = some T := hx.at hT
    have hT : r.types[c]? = some T := hT
    simp only [findSafe, hT, hT']
    rw [findSafe_ext hi hx (fun j hj => h j (List.mem_cons_of_mem _ hj))]

theorem safeT_ext (hi : Inv r) (hx : CExt r r') {i : Nat} (h : i < r.types.length) : safeT r' i = safeT r i := by
  obtain ⟨T, hT⟩ := typeAt_of_lt h
  unfold safeT
  rw [mroT_eq hT, mroT_eq (hx.at hT)]
  exact findSafe_ext hi hx (hi.lt i T hT)

theorem any_safe_ext (hi : Inv r) (hx : CExt r r') (a : String) :
    (duckOf r a).any (fun e => safeT r' e.2) = (duckOf r a).any (fun e => safeT r e.2) := by
  have : ∀ e ∈ duckOf r a, safeT r' e.2 = safeT r e.2 := by
    rintro ⟨k, i⟩ he
    obtain ⟨T, hT, _⟩ := (mem_duckOf hi).1 he
    exact safeT_ext hi hx (typeAt_lt hT)
  generalize duckOf r a = l at this
  induction l with
  | nil => rfl
  | cons e l ih =>
    simp only [List.any_cons]
    rw [this e List.mem_cons_self, ih (fun e' h => this e' (List.mem_cons_of_mem _ h))]

theorem scanArgs_ext (hi : Inv r) (hx : CExt r r') {self : Nat} (hs : self < r.types.length) : ∀ (kw : List (String × Kw)) (extra : List String) (sf : Bool),
    scanArgs r' self kw extra sf = scanArgs r self kw extra sf
  | [], _, _ => rfl
  | (a, v) :: rest, extra, sf => by
    obtain ⟨T, hT⟩ := typeAt_of_lt hs
    have hd : duckOf r' a = duckOf r a := by unfold duckOf; rw [hx.duck]
    simp only [scanArgs]
    rw [allArgsT_eq hT, allArgsT_eq (hx.at hT), hd, any_safe_ext hi hx]
    simp only [scanArgs_ext hi hx hs rest]

theorem traitKey_ext (hi : Inv r) (hx : CExt r r') {self : Nat} (hs : self < r.types.length) (kw : List (String × Kw)) :
    traitKey r' self kw = traitKey r self kw := by
  obtain ⟨T, hT⟩ := typeAt_of_lt hs
  unfold traitKey
  rw [safeT_ext hi hx hs, traitsT_eq hT, traitsT_eq (hx.at hT)]
  simp only [scanArgs_ext hi hx hs]

/-- C57: if `Property(...)` succeeds in both histories, the traits are the same. -/
theorem C57_history_partial {r1 r2 r1' r2' : Reg} {n1 n2 p1 p2 : Nat} (hr : Registry r) (hk : KwOnce kw) (h1 : CallsFrom r r1) (h2 : CallsFrom r r2)
    (hc1 : call n1 r1 0 kw = (.ok p1, r1')) (hc2 : call n2 r2 0 kw = (.ok p2, r2')) (t : String) :
    HasTrait r1' p1 t ↔ HasTrait r2' p2 t := by
  have hi := registry_inv hr
  obtain ⟨hi1, hx1⟩ := callsFrom_keeps h1 hi
  obtain ⟨hi2, hx2⟩ := callsFrom_keeps h2 hi
  have main : ∀ {ra ra' : Reg} {m p : Nat}, Inv ra → CExt r ra → call m ra 0 kw = (.ok p, ra') → ∃ key T, traitKey r 0 (mixKw (defaultsT r 0) kw) = .ok key ∧
      TypeAt ra' p T ∧ T.traits = key := by
    intro ra ra' m p hia hxa hc
    obtain ⟨hlt, hc⟩ := call_lt hc (by simp)
    obtain ⟨T0, hT0, hm0, _⟩ := hi.rootMro
    cases m with
    | zero => cases hc
    | succ m =>
      simp only [construct] at hc
      split at hc
      · cases hc
      · rename_i q rb hh
        obtain ⟨hib, hxb⟩ : Inv rb ∧ CExt ra rb := by have := has_keeps ra 0 (mixKw (defaultsT ra 0) kw) hia; rw [hh] at this; exact this
        rw [after_noBases ⟨T0, hxb.at (hxa.at hT0), hm0⟩] at hc
        cases hc
        obtain ⟨key, T, hkey, hT, ht⟩ := has_ok hia hh
        rw [traitKey_ext hi hxa (typeAt_lt hT0), defaultsT_eq (hxa.at hT0), ← defaultsT_eq hT0] at hkey
        exact ⟨key, T, hkey, hT, ht⟩
  obtain ⟨k1, T1, e1, a1, b1⟩ := main hi1 hx1 hc1
  obtain ⟨k2, T2, e2, a2, b2⟩ := main hi2 hx2 hc2
  rw [e1] at e2
  cases e2
  constructor
  · rintro ⟨T, hT, ht⟩
    cases typeAt_unique a1 hT
    exact ⟨T2, a2, by rw [b2, ← b1]; exact ht⟩
  · rintro ⟨T, hT, ht⟩
    cases typeAt_unique a2 hT
    exact ⟨T1, a1, by rw [b1, ← b2]; exact ht⟩

/-- C57: a declaration with `Property(...)` that succeeded gives the same type again, whatever is called in between. -/
theorem C57_again {m : Nat} (hr : Registry r) (h : call n r 0 kw = (.ok pt, r')) (hl : CallsFrom r' r'') :
    call (m + 1) r'' 0 kw = (.ok pt, r'') := by
  have hi := registry_inv hr
  have hcall := call_keeps n r 0 kw hi
  rw [h] at hcall
  obtain ⟨hi', hx'⟩ := hcall
  obtain ⟨hi'', hx''⟩ := callsFrom_keeps hl hi'
  obtain ⟨hlt, h⟩ := call_lt h (by simp)
  obtain ⟨T0, hT0, hm0, _⟩ := hi.rootMro
  have hT0'' := hx''.at (hx'.at hT0)
  cases n with
  | zero => cases h
  | succ n =>
    simp only [construct] at h
    split at h
    · cases h
    · rename_i q rb hh
      obtain ⟨hib, hxb⟩ : Inv rb ∧ CExt r rb := by have := has_keeps r 0 (mixKw (defaultsT r 0) kw) hi; rw [hh] at this; exact this
      rw [after_noBases ⟨T0, hxb.at hT0, hm0⟩] at h
      cases h
      obtain ⟨key, T, hkey, hT, ht⟩ := has_ok hi hh
      have hkey' : traitKey r'' 0 (mixKw (defaultsT r'' 0) kw) = .ok key := by
        rw [traitKey_ext hi (hx'.trans hx'') (typeAt_lt hT0), defaultsT_eq hT0'', ← defaultsT_eq hT0]
        exact hkey
      have hlook := (hi''.reg key pt).2 ⟨T, hx''.at hT, ht⟩
      unfold call
      rw [if_neg (by have := typeAt_lt hT0''; omega)]
      simp only [construct, has, hkey', hlook]
      rw [after_noBases ⟨T0, hT0'', hm0⟩]

/-- C57: the `__init__` of the type that `Property(...)` chooses, or of one of its bases, has the arguments. -/
theorem C57_accepts (hr : Registry r) (hu : UniqueTraits r) (hn : ∀ j, ¬ DeclaresTrait r j "unsafe") (hk : KwOnce kw) (h : call n r 0 kw = (.ok pt, r'))
    {a : String} {v : Kw} (hp : Passed r 0 kw a v) (ha : a ≠ "traits") : Accepts r' pt a := by
  have hi := registry_inv hr
  have hcall := call_keeps n r 0 kw hi
  rw [h] at hcall
  obtain ⟨hi', hx'⟩ := hcall
  have up : ∀ {j T}, SubtypeOf r' pt j → TypeAt r j T → a ∈ T.args → Accepts r' pt a := fun h1 h2 h3 => ⟨_, _, h1, hx'.at h2, h3⟩
  have hprov := fun t h' => C57_traits hr hk h t h'
  have decl : ∀ {j t}, HasTrait r' pt t → DeclaresTrait r j t → SubtypeOf r' pt j := by
    rintro j t ⟨P, hP, ht⟩ hd
    obtain ⟨i, S, h1, h2, h3⟩ := hi'.prov pt P hP t ht
    rcases hx'.back h2 with h2 | ⟨_, h2, _⟩
    · cases hu i j t ⟨S, h2, h3⟩ hd
      exact ⟨P, hP, h1⟩
    · rw [h2] at h3
      cases h3
  rcases C57_args hr hk h hp ha with ⟨j, T, ⟨T0, hT0, hj⟩, h1, h2⟩ | ⟨j, himp, _⟩
  · obtain ⟨R, hR, hm, _⟩ := hi.rootMro
    cases typeAt_unique hT0 hR
    rw [hm, List.mem_singleton] at hj
    subst hj
    obtain ⟨_, hc⟩ := call_lt h (by simp)
    obtain ⟨_, _, _, P, _, hP, _⟩ := construct_ok hi hc
    exact up ⟨P, hP, hi'.root pt P hP⟩ h1 h2
  · obtain ⟨_, _, _, D, h1, h2, h3⟩ := id himp
    obtain ⟨t, ht⟩ := Option.ne_none_iff_exists'.1 h3
    have hne : t ≠ "unsafe" := by rintro rfl; exact hn j ⟨D, h1, ht⟩
    have := hprov t (.asked (.inr (.inr ⟨a, j, himp, D, h1, hi.own j D t h1 ht⟩)) hne)
    exact up (decl this ⟨D, h1, ht⟩) h1 h2

/-! ### Termination -/

/-- The keys below the wanted one that are not registered. -/
def unmade (r : Reg) (wanted : List String) : List (List String) := wanted.sublists.filter (fun k => (lookupT r.reg k).isNone)

/-- All keys are sorted parts of the wanted one. -/
def Parts (wanted : List String) (stock : List (List String)) : Prop := ∀ k ∈ stock, k.Sublist wanted

theorem sublist_of_sorted {a b : List String} (ha : a.Pairwise (· < ·)) (hb : b.Pairwise (· < ·)) (h : ∀ x ∈ a, x ∈ b) : a.Sublist b := by
  have he : a = b.filter (fun x => a.contains x) := by
    refine sorted_ext ha (hb.filter _) ?_
    intro x
    simp only [List.mem_filter, List.contains_eq_mem, decide_eq_true_eq]
    exact ⟨fun hx => ⟨h x hx, hx⟩, fun hx => hx.2⟩
  rw [he]
  exact List.filter_sublist

theorem norm_part {wanted a b : List String} (hw : wanted.Pairwise (· < ·)) (ha : a.Sublist wanted) (hb : b.Sublist wanted) :
    (norm (a ++ b)).Sublist wanted := by
  refine sublist_of_sorted (norm_sorted _) hw ?_
  intro x hx
  rcases List.mem_append.1 (mem_norm.1 hx) with hx | hx
  · exact ha.subset hx
  · exact hb.subset hx

theorem scanOthers_mem {r : Reg} {wanted base : List String} : ∀ {os : List (List String)} {sf : Nat} {mix : Option (List String × List String)}
    {last : Option (List String)} {o p l : List String}, scanOthers r wanted base os sf mix last = (some (o, p), some l) →
    (mix = some (o, p) ∨ (o ∈ os ∧ p = norm (base ++ o))) ∧ (last = some l ∨ l ∈ os)
  | [], sf, mix, last, o, p, l, h => by
    simp only [scanOthers, Prod.mk.injEq] at h
    exact ⟨.inl h.1, .inl h.2⟩
  | o' :: os, sf, mix, last, o, p, l, h => by
    simp only [scanOthers] at h
    split at h
    · obtain ⟨h1, h2⟩ := scanOthers_mem h
      exact ⟨h1.imp id (fun h => ⟨.tail _ h.1, h.2⟩), .inr (h2.elim (fun h => by cases h; exact .head _) (.tail _))⟩
    · split at h
      · split at h
        · simp only [Prod.mk.injEq, Option.some.injEq] at h
          obtain ⟨⟨rfl, rfl⟩, rfl⟩ := h
          exact ⟨.inr ⟨.head _, rfl⟩, .inr (.head _)⟩
        · obtain ⟨h1, h2⟩ := scanOthers_mem h
          refine ⟨.inr ?_, .inr (h2.elim (fun h => by cases h; exact .head _) (.tail _))⟩
          rcases h1 with h1 | h1
          · cases h1; exact ⟨.head _, rfl⟩
          · exact ⟨.tail _ h1.1, h1.2⟩
      · obtain ⟨h1, h2⟩ := scanOthers_mem h
        exact ⟨h1.imp id (fun h => ⟨.tail _ h.1, h.2⟩), .inr (h2.elim (fun h => by cases h; exact .head _) (.tail _))⟩

theorem lookup_keeps (hi : Inv r) (hi' : Inv r') (hx : CExt r r') {k : List String} {i : Nat} (h : lookupT r.reg k = some i) : lookupT r'.reg k = some i := by
  obtain ⟨T, h1, h2⟩ := (hi.reg k i).1 h
  exact (hi'.reg k i).2 ⟨T, hx.at h1, h2⟩

theorem unmade_le (hi : Inv r) (hi' : Inv r') (hx : CExt r r') (wanted : List String) : (unmade r' wanted).length ≤ (unmade r wanted).length := by
  unfold unmade
  refine (List.monotone_filter_right _ ?_).length_le
  intro k hk
  simp only [Option.isNone_iff_eq_none] at *
  cases h : lookupT r.reg k with
  | none => rfl
  | some i => rw [lookup_keeps hi hi' hx h] at hk; cases hk

theorem filter_length_lt {α : Type} {p q : α → Bool} : ∀ {l : List α} {x : α}, (∀ y, q y = true → p y = true) → x ∈ l → p x = true → q x = false →
    (l.filter q).length < (l.filter p).length
  | y :: l, x, hpq, hx, hp, hq => by
    have hle : (l.filter q).length ≤ (l.filter p).length := (List.monotone_filter_right _ (fun y => hpq y)).length_le
    rcases List.mem_cons.1 hx with rfl | hx
    · simp only [List.filter_cons, hp, hq, if_true, Bool.false_eq_true, if_false, List.length_cons]
      omega
    · have ih := filter_length_lt hpq hx hp hq
      simp only [List.filter_cons]
      cases h1 : q y with
      | true => simp only [hpq y h1, if_true, List.length_cons]; omega
      | false =>
        simp only [Bool.false_eq_true, if_false]
        split
        · simp only [List.length_cons]; omega
        · exact ih

/-- What a round leaves. -/
structure Round (r : Reg) (wanted : List String) (res : Except PErr (List (List String) × Bool) × Reg) : Prop where
  noDiverge : res.1 ≠ .error .diverge ∧ res.1 ≠ .error .valueError
  parts : ∀ stock made, res.1 = .ok (stock, made) → Parts wanted stock

theorem oneBase_round (hi : Inv r) {wanted : List String} (hw : wanted.Pairwise (· < ·)) {stock : List (List String)} (hs : Parts wanted stock)
    {base : List String} (hb : base.Sublist wanted) : Round r wanted (oneBase r wanted stock base) ∧
    ∀ stock', (oneBase r wanted stock base).1 = .ok (stock', true) → (unmade (oneBase r wanted stock base).2 wanted).length < (unmade r wanted).length := by
  unfold oneBase
  split
  · rename_i o p l hscan
    obtain ⟨h1, h2⟩ := scanOthers_mem hscan
    have h1 : o ∈ stock ∧ p = norm (base ++ o) := h1.elim (fun h => by cases h) (fun h => ⟨mem_sortK.1 h.1, h.2⟩)
    have h2 : l ∈ stock := h2.elim (fun h => by cases h) mem_sortK.1
    split
    · exact ⟨⟨⟨by simp, by simp⟩, by rintro _ _ ⟨⟩⟩, by rintro _ ⟨⟩⟩
    · rename_i bt hbt
      split
      · exact ⟨⟨⟨by simp, by simp⟩, by rintro _ _ ⟨⟩⟩, by rintro _ ⟨⟩⟩
      · rename_i ot hot
        have hkeep := newType_keeps r bt ot hi
        rcases newType_cases r { bases := [bt, ot] } with ⟨e, he, h3, h4⟩ | ⟨m, hm, hok⟩
        · rw [he]
          exact ⟨⟨⟨by simpa using h3, by simpa using h4⟩, by rintro _ _ ⟨⟩⟩, by rintro _ ⟨⟩⟩
        · have hpair : newType r { bases := [bt, ot] } = (.ok r.types.length, (newType r { bases := [bt, ot] }).2) := Prod.ext hok rfl
          rw [hpair]
          refine ⟨⟨⟨by simp, by simp⟩, ?_⟩, ?_⟩
          · rintro stock' made' ⟨⟩ k hk
            unfold addKey at hk
            split at hk
            · exact hs k hk
            · rcases List.mem_append.1 hk with hk | hk
              · exact hs k hk
              · rw [List.mem_singleton] at hk
                subst hk
                rw [h1.2]
                exact norm_part hw hb (hs o h1.1)
          · rintro stock' ⟨⟩
            obtain ⟨hi', hx⟩ := hkeep
            obtain ⟨B, hB, hBk⟩ := (hi.reg base bt).1 hbt
            obtain ⟨O, hO, hOk⟩ := (hi.reg l ot).1 hot
            have hnt : newTraits r { bases := [bt, ot] } = norm (base ++ l) := by
              unfold newTraits
              simp only [Option.toList_none, List.nil_append, List.flatMap_cons, List.flatMap_nil, List.append_nil]
              rw [traitsT_eq hB, traitsT_eq hO, hBk, hOk]
            unfold unmade
            refine filter_length_lt (x := norm (base ++ l)) ?_ ?_ ?_ ?_
            · intro k hk
              simp only [Option.isNone_iff_eq_none] at *
              cases h : lookupT r.reg k with
              | none => rfl
              | some i => rw [lookup_keeps hi hi' hx h] at hk; cases hk
            · exact List.mem_sublists.2 (norm_part hw hb (hs l h2))
            · rw [← hnt, hm.free]; rfl
            · rw [hm.eq]
              simp only
              rw [lookupT_append, ← hnt, hm.free]
              simp [lookupT]
  · refine ⟨⟨⟨by simp, by simp⟩, ?_⟩, by rintro _ ⟨⟩⟩
    rintro stock' made' ⟨⟩
    exact hs

theorem eachBase_round {wanted : List String} (hw : wanted.Pairwise (· < ·)) {longest : Nat} : ∀ {bs : List (List String)} {r : Reg} {stock : List (List String)}
    {made : Bool}, Inv r → Parts wanted stock → Parts wanted bs → Round r wanted (eachBase wanted longest r stock made bs) ∧
    ∀ stock', (eachBase wanted longest r stock made bs).1 = .ok (stock', true) → made = true ∨
      (unmade (eachBase wanted longest r stock made bs).2 wanted).length < (unmade r wanted).length
  | [], r, stock, made, hi, hs, hb => by
    simp only [eachBase]
    refine ⟨⟨⟨by simp, by simp⟩, ?_⟩, ?_⟩
    · rintro stock' made' ⟨⟩; exact hs
    · rintro stock' ⟨⟩; exact .inl rfl
  | b :: bs, r, stock, made, hi, hs, hb => by
    simp only [eachBase]
    have hb' : Parts wanted bs := fun k hk => hb k (List.mem_cons_of_mem _ hk)
    split
    · exact eachBase_round hw hi hs hb'
    · obtain ⟨h1, h2⟩ := oneBase_round hi hw hs (hb b List.mem_cons_self)
      obtain ⟨hi1, hx1⟩ := oneBase_keeps r wanted stock b hi
      split
      · rename_i e r1 he
        rw [he] at h1
        have hd := h1.noDiverge
        simp only at hd
        refine ⟨⟨hd, by rintro _ _ ⟨⟩⟩, by rintro _ ⟨⟩⟩
      · rename_i stock1 made1 r1 he
        rw [he] at h1 h2 hi1 hx1
        change Inv r1 at hi1
        change CExt r r1 at hx1
        change ∀ s, _ → (unmade r1 wanted).length < _ at h2
        obtain ⟨h3, h4⟩ := eachBase_round (longest := longest) (made := made || made1) hw hi1 (h1.parts _ _ rfl) hb'
        refine ⟨⟨h3.noDiverge, h3.parts⟩, ?_⟩
        intro stock' hst
        obtain ⟨hi2, hx2⟩ := eachBase_keeps wanted longest bs r1 stock1 (made || made1) hi1
        have hle := unmade_le hi1 hi2 hx2 wanted
        have hle1 := unmade_le hi hi1 hx1 wanted
        rcases h4 stock' hst with h5 | h5
        · rcases Bool.or_eq_true_iff.1 h5 with h5 | h5
          · exact .inl h5
          · subst h5
            have := h2 stock1 rfl
            exact .inr (by omega)
        · exact .inr (by omega)

theorem compose_noDiverge {wanted : List String} (hw : wanted.Pairwise (· < ·)) : ∀ {n : Nat} {r : Reg} {stock : List (List String)}, Inv r → Parts wanted stock →
    (unmade r wanted).length < n → (compose wanted n r stock).1 ≠ .error .diverge
  | 0, _, _, _, _, h => by omega
  | n + 1, r, stock, hi, hs, h => by
    simp only [compose]
    split
    · simp
    · split
      · simp
      · rename_i k ks hstart
        have hb : Parts wanted (sortK (k :: ks)) := by
          intro x hx
          have := mem_sortK.1 hx
          rw [← hstart] at this
          exact hs x (List.mem_filter.1 this).1
        obtain ⟨h1, h2⟩ := eachBase_round (longest := maxLen (k :: ks)) (made := false) hw hi hs hb
        obtain ⟨hi1, hx1⟩ := eachBase_keeps wanted (maxLen (k :: ks)) (sortK (k :: ks)) r stock false hi
        split
        · rename_i e r1 he
          rw [he] at h1
          have := h1.noDiverge.1
          simpa using this
        · rename_i stock1 made1 r1 he
          rw [he] at h1 h2 hi1
          split
          · rename_i hm
            subst hm
            have := (h2 stock1 rfl).elim (fun h => by cases h) id
            simp only at this
            exact compose_noDiverge hw hi1 (h1.parts _ _ rfl) (by omega)
          · simp

theorem stock_parts (hi : Inv r) {wanted : List String} (hw : wanted.Pairwise (· < ·)) : Parts wanted (stockTypes r wanted) := by
  intro k hk
  unfold stockTypes at hk
  obtain ⟨h1, h2⟩ := List.mem_filter.1 hk
  obtain ⟨⟨k', i⟩, h3, rfl⟩ := List.mem_map.1 h1
  simp only [List.all_eq_true, List.contains_iff_mem] at h2
  have hsome : ∃ i', lookupT r.reg k' = some i' := by
    clear hk h1 h2
    generalize r.reg = l at h3
    induction l with
    | nil => cases h3
    | cons x l ih =>
      obtain ⟨k2, i2⟩ := x
      simp only [lookupT]
      split
      · exact ⟨_, rfl⟩
      · rename_i hne
        rcases List.mem_cons.1 h3 with h3 | h3
        · cases h3; exact absurd rfl hne
        · exact ih h3
  obtain ⟨i', hl⟩ := hsome
  obtain ⟨T, hT, rfl⟩ := (hi.reg _ i').1 hl
  exact sublist_of_sorted (hi.sorted i' T hT) hw h2

theorem create_noDiverge (hi : Inv r) {wanted : List String} (hw : wanted.Pairwise (· < ·)) : (create r wanted).1 ≠ .error .diverge := by
  unfold create
  split
  · simp
  · refine compose_noDiverge hw hi (stock_parts hi hw) ?_
    have : (unmade r wanted).length ≤ wanted.sublists.length := List.length_filter_le _ _
    rw [List.length_sublists] at this
    omega

theorem has_noDiverge (hi : Inv r) (self : Nat) (kw : List (String × Kw)) : (has r self kw).1 ≠ .error .diverge := by
  unfold has
  split
  · rename_i e he
    unfold traitKey at he
    split at he
    · rename_i e' hp
      cases he
      unfold popTraits at hp
      split at hp <;> cases hp
      simp
    · split at he
      · rename_i e' hsc
        cases he
        have : ∀ (kw : List (String × Kw)) (extra : List String) (sf : Bool), scanArgs r self kw extra sf ≠ .error .diverge := by
          intro kw
          induction kw with
          | nil => intro _ _ h; cases h
          | cons x kw ih =>
            intro extra sf
            obtain ⟨a, v⟩ := x
            simp only [scanArgs]
            split
            · exact ih _ _
            · split
              · simp
              · exact ih _ _
              · simp
        intro h
        simp only [Except.error.injEq] at h
        subst h
        exact this _ _ _ hsc
      · cases he
  · rename_i key hkey
    obtain ⟨extra, sf, hK⟩ := traitKey_ok hkey
    split
    · simp
    · have := create_noDiverge hi hK.sorted
      split
      · rename_i e r1 he
        rw [he] at this
        simpa using this
      · split <;> simp

/-- The traits that some type stands for. -/
def allTraits (r : Reg) : List String := r.types.filterMap (·.trait)

theorem allTraits_ext (hx : CExt r r') : allTraits r' = allTraits r := by
  obtain ⟨l, h1, h2⟩ := hx.types
  unfold allTraits
  rw [h1, List.filterMap_append]
  have : l.filterMap (·.trait) = [] := by
    rw [List.filterMap_eq_nil_iff]
    exact fun T hT => (h2 T hT).1
  rw [this, List.append_nil]

theorem traits_le (hi : Inv r) {i : Nat} {T : PType} (hT : TypeAt r i T) : T.traits.length ≤ (allTraits r).length := by
  refine List.Subperm.length_le (List.subperm_of_subset (sorted_nodup (hi.sorted i T hT)) ?_)
  intro t ht
  obtain ⟨j, S, _, h2, h3⟩ := hi.prov i T hT t ht
  exact List.mem_filterMap.2 ⟨S, List.mem_of_getElem? h2, h3⟩

theorem after_next {b c : Nat} {rest : List Nat} : ∀ {l : List Nat}, l.Nodup → after b l = some (c :: rest) → after c l = some rest
  | [], _, h => by cases h
  | d :: l, hn, h => by
    simp only [after] at h
    have hn' := List.nodup_cons.1 hn
    split at h
    · cases h
      simp only [after]
      rw [if_neg (by rintro rfl; exact hn'.1 (by simp))]
      simp
    · have ih := after_next hn'.2 h
      simp only [after]
      rw [if_neg ?_, ih]
      rintro rfl
      have : ∀ {l : List Nat} {x}, after b l = some x → ∀ y ∈ x, y ∈ l := by
        intro l
        induction l with
        | nil => intro x h; cases h
        | cons e l ih =>
          intro x h y hy
          simp only [after] at h
          split at h
          · cases h; exact List.mem_cons_of_mem _ hy
          · exact List.mem_cons_of_mem _ (ih h y hy)
      exact hn'.1 (this h d (by simp))

/-- The function gives the same result, which is not `diverge`, from some number of steps on. -/
def Settles (f : Nat → Except PErr Nat × Reg) : Prop := ∃ n, (f n).1 ≠ .error .diverge ∧ ∀ m, n ≤ m → f m = f n

theorem settles_succ {f g : Nat → Except PErr Nat × Reg} (h : ∀ n, f (n + 1) = g n) (hg : Settles g) : Settles f := by
  obtain ⟨n, h1, h2⟩ := hg
  refine ⟨n + 1, by rw [h]; exact h1, ?_⟩
  intro m hm
  cases m with
  | zero => omega
  | succ m => rw [h, h, h2 m (by omega)]

theorem settles_step (hi : Inv r) {b self : Nat} {kw : List (String × Kw)}
    (hgo : ∀ p1 r1 c rest, has r self (mixKw (defaultsT r b) kw) = (.ok p1, r1) → after b (mroT r1 self) = some (c :: rest) →
      Settles (fun n => construct n r1 c p1 [])) : Settles (fun n => construct n r b self kw) := by
  have hnd := has_noDiverge hi self (mixKw (defaultsT r b) kw)
  cases hh : has r self (mixKw (defaultsT r b) kw) with
  | mk res r1 =>
    rw [hh] at hnd
    cases res with
    | error e =>
      refine settles_succ (g := fun _ => (.error e, r1)) (fun n => by simp only [construct, hh]) ⟨0, ?_, fun _ _ => rfl⟩
      simpa using hnd
    | ok p1 =>
      cases ha : after b (mroT r1 self) with
      | none => exact settles_succ (g := fun _ => (.error .typeError, r1)) (fun n => by simp only [construct, hh, ha]) ⟨0, by simp, fun _ _ => rfl⟩
      | some l =>
        cases l with
        | nil => exact settles_succ (g := fun _ => (.ok p1, r1)) (fun n => by simp only [construct, hh, ha]) ⟨0, by simp, fun _ _ => rfl⟩
        | cons c rest => exact settles_succ (g := fun n => construct n r1 c p1 []) (fun n => by simp only [construct, hh, ha]) (hgo p1 r1 c rest hh ha)

theorem settles_tidy (d : Nat) : ∀ (len : Nat) (r : Reg) (b self : Nat) (kw : List (String × Kw)) (T : PType), Inv r → TypeAt r self T →
    ("unsafe" ∈ T.traits → "safe" ∈ T.traits) → (allTraits r).length - T.traits.length = d →
    (∀ l, after b (mroT r self) = some l → l.length ≤ len) → Settles (fun n => construct n r b self kw) := by
  induction d using Nat.strong_induction_on with
  | _ d ihd =>
    intro len
    induction len with
    | zero =>
      intro r b self kw T hi hT htidy hd hl
      refine settles_step hi ?_
      intro p1 r1 c rest hh ha
      obtain ⟨_, hx1⟩ : Inv r1 ∧ CExt r r1 := by have := has_keeps r self (mixKw (defaultsT r b) kw) hi; rw [hh] at this; exact this
      rw [mroT_eq (hx1.at hT), ← mroT_eq hT] at ha
      have := hl _ ha
      simp at this
    | succ len ih =>
      intro r b self kw T hi hT htidy hd hl
      refine settles_step hi ?_
      intro p1 r1 c rest hh ha
      obtain ⟨hi1, hx1⟩ : Inv r1 ∧ CExt r r1 := by have := has_keeps r self (mixKw (defaultsT r b) kw) hi; rw [hh] at this; exact this
      obtain ⟨key, T1, hkey, hT1, ht1⟩ := has_ok hi hh
      obtain ⟨extra, sf, hK⟩ := traitKey_ok hkey
      have hsub : ∀ t ∈ T.traits, t ∈ T1.traits := by
        intro t ht
        rw [ht1]
        refine hK.mono (by rw [traitsT_eq hT]; exact ht) ?_
        rw [traitsT_eq hT]
        by_cases hu : t = "unsafe"
        · subst hu; exact .inr (htidy ht)
        · exact .inl hu
      have htidy1 : "unsafe" ∈ T1.traits → "safe" ∈ T1.traits := by rw [ht1]; exact hK.tidy
      have hs := sublist_of_sorted (hi.sorted self T hT) (hi1.sorted p1 T1 hT1) hsub
      have hle := hs.length_le
      have hmax := traits_le hi1 hT1
      rw [allTraits_ext hx1] at hmax
      by_cases heq : T.traits.length = T1.traits.length
      · have hsame : T.traits = T1.traits := hs.eq_of_length heq
        have hp : self = p1 := hi1.same (hx1.at hT) hT1 hsame
        subst hp
        cases typeAt_unique (hx1.at hT) hT1
        refine ih r1 c self [] T hi1 hT1 htidy1 (by rw [allTraits_ext hx1]; exact hd) ?_
        intro l hl'
        rw [mroT_eq hT1] at ha hl'
        rw [after_next (hi1.nodup self T hT1) ha] at hl'
        cases hl'
        have := hl (c :: rest) (by rw [mroT_eq hT]; exact ha)
        simp only [List.length_cons] at this
        omega
      · refine ihd ((allTraits r1).length - T1.traits.length) ?_ (mroT r1 p1).length r1 c p1 [] T1 hi1 hT1 htidy1 rfl ?_
        · rw [allTraits_ext hx1]
          omega
        · intro l hl'
          have : ∀ {l : List Nat} {x : List Nat}, after c l = some x → x.length ≤ l.length := by
            intro l
            induction l with
            | nil => intro x h; cases h
            | cons e l ih =>
              intro x h
              simp only [after] at h
              split at h
              · cases h; simp
              · have := ih h; simp only [List.length_cons]; omega
          exact this hl'

/-- C57: a declaration comes to an end. -/
theorem C57_terminates (hr : Registry r) (cls : Nat) (kw : List (String × Kw)) :
    ∃ n, (call n r cls kw).1 ≠ .error .diverge ∧ ∀ m, n ≤ m → call m r cls kw = call n r cls kw := by
  have hi := registry_inv hr
  unfold call
  split
  · exact ⟨0, by simp, fun _ _ => rfl⟩
  · refine settles_step hi ?_
    intro p1 r1 c rest hh _
    obtain ⟨hi1, hx1⟩ : Inv r1 ∧ CExt r r1 := by have := has_keeps r cls (mixKw (defaultsT r cls) kw) hi; rw [hh] at this; exact this
    obtain ⟨key, T1, hkey, hT1, ht1⟩ := has_ok hi hh
    obtain ⟨extra, sf, hK⟩ := traitKey_ok hkey
    refine settles_tidy _ (mroT r1 p1).length r1 c p1 [] T1 hi1 hT1 (by rw [ht1]; exact hK.tidy) rfl ?_
    intro l hl'
    have : ∀ {l : List Nat} {x : List Nat}, after c l = some x → x.length ≤ l.length := by
      intro l
      induction l with
      | nil => intro x h; cases h
      | cons e l ih =>
        intro x h
        simp only [after] at h
        split at h
        · cases h; simp
        · have := ih h; simp only [List.length_cons]; omega
    exact this hl'

/-! ## C73: the result is an instance of the called type -/

/-- C73: calling a property type gives an instance of it (which python then initialises). -/
def C73_statement : Prop := ∀ (r r' : Reg) (n cls pt : Nat) (kw : List (String × Kw)), Registry r → KwOnce kw → call n r cls kw = (.ok pt, r') → SubtypeOf r' pt cls

/-- C73 holds for `Property`. -/
theorem C73_property_partial (hr : Registry r) (h : call n r 0 kw = (.ok pt, r')) : SubtypeOf r' pt 0 := by
  have hi := registry_inv hr
  have hcall := call_keeps n r 0 kw hi
  rw [h] at hcall
  obtain ⟨_, h⟩ := call_lt h (by simp)
  obtain ⟨_, _, _, P, _, hP, _⟩ := construct_ok hi h
  exact ⟨P, hP, hcall.1.root pt P hP⟩

/-- C73 holds for a type that stands for a trait, if no other does. -/
theorem C73_partial (hr : Registry r) (hk : KwOnce kw) {t : String} (hd : DeclaresTrait r cls t) (hu : ∀ j, DeclaresTrait r j t → j = cls) (ht : t ≠ "unsafe")
    (h : call n r cls kw = (.ok pt, r')) : SubtypeOf r' pt cls := by
  have hi := registry_inv hr
  have hcall := call_keeps n r cls kw hi
  rw [h] at hcall
  obtain ⟨hi', hx'⟩ := hcall
  obtain ⟨C, hC, hCt⟩ := hd
  obtain ⟨P, hP, hPt⟩ := C57_traits hr hk h t (.asked (.inl ⟨C, hC, hi.own cls C t hC hCt⟩) ht)
  obtain ⟨j, S, h1, h2, h3⟩ := hi'.prov pt P hP t hPt
  rcases hx'.back h2 with h2 | ⟨_, h2, _⟩
  · cases hu j ⟨S, h2, h3⟩
    exact ⟨P, hP, h1⟩
  · rw [h2] at h3
    cases h3

/-! ## C74, C75: assignments -/

/-- Whoever says what an assignment does is read-only or checks. -/
def SettersKnown (r : Reg) : Prop := ∀ j T, TypeAt r j T → "__set__" ∈ T.own → "ro" ∈ T.traits ∨ "safe" ∈ T.traits

/-- The types that stand for `ro` and `safe` say what an assignment does. -/
def SettersThere (r : Reg) : Prop := ∀ j T, TypeAt r j T → T.trait = some "ro" ∨ T.trait = some "safe" → "__set__" ∈ T.own

theorem methodFrom_of {nm : String} : ∀ {l : List Nat}, (∃ j ∈ l, ∃ S, TypeAt r j S ∧ nm ∈ S.own) →
    ∃ pre j post S, l = pre ++ j :: post ∧ TypeAt r j S ∧ nm ∈ S.own ∧ ∀ d ∈ pre, ∀ D, TypeAt r d D → nm ∉ D.own
  | [], h => by obtain ⟨j, hj, _⟩ := h; cases hj
  | c :: cs, h => by
    by_cases hc : ∃ S, TypeAt r c S ∧ nm ∈ S.own
    · obtain ⟨S, h1, h2⟩ := hc
      exact ⟨[], c, cs, S, rfl, h1, h2, by simp⟩
    · have : ∃ j ∈ cs, ∃ S, TypeAt r j S ∧ nm ∈ S.own := by
        obtain ⟨j, hj, S, h1, h2⟩ := h
        rcases List.mem_cons.1 hj with rfl | hj
        · exact absurd ⟨S, h1, h2⟩ hc
        · exact ⟨j, hj, S, h1, h2⟩
      obtain ⟨pre, j, post, S, rfl, h1, h2, h3⟩ := methodFrom_of this
      refine ⟨c :: pre, j, post, S, rfl, h1, h2, ?_⟩
      intro d hd
      rcases List.mem_cons.1 hd with rfl | hd
      · exact fun D hD hn => hc ⟨D, hD, hn⟩
      · exact h3 d hd

/-- C74: assigning to a property with the trait `ro` goes to a type with this trait, which refuses it. -/
def C74_statement : Prop := ∀ (r : Reg) (i : Nat), Registry r → SettersKnown r → SettersThere r → HasTrait r i "ro" →
  ∃ j, MethodFrom r i "__set__" j ∧ HasTrait r j "ro"

/-- C74 holds for types without the trait `safe`. -/
theorem C74_partial (hr : Registry r) (hk : SettersKnown r) (ht : SettersThere r) {i : Nat} (hro : HasTrait r i "ro") (hs : ¬ HasTrait r i "safe") :
    ∃ j, MethodFrom r i "__set__" j ∧ HasTrait r j "ro" := by
  have hi := registry_inv hr
  obtain ⟨T, hT, hro⟩ := hro
  obtain ⟨j, S, h1, h2, h3⟩ := hi.prov i T hT _ hro
  obtain ⟨pre, c, post, C, h4, h5, h6, h7⟩ := methodFrom_of ⟨j, h1, S, h2, ht j S h2 (.inl h3)⟩
  refine ⟨c, ⟨T, pre, post, C, hT, h4, h5, h6, h7⟩, C, h5, ?_⟩
  rcases hk c C h5 h6 with h8 | h8
  · exact h8
  · exact absurd ⟨T, hT, (hi.up i c T C hT (by rw [h4]; simp) h5).1 _ h8⟩ hs

theorem setters_ext (hx : CExt r r') (hk : SettersKnown r) (ht : SettersThere r) : SettersKnown r' ∧ SettersThere r' := by
  constructor
  · intro j T hT hs
    rcases hx.back hT with h | ⟨_, _, _, _, _, h⟩
    · exact hk j T h hs
    · rw [h] at hs; cases hs
  · intro j T hT hs
    rcases hx.back hT with h | ⟨_, h, _⟩
    · exact ht j T h hs
    · rw [h] at hs; simp at hs

theorem registry_call (hr : Registry r) (hk : KwOnce kw) (h : call n r cls kw = (.ok pt, r')) : Registry r' := by
  have := Registry.call (n := n) (cls := cls) hr hk (by rw [h]; simp)
  rw [h] at this
  exact this

/-- C74: `Property(traits=["ro"], ...)` is read-only unless it asks for checks by name or has an empty default. -/
theorem C74_call_partial (hr : Registry r) (hk : SettersKnown r) (ht : SettersThere r) (hkw : KwOnce kw) (h : call n r 0 kw = (.ok pt, r'))
    (hro : Asked r 0 kw "ro") (hs : ¬ Asked r 0 kw "safe") (hd : ¬ Passed r 0 kw "default" .v1none) :
    ∃ j, MethodFrom r' pt "__set__" j ∧ HasTrait r' j "ro" := by
  have hx := (call_keeps n r 0 kw (registry_inv hr)).2
  rw [h] at hx
  obtain ⟨hk', ht'⟩ := setters_ext hx hk ht
  refine C74_partial (registry_call hr hkw h) hk' ht' (C57_traits hr hkw h _ (.asked hro (by decide))) ?_
  rw [C57_exact_partial hr hkw h]
  intro hw
  generalize hsafe : "safe" = s at hw
  cases hw with
  | asked h1 _ => subst hsafe; exact hs h1
  | both _ h1 => exact hs h1
  | safe _ h1 _ => exact h1 hro
  | v1 _ _ h1 => exact hd h1

/-- C75: assignments to a property that should be safe are checked or refused. -/
theorem C75 (hr : Registry r) (hk : SettersKnown r) (ht : SettersThere r) (hkw : KwOnce kw) (h : call n r cls kw = (.ok pt, r'))
    (hs : SafeByDefault r cls kw) (hun : ¬ Asked r cls kw "unsafe") :
    ∃ j, MethodFrom r' pt "__set__" j ∧ (HasTrait r' j "ro" ∨ HasTrait r' j "safe") := by
  have hx := (call_keeps n r cls kw (registry_inv hr)).2
  rw [h] at hx
  obtain ⟨hk', ht'⟩ := setters_ext hx hk ht
  have hi' := registry_inv (registry_call hr hkw h)
  have main : ∀ t, t = "ro" ∨ t = "safe" → HasTrait r' pt t → ∃ j, MethodFrom r' pt "__set__" j ∧ (HasTrait r' j "ro" ∨ HasTrait r' j "safe") := by
    rintro t htt ⟨T, hT, hro⟩
    obtain ⟨j, S, h1, h2, h3⟩ := hi'.prov pt T hT _ hro
    obtain ⟨pre, c, post, C, h4, h5, h6, h7⟩ := methodFrom_of ⟨j, h1, S, h2, ht' j S h2 (by rcases htt with rfl | rfl; exact .inl h3; exact .inr h3)⟩
    refine ⟨c, ⟨T, pre, post, C, hT, h4, h5, h6, h7⟩, ?_⟩
    exact (hk' c C h5 h6).imp (fun h => ⟨C, h5, h⟩) (fun h => ⟨C, h5, h⟩)
  by_cases hro : Asked r cls kw "ro"
  · exact main "ro" (.inl rfl) (C57_traits hr hkw h _ (.asked hro (by decide)))
  · exact main "safe" (.inr rfl) (C57_safe hr hkw h hs hro hun)

/-! ## Examples -/

theorem registry_declareAll : ∀ {ds : List Decl} {r : Reg}, Registry r → (∀ d ∈ ds, GoodDecl d) → Registry (declareAll r ds)
  | [], _, h, _ => h
  | d :: ds, r, h, hd => registry_declareAll (ds := ds) (r := (newType r d).2) (.decl h (hd d List.mem_cons_self)) (fun d' h' => hd d' (List.mem_cons_of_mem _ h'))

instance (d : Decl) : Decidable (GoodDecl d) := by unfold GoodDecl KwOnce; infer_instance

instance (kw : List (String × Kw)) : Decidable (KwOnce kw) := by unfold KwOnce; infer_instance

theorem registry_stock : Registry stock := registry_declareAll .init (by decide)

-- the types of the library: their traits and method resolution orders
example : stock.types.map (fun t => (t.traits, t.mro)) =
    [([], [0]), (["lazy"], [1, 0]), (["ro"], [2, 0]), (["lazy", "ro"], [3, 1, 2, 0]), (["safe"], [4, 0]), (["lazy", "safe"], [5, 4, 1, 0]),
     (["safe", "v1"], [6, 4, 0]), (["diffas"], [7, 0]), (["coll"], [8, 0]), (["coll", "safe"], [9, 8, 4, 0]), (["coll", "list"], [10, 8, 0]),
     (["coll", "dict"], [11, 8, 0]), (["json"], [12, 0]), (["json", "safe"], [13, 12, 4, 0]), (["coll", "json", "list"], [14, 10, 8, 12, 0]),
     (["coll", "dict", "json"], [15, 11, 8, 12, 0])] := by decide +kernel

theorem wanted_of_key {key : List String} (hr : Registry r) (hc : cls < r.types.length) (hk : KwOnce kw)
    (h : traitKey r cls (mixKw (defaultsT r cls) kw) = .ok key) (t : String) : WantedTrait r cls kw t ↔ t ∈ key := by
  obtain ⟨extra, sf, hK⟩ := traitKey_ok h
  exact (key_wanted (registry_inv hr) hc hk hK t).symm

-- Property(isa=..., json_name=..., lazy=True): a new type is composed
def exKw : List (String × Kw) := [("isa", .other), ("json_name", .other), ("lazy", .other)]

theorem exCall : call 10 stock 0 exKw = (.ok 16, (call 10 stock 0 exKw).2) ∧
    ((call 10 stock 0 exKw).2.types.drop 16).map (fun t => (t.traits, t.mro)) = [(["json", "lazy", "safe"], [16, 13, 12, 4, 1, 0])] := by
  decide +kernel

theorem exWanted (t : String) : WantedTrait stock 0 exKw t ↔ t ∈ ["json", "lazy", "safe"] :=
  wanted_of_key registry_stock (by decide +kernel) (by decide) (by decide +kernel) t

example : HasTrait (call 10 stock 0 exKw).2 16 "json" ∧ ¬ HasTrait (call 10 stock 0 exKw).2 16 "v1" := by
  simp only [C57_exact_partial registry_stock (by decide) exCall.1, exWanted]
  decide

example : UniqueTraits stock ∧ ∀ j, ¬ DeclaresTrait stock j "unsafe" := by
  have h : ∀ j T, TypeAt stock j T → (stock.types.map (·.trait))[j]? = some T.trait := by
    intro j T hT
    unfold TypeAt at hT
    simp [hT]
  have ht : stock.types.map (·.trait) = [none, some "lazy", some "ro", none, some "safe", none, some "v1", some "diffas", some "coll", none,
      some "list", some "dict", some "json", none, none, none] := by decide +kernel
  rw [ht] at h
  constructor
  · rintro i j t ⟨T, hT, h1⟩ ⟨S, hS, h2⟩
    have a := h i T hT
    have b := h j S hS
    rw [h1] at a
    rw [h2] at b
    have key : ∀ (i j : Fin 16), ∀ x, [none, some "lazy", some "ro", none, some "safe", none, some "v1", some "diffas", some "coll", none,
      some "list", some "dict", some "json", none, none, none][i]? = some (some x) → [none, some "lazy", some "ro", none, some "safe", none, some "v1", some "diffas", some "coll", none,
      some "list", some "dict", some "json", none, none, none][j]? = some (some x) → i = j := by
      intro i j x h1 h2
      have : ∀ (i j : Fin 16), ([none, some "lazy", some "ro", none, some "safe", none, some "v1", some "diffas", some "coll", none,
      some "list", some "dict", some "json", none, none, none][i]? = [none, some "lazy", some "ro", none, some "safe", none, some "v1", some "diffas", some "coll", none,
      some "list", some "dict", some "json", none, none, none][j]? ∧ [none, some "lazy", some "ro", none, some "safe", none, some "v1", some "diffas", some "coll", none,
      some "list", some "dict", some "json", none, none, none][i]? ≠ some none) → i = j := by decide
      exact this i j ⟨h1.trans h2.symm, by rw [h1]; simp⟩
    have li : i < 16 := typeAt_lt hT
    have lj : j < 16 := typeAt_lt hS
    exact Fin.mk.inj_iff.1 (key ⟨i, li⟩ ⟨j, lj⟩ t a b)
  · rintro j ⟨T, hT, h1⟩
    have a := h j T hT
    rw [h1] at a
    have lj : j < 16 := typeAt_lt hT
    have key : ∀ (i : Fin 16), [none, some "lazy", some "ro", none, some "safe", none, some "v1", some "diffas", some "coll", none,
      some "list", some "dict", some "json", none, none, none][i]? ≠ some (some "unsafe") := by decide
    exact key ⟨j, lj⟩ a

theorem known_of (h : ∀ T ∈ r.types, "__set__" ∈ T.own → "ro" ∈ T.traits ∨ "safe" ∈ T.traits) : SettersKnown r :=
  fun _ T hT => h T (List.mem_of_getElem? hT)

theorem there_of (h : ∀ T ∈ r.types, T.trait = some "ro" ∨ T.trait = some "safe" → "__set__" ∈ T.own) : SettersThere r :=
  fun _ T hT => h T (List.mem_of_getElem? hT)

theorem stock_setters : SettersKnown stock ∧ SettersThere stock := ⟨known_of (by decide +kernel), there_of (by decide +kernel)⟩

-- Property(isa=..., traits=["ro"], json_name=...) is read-only
def exRo : List (String × Kw) := [("isa", .other), ("traits", .list ["ro"]), ("json_name", .other)]

example : ∃ j, MethodFrom (call 10 stock 0 exRo).2 16 "__set__" j ∧ HasTrait (call 10 stock 0 exRo).2 j "ro" := by
  have h : call 10 stock 0 exRo = (.ok 16, (call 10 stock 0 exRo).2) := by decide +kernel
  refine C74_partial (registry_call registry_stock (by decide) h) (known_of (by decide +kernel)) (there_of (by decide +kernel)) ?_ ?_
  · exact C57_traits registry_stock (by decide) h _ ((wanted_of_key (key := ["json", "ro"]) registry_stock (by decide +kernel) (by decide) (by decide +kernel) _).2 (by decide))
  · rw [C57_exact_partial registry_stock (by decide) h, wanted_of_key (key := ["json", "ro"]) registry_stock (by decide +kernel) (by decide) (by decide +kernel)]
    decide

/-! ## What goes wrong -/

-- ListProperty(of=..., traits=["unsafe"])
def exUnsafe : List (String × Kw) := [("of", .other), ("traits", .list ["unsafe"])]

/-- C57 is false of the code: `ListProperty(of=X, traits=["unsafe"])` gives a safe property, since `__new__` of the
base class looks at the chosen type again, without the arguments. -/
theorem C57_violated : ¬ C57_statement := by
  intro h
  have hc : call 10 stock 10 exUnsafe = (.ok 16, (call 10 stock 10 exUnsafe).2) := by decide +kernel
  have := (h stock stock stock 10 10 16 exUnsafe _ registry_stock .refl .refl (by decide +kernel) (by decide) hc).1 "safe"
  rw [wanted_of_key (key := ["coll", "list"]) registry_stock (by decide +kernel) (by decide) (by decide +kernel)] at this
  have hs : HasTrait (call 10 stock 10 exUnsafe).2 16 "safe" := by
    refine ⟨(call 10 stock 10 exUnsafe).2.types[16]'(by decide +kernel), by unfold TypeAt; simp, by decide +kernel⟩
  exact absurd (this.1 hs) (by decide)

/-- C57, the part on histories: what succeeds after some calls succeeds after other calls. -/
def C57_history_statement : Prop := ∀ (r r1 r2 : Reg) (n pt : Nat) (kw : List (String × Kw)) (r1' : Reg), Registry r → CallsFrom r r1 → CallsFrom r r2 →
  KwOnce kw → call n r1 0 kw = (.ok pt, r1') → ∃ m pt2 r2', call m r2 0 kw = (.ok pt2, r2')

-- Property(json_name=..., lazy=True, default=None), after a Property(json_name=..., default=None) and at first
def exJson : List (String × Kw) := [("json_name", .other), ("default", .v1none)]

def exJsonLazy : List (String × Kw) := [("json_name", .other), ("default", .v1none), ("lazy", .other)]

/-- The part on histories is false of the code: `Property(json_name="x", lazy=True, default=None)` raises a `KeyError`
at first, but succeeds after `Property(json_name="y", default=None)`. -/
theorem C57_history_violated : ¬ C57_history_statement := by
  intro h
  have hc : call 10 (call 10 stock 0 exJson).2 0 exJsonLazy = (.ok 17, (call 10 (call 10 stock 0 exJson).2 0 exJsonLazy).2) := by decide +kernel
  obtain ⟨m, pt2, r2', h2⟩ := h stock _ stock 10 17 exJsonLazy _ registry_stock
    (.call (n := 10) (cls := 0) (kw := exJson) .refl (by decide) (by decide +kernel)) .refl (by decide) hc
  cases m with
  | zero =>
    have := call_lt h2 (by simp)
    cases this.2
  | succ m =>
    have h3 := (call_lt h2 (by simp)).2
    have h4 : has stock 0 (mixKw (defaultsT stock 0) exJsonLazy) = (.error .keyError, (has stock 0 (mixKw (defaultsT stock 0) exJsonLazy)).2) := by decide +kernel
    simp only [construct] at h3
    rw [h4] at h3
    cases h3

-- LazySafeProperty(json_name=...)
def exName : List (String × Kw) := [("json_name", .other)]

/-- C73 is false of the code: `LazySafeProperty(json_name="x")` gives an object of a type that does not inherit from
`LazySafeProperty`, so python does not initialise it. -/
theorem C73_violated : ¬ C73_statement := by
  intro h
  have hc : call 10 stock 5 exName = (.ok 16, (call 10 stock 5 exName).2) := by decide +kernel
  obtain ⟨T, hT, h5⟩ := h stock _ 10 5 16 exName registry_stock (by decide) hc
  rw [← mroT_eq hT] at h5
  revert h5
  decide +kernel

theorem owner_of {i j : Nat} {nm : String} (h : MethodFrom r i nm j) : owner r i nm = some j := by
  obtain ⟨T, pre, post, S, h1, h2, h3, h4, h5⟩ := h
  unfold owner
  rw [mroT_eq h1, h2]
  clear h1 h2
  induction pre with
  | nil =>
    have h3 : r.types[j]? = some S := h3
    simp [findOwner, h3, h4]
  | cons d pre ih =>
    have ih := ih (fun d' hd' => h5 d' (List.mem_cons_of_mem _ hd'))
    simp only [List.cons_append, findOwner]
    cases hD : r.types[d]? with
    | none => exact ih
    | some D =>
      have := h5 d List.mem_cons_self D hD
      simp [this, ih]

-- ListProperty(of=..., traits=["ro"], default=())
def exRoList : List (String × Kw) := [("of", .other), ("traits", .list ["ro"]), ("default", .v1none)]

def exRoReg : Reg := (call 10 stock 10 exRoList).2

/-- C74 is false of the code: `ListProperty(of=X, traits=["ro"], default=())` can be assigned to; the `__set__` of
`V1Property` comes first. -/
theorem C74_violated : ¬ C74_statement := by
  intro h
  have hc : call 10 stock 10 exRoList = (.ok 18, exRoReg) := by decide +kernel
  have hro : HasTrait exRoReg 18 "ro" := C57_traits registry_stock (by decide) hc _
    ((wanted_of_key (key := ["coll", "list", "ro", "safe", "v1"]) registry_stock (by decide +kernel) (by decide) (by decide +kernel) _).2 (by decide))
  obtain ⟨j, h1, T, h2, h3⟩ := h exRoReg 18 (registry_call registry_stock (by decide) hc) (known_of (by decide +kernel)) (there_of (by decide +kernel)) hro
  have h4 := owner_of h1
  have h5 : owner exRoReg 18 "__set__" = some 6 := by decide +kernel
  rw [h5] at h4
  cases h4
  rw [← traitsT_eq h2] at h3
  revert h3
  decide +kernel

end Normalize.Traits
