import Verif.Spec.DiffCompare
import Verif.Lemmas.Diff
import Verif.Lemmas.Identity

/-!
# The default methods meet the assumptions of the diff theorems
-/

namespace Normalize.Diff
open Ident (IProp Sub WF Schema readAttr)
open Spec (Real ItemsOK PlainSlots Closed TupIds CompareFlat)

theorem normSlot_plain {D : Setup} (hc : ∀ p, D.compareAs p = none) {v w : Val} {p : IProp} {obj : Option Val}
    (h : D.hooks.normSlot (some v) p obj = .ok (some w)) : w = scrub D.U D.text v := by
  have h' : normalizeVal D.U D.text (some v) = some w := by
    have h1 : normalizeObjectSlot D (some v) p obj = .ok (some w) := h
    simpa [normalizeObjectSlot, hc p] using h1
  simp only [normalizeVal] at h'
  split at h'
  · simp at h'
  · simpa using h'.symm

/-- The normalised value, with such functions for `compare_as`. -/
theorem normSlot_flat {D : Setup} (hc : CompareFlat D) {v w : Val} {p : IProp} {obj : Option Val}
    (h : D.hooks.normSlot (some v) p obj = .ok (some w)) :
    w = scrub D.U D.text v ∨ ((∃ a, v = .atom a) ∧ ∃ a, w = .atom a) := by
  have h1 : normalizeObjectSlot D (some v) p obj = .ok (some w) := h
  have key : ∀ y, normalizeVal D.U D.text (some y) = some w → w = scrub D.U D.text y := by
    intro y hy
    simp only [normalizeVal] at hy
    split at hy
    · simp at hy
    · simpa using hy.symm
  simp only [normalizeObjectSlot] at h1
  cases hf : D.compareAs p with
  | none =>
    simp only [hf] at h1
    exact .inl (key v (by simpa using h1))
  | some f =>
    simp only [hf] at h1
    cases hy : f (obj.getD .none) v with
    | error e => simp [hy] at h1
    | ok y =>
      simp only [hy] at h1
      have hw := key y (by simpa using h1)
      rcases hc p f _ v y hf hy with rfl | ⟨hv, a, rfl⟩
      · exact .inl hw
      · right
        refine ⟨hv, ?_⟩
        cases a <;> exact ⟨_, hw⟩

/-- The default methods leave everything but values without parts alone if `compare_as` does. -/
theorem plain_default (D : Setup) (hc : CompareFlat D) : PlainSlots D.hooks where
  unset p obj := rfl
  keeps v p obj w h hw := by
    rcases normSlot_flat hc h with hv | ⟨⟨a, rfl⟩, b, rfl⟩
    · cases v with
      | atom a =>
        exfalso
        cases a <;> (simp [scrub] at hv; subst hv; simp [comparable, tagOf] at hw)
      | _ => exact hv
    · simp [comparable, tagOf] at hw

theorem _root_.Normalize.Spec.Real.sub {S : Schema} {v w : Val} (h : Real S v) (hs : ∀ u, Sub u w → Sub u v) : Real S w :=
  ⟨fun u hu => h.1 u (hs u hu), fun u hu => h.2 u (hs u hu)⟩

theorem _root_.Normalize.Spec.Real.atom {S : Schema} (a : Atom) : Real S (.atom a) :=
  ⟨WF.atom a, fun w hw => by cases hw; trivial⟩

theorem _root_.Normalize.Spec.Real.mk {S : Schema} {v : Val} (h : Ident.Proper S v) (hi : ItemsOK S v)
    (hs : ∀ u, Sub u v → u = v ∨ ∃ w, Real S w ∧ Sub u w) : Real S v := by
  refine ⟨fun u hu => ?_, fun u hu => ?_⟩
  · rcases hs u hu with rfl | ⟨w, hw, hw'⟩
    · exact h
    · exact hw.1 u hw'
  · rcases hs u hu with rfl | ⟨w, hw, hw'⟩
    · exact hi
    · exact hw.2 u hw'

theorem _root_.Normalize.Spec.Real.list {S : Schema} {xs : List Val} (h : ∀ x ∈ xs, Real S x) : Real S (.list xs) :=
  .mk trivial trivial (fun u hu => by
    cases hu with
    | self => exact .inl rfl
    | list hx hu => exact .inr ⟨_, h _ hx, hu⟩)

theorem _root_.Normalize.Spec.Real.lcoll {S : Schema} {c : String} {xs : List Val} (hi : ItemsOK S (.lcoll c xs))
    (h : ∀ x ∈ xs, Real S x) : Real S (.lcoll c xs) :=
  .mk trivial hi (fun u hu => by
    cases hu with
    | self => exact .inl rfl
    | lcoll hx hu => exact .inr ⟨_, h _ hx, hu⟩)

theorem _root_.Normalize.Spec.Real.dict {S : Schema} {xs : List (Comp × Val)} (hn : (xs.map (·.1)).Nodup)
    (h : ∀ x ∈ xs, Real S x.2) : Real S (.dict xs) :=
  .mk hn trivial (fun u hu => by
    cases hu with
    | self => exact .inl rfl
    | dict hx hu => exact .inr ⟨_, h _ hx, hu⟩)

theorem _root_.Normalize.Spec.Real.dcoll {S : Schema} {c : String} {xs : List (Comp × Val)} (hn : (xs.map (·.1)).Nodup)
    (hi : ItemsOK S (.dcoll c xs)) (h : ∀ x ∈ xs, Real S x.2) : Real S (.dcoll c xs) :=
  .mk hn hi (fun u hu => by
    cases hu with
    | self => exact .inl rfl
    | dcoll hx hu => exact .inr ⟨_, h _ hx, hu⟩)

theorem _root_.Normalize.Spec.Real.rcd {S : Schema} {c : String} {xs : List (String × Val)} (hp : Ident.Proper S (.rcd c xs))
    (hc : (S.cls c).coll = none) (h : ∀ x ∈ xs, Real S x.2) : Real S (.rcd c xs) :=
  .mk hp hc (fun u hu => by
    cases hu with
    | self => exact .inl rfl
    | rcd hx hu => exact .inr ⟨_, h _ hx, hu⟩)

theorem enum_mem_list {xs : List Val} {k : Comp} {v : Val} (h : (k, v) ∈ Ident.enum xs) : v ∈ xs := by
  simp [Ident.enum] at h
  obtain ⟨n, hn, _⟩ := h
  have := List.mem_zipIdx_iff_getElem?.1 hn
  simp at this
  exact List.mem_of_getElem? this

theorem sub_member {x v : Val} {xs : List (Comp × Val)} {k : Comp} (h : tuplesOf (some x) = .ok xs)
    (hm : (k, v) ∈ xs) : ∀ u, Sub u v → Sub u x := by
  intro u hu
  cases x with
  | atom a => simp [tuplesOf] at h
  | rcd c s => simp [tuplesOf] at h
  | list ys => simp [tuplesOf] at h; subst h; exact .list (enum_mem_list hm) hu
  | lcoll c ys => simp [tuplesOf] at h; subst h; exact .lcoll (enum_mem_list hm) hu
  | dict ys => simp [tuplesOf] at h; subst h; exact .dict hm hu
  | dcoll c ys => simp [tuplesOf] at h; subst h; exact .dcoll hm hu

theorem real_readAttr {S : Schema} {x v : Val} {nm : String} (hx : Real S x) (h : readAttr S x nm = some v) :
    Real S v := by
  cases x with
  | rcd c s =>
    simp only [readAttr] at h
    split at h
    · rename_i w hw
      simp at h
      subst h
      exact Real.sub hx (fun u hu => .rcd (alookup_mem' hw) hu)
    · cases hu : Ident.unsetOf S c nm with
      | none => simp [hu] at h
      | some a =>
        simp [hu] at h
        subst h
        exact Real.atom a
  | _ => simp [readAttr] at h

theorem real_scrub {S : Schema} (U : Unicode) (t : TextOpts) {v : Val} (h : Real S v) : Real S (scrub U t v) := by
  cases v with
  | atom a => cases a <;> (simp only [scrub]; exact Real.atom _)
  | _ => exact h

/-- Real objects are closed under what the default methods do. -/
theorem closed_default (D : Setup) (hc : CompareFlat D) : Closed D.hooks (Real D.S) where
  slot x p v hx h := by
    cases hr : readAttr D.S x p.name with
    | none =>
      have h' : D.hooks.normSlot (readAttr D.S x p.name) p (some x) = .ok (some v) := h
      rw [hr] at h'
      have h2 : (Except.ok none : Except Exc (Option Val)) = .ok (some v) := h'
      simp at h2
    | some w =>
      have h' : D.hooks.normSlot (readAttr D.S x p.name) p (some x) = .ok (some v) := h
      rw [hr] at h'
      rcases normSlot_flat hc h' with rfl | ⟨_, a, rfl⟩
      · exact real_scrub _ _ (real_readAttr hx hr)
      · exact .atom a
  unset p v h := by
    have h2 : (Except.ok none : Except Exc (Option Val)) = .ok (some v) := h
    simp at h2
  member x xs k v hx h hm := Real.sub hx (sub_member h hm)

theorem rid_cls_tup {S : Schema} {nos : Option Ident.SlotHook} {n : Nat} {c : String} {s : Option Heads} {v : Val}
    {k : Ident.Key} (h : Ident.rid S nos n (.cls c) s v = .ok k) : ∃ ks, k = .tup ks := by
  have ht : ∀ r : Except Exc (List Ident.Key), Ident.asTuple r = .ok k → ∃ ks, k = .tup ks := by
    intro r hr
    cases r with
    | error e => simp [Ident.asTuple] at hr
    | ok ks => simp [Ident.asTuple] at hr; exact ⟨ks, hr.symm⟩
  cases n with
  | zero => simp [Ident.rid] at h
  | succ n =>
    simp only [Ident.rid] at h
    split at h
    · split at h
      · simp at h
      · exact ht _ h
    · exact ht _ h

theorem recordIdOf_tup {D : Setup} {ty : Option Ident.Ty} {s : Option Heads} {v : Val} {i : Id Ident.Key}
    (ht : ∃ c, ty.getD (Ident.typeOf v) = .cls c) (h : recordIdOf D ty s v = .ok i) : i.isTup = true := by
  obtain ⟨c, hc⟩ := ht
  unfold recordIdOf at h
  rw [hc] at h
  split at h
  · simp at h
  · rename_i k hk
    obtain ⟨ks, rfl⟩ := rid_cls_tup hk
    split at h
    · simp at h
    · simp [idOfKey] at h
      subst h
      rfl

theorem typeOf_cls {v : Val} (h : clsOf v ≠ none) : ∃ c, Ident.typeOf v = .cls c := by
  cases v <;> simp [clsOf] at h <;> exact ⟨_, rfl⟩

/-- The default identities of members of collections of records are tuples. -/
theorem tupIds_default (D : Setup) : TupIds D.hooks (Real D.S) := by
  intro x c n kd xs k v ty s i hx hc hcoll ht hm hty hi
  refine recordIdOf_tup (D := D) ?_ hi
  rcases hty with rfl | rfl
  · have hI := hx.2 x (.self x)
    cases x with
    | lcoll c' ys =>
      simp [clsOf] at hc
      subst hc
      simp [tuplesOf] at ht
      subst ht
      exact typeOf_cls (hI.2 kd n hcoll v (enum_mem_list hm))
    | dcoll c' ys =>
      simp [clsOf] at hc
      subst hc
      simp [tuplesOf] at ht
      subst ht
      exact typeOf_cls (hI.2 kd n hcoll (k, v) hm)
    | rcd c' s => simp [tuplesOf] at ht
    | _ => simp [clsOf] at hc
  · exact ⟨n, rfl⟩

end Normalize.Diff
