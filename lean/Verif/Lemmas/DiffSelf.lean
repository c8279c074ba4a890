import Verif.Lemmas.Diff

/-!
# Comparing a value with itself
-/

namespace Normalize.Diff
open Ident (IProp ICls Ty ItemTy CollKind Schema readAttr)
open Gen

variable {E F : Type} [DecidableEq E] [DecidableEq F] {H : Hooks E F} {o : Opts}

theorem simpleBag_nodup {a x : Option Val} {A : List (Ent (Option F))} (h : simpleBag H o a x = .ok A) :
    (A.map (·.1)).Nodup := by
  unfold simpleBag at h
  split at h
  · simp at h
  · split at h
    · simp at h
    · simp at h
      subst h
      exact number_nodup _ _

theorem collBag_nodup {ty : Option Ty} {ia : IdArgs} {fa : FS} {x : Option Val} {A : List (Ent (Id E))}
    (h : collBag H o ty ia fa x = .ok A) : (A.map (·.1)).Nodup := by
  unfold collBag at h
  split at h
  · simp at h
  · split at h
    · simp at h
    · simp at h
      subst h
      exact number_nodup _ _

theorem common_self {J : Type} [DecidableEq J] {A : List (Ent J)} (hn : (A.map (·.1)).Nodup) {k : Comp × Comp}
    (h : k ∈ common A A) : k.1 = k.2 := by
  obtain ⟨i, hi, hk⟩ := mem_common.1 h
  have := alookup_nodup hn hi
  simp only at this
  rw [this] at hk
  simpa using hk

theorem quiet_matched {fa fb : FS} {k : Comp × Comp} (h : k.1 = k.2) : Quiet (matched o fa fb k) := by
  unfold matched
  rw [if_neg (by simp [h])]
  exact quiet_when (quiet_noChange _ _)

theorem quiet_bags (ho : OrdOK H) {fa fb : FS} {A : List (Ent (Option F))} (hn : (A.map (·.1)).Nodup) :
    Quiet (compareBags H o fa fb A A) := by
  unfold compareBags
  have hm : modifiedKeys (minus A A) (minus A A) = [] := by simp [minus_self, modifiedKeys]
  rw [hm]
  simp only [minus_self, ho.nil, forEach_nil, append_nil]
  exact quiet_when (quiet_forEach fun k hk => quiet_matched (common_self hn (ho.mem.1 hk)))

theorem quiet_simple (ho : OrdOK H) {fa fb : FS} (a : Option Val) : Quiet (compareSimple H o a a fa fb) :=
  quiet_bindE fun A hA => quiet_bindE fun B hB => by
    rw [hA] at hB
    simp at hB
    subst hB
    exact quiet_bags ho (simpleBag_nodup hA)

/-- Comparing a value with itself yields nothing, for `rec`. -/
def RecQuiet (T : Val → Prop) (rec : Rec) : Prop := ∀ x fa fb, T x → Quiet (rec (some x) (some x) fa fb)

variable {T : Val → Prop}

theorem quiet_prop (hT : Spec.Closed H T) {rec : Rec} (hr : RecQuiet T rec)
    (he : ∀ x, T x → H.itemsEqual x x ≠ .ok false) {a : Option Val} (ha : OnO T a)
    {fa fb : FS} (p : IProp) : Quiet (compareProp H o rec a a fa fb p) := by
  refine quiet_when (quiet_bindE fun va hva => quiet_bindE fun vb hvb => ?_)
  have hv := closed_slot hT ha hva
  rw [hva] at hvb
  simp at hvb
  subst hvb
  cases va with
  | none => exact quiet_nil
  | some x =>
    unfold compareVals
    simp only
    split
    · exact hr x _ _ (hv x rfl)
    · refine quiet_bindE fun eq heq => ?_
      cases eq with
      | false => exact absurd heq (he x (hv x rfl))
      | true => exact quiet_when (quiet_noChange _ _)

theorem quiet_record (hT : Spec.Closed H T) {rec : Rec} (hr : RecQuiet T rec)
    (he : ∀ x, T x → H.itemsEqual x x ≠ .ok false) {a : Option Val} (ha : OnO T a)
    {fa fb : FS} : Quiet (compareRecord H o rec a a fa fb) := by
  unfold compareRecord
  split
  · exact quiet_raise _
  · exact quiet_forEach fun p _ => quiet_prop hT hr he ha p

theorem fuzzy_nil (ho : OrdOK H) : fuzzyMatch H [] [] = .ok [] := by
  unfold fuzzyMatch
  rw [ho.nil]
  rfl

theorem quiet_members (hT : Spec.Closed H T) (ho : OrdOK H) {rec : Rec} (hr : RecQuiet T rec) {a : Option Val}
    (ha : OnO T a) {fa fb : FS}
    {A : List (Ent (Id E))} (hn : (A.map (·.1)).Nodup) : Quiet (compareMembers H o rec a a fa fb A A) := by
  unfold compareMembers
  split
  · unfold compareKeys
    have h0 : (A.map (·.2)).dedup.filter (fun k => !decide (k ∈ A.map (·.2))) = [] := by
      rw [List.filter_eq_nil_iff]
      intro k hk
      rw [List.mem_dedup] at hk
      simp [hk]
    rw [h0, ho.nil]
    simp only [forEach_nil, append_nil]
    refine quiet_forEach fun k _ => quiet_when (quiet_bindE fun x hx => quiet_bindE fun y hy => ?_)
    have hx' := closed_item hT ha hx
    rw [hx] at hy
    simp at hy
    subst hy
    exact hr x _ _ hx'
  · split
    · unfold compareOne
      rw [minus_self]
      simp only [List.append_nil, ho.nil]
      exact quiet_nil
    · unfold compareIds
      have hp : pairsOf H o A A = .ok [] := by
        unfold pairsOf
        split
        · rw [minus_self]
          exact fuzzy_nil ho
        · rfl
      rw [hp, minus_self]
      simp only [bindE_ok, forEach_nil, List.filter_nil, ho.nil, append_nil, nil_append]
      refine quiet_append (quiet_when (quiet_forEach fun k hk => ?_))
        (quiet_when (quiet_forEach fun k hk => quiet_matched (common_self hn (ho.mem.1 hk))))
      have hk' := common_self hn (ho.mem.1 hk)
      refine quiet_bindE fun x hx => quiet_bindE fun y hy => ?_
      have hx' := closed_item hT ha hx
      rw [← hk', hx] at hy
      simp at hy
      subst hy
      exact hr x _ _ hx'

theorem quiet_coll (hT : Spec.Closed H T) (ho : OrdOK H) {rec : Rec} (hr : RecQuiet T rec) {c : String}
    {a : Option Val} (ha : OnO T a) {fa fb : FS} : Quiet (compareColl H o rec c a a fa fb) := by
  unfold compareColl
  split
  · exact quiet_raise _
  · exact quiet_raise _
  · exact quiet_simple ho a
  · refine quiet_bindE fun ia _ => quiet_when (quiet_bindE fun A hA => quiet_bindE fun B hB => ?_)
    rw [hA] at hB
    simp at hB
    subst hB
    exact quiet_members hT ho hr ha (collBag_nodup hA)

theorem onO_some {x : Val} (h : T x) : OnO T (some x) := by
  intro y hy
  simp at hy
  exact hy ▸ h

theorem onO_none : OnO T none := by intro y hy; simp at hy

theorem quiet_diffIter (hT : Spec.Closed H T) (ho : OrdOK H) (he : ∀ x, T x → H.itemsEqual x x ≠ .ok false) :
    ∀ n, RecQuiet T (diffIter H o n)
  | 0 => fun x fa fb _ => quiet_raise _
  | n + 1 => fun x fa fb hx => by
    have ih := quiet_diffIter hT ho he n
    show Quiet (dispatch H o (diffIter H o n) (some x) (some x) fa fb)
    unfold dispatch
    cases x with
    | atom a => exact quiet_nil
    | list xs => exact quiet_simple ho _
    | dict xs => exact quiet_simple ho _
    | rcd c s => exact quiet_record hT ih he (onO_some hx)
    | lcoll c xs => exact quiet_append (quiet_coll hT ho ih (onO_some hx)) (quiet_record hT ih he (onO_some hx))
    | dcoll c xs => exact quiet_append (quiet_coll hT ho ih (onO_some hx)) (quiet_record hT ih he (onO_some hx))

end Normalize.Diff
