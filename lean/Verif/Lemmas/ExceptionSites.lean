import Verif.Lemmas.Exceptions

/-!
# Lemmas about the places where exceptions are raised

Whether a message can be formatted depends on the sorts of what is passed only; that is checked once for every raise
statement.
-/

namespace Normalize.Exn

open Normalize.Spec

variable {V : Type}

/-- The attributes that objects of a sort have. -/
def kindHas : Kind → String → Bool
  | .cls, a => a == "__name__"
  | .jsonColl, a => a == "__name__" || a == "json_coll_name"
  | .prop, a => a == "name" || a == "fullname"
  | .selector, a => a == "path"
  | .visitor, a => a == "field_selector"
  | _, _ => false

/-- The attributes that objects of a sort lack. -/
def kindLacks : Kind → String → Bool
  | .text, a => a == "__name__"
  | .tuple, a => a == "__name__"
  | _, _ => false

/-- The attributes can be read. -/
def fitsAttrs (k : Kind) : List (List Char) → Bool
  | [] => true
  | [a] => a != [] && kindHas k (String.ofList a)
  | _ => false

/-- The first attribute cannot be read. -/
def failsAttrs (k : Kind) : List (List Char) → Bool
  | [] => false
  | a :: _ => a != [] && kindLacks k (String.ofList a)

/-- The field names a keyword argument for which something holds. -/
def onArg (kws : List (String × Kind)) (f : Kind → List (List Char) → Bool) : List (List Char) → Bool
  | [] => false
  | arg :: attrs =>
    arg != [] && (digits arg).isNone &&
      match alookup kws (String.ofList arg) with
      | none => false
      | some k => f k attrs

/-- The field can be shown. -/
def fits (kws : List (String × Kind)) (f : List Char) : Bool :=
  match splitAt' '!' f with
  | [] => false
  | name :: conv => (conv == [] || conv == [['r']]) && onArg kws fitsAttrs (splitAt' '.' name)

/-- Reading the field ends with `AttributeError`. -/
def fails (kws : List (String × Kind)) (f : List Char) : Bool :=
  match splitAt' '!' f with
  | [] => false
  | name :: _ => onArg kws failsAttrs (splitAt' '.' name)

/-- The message can be formatted. -/
def fitsAll (kws : List (String × Kind)) : List Piece → Bool
  | [] => true
  | .lit _ :: ps => fitsAll kws ps
  | .field f :: ps => fits kws f && fitsAll kws ps
  | .bad :: _ => false

/-- Formatting the message ends with `AttributeError`. -/
def failsAll (kws : List (String × Kind)) : List Piece → Bool
  | [] => false
  | .lit _ :: ps => failsAll kws ps
  | .field f :: ps => fails kws f || (fits kws f && failsAll kws ps)
  | .bad :: _ => false

/-- The name of the first field. -/
def firstName : List Piece → Option String
  | [] => none
  | .lit _ :: ps => firstName ps
  | .bad :: _ => none
  | .field f :: _ =>
    match splitAt' '!' f with
    | [] => none
    | name :: _ =>
      match splitAt' '.' name with
      | [] => none
      | arg :: _ => if arg = [] ∨ (digits arg).isSome = true then none else some (String.ofList arg)

/-- Just text. -/
def onlyText : List Piece → Bool
  | [] => true
  | .lit _ :: ps => onlyText ps
  | _ => false

theorem kindHas_sound (W : World V) (k : Kind) (a : String) (v : V) (h : kindHas k a = true) (hv : IsA W k v) :
    ShowsAttr W v a := by
  cases k <;> simp only [kindHas, Bool.or_eq_true, beq_iff_eq] at h <;> simp only [IsA] at hv
  · cases h
  · subst h; exact hv.2
  · rcases h with rfl | rfl
    · exact hv.2.1
    · exact hv.2.2
  · cases h
  · rcases h with rfl | rfl
    · exact hv.2.1
    · exact hv.2.2
  · subst h; exact hv.2
  · subst h; exact hv.2
  · cases h

theorem kindLacks_sound (W : World V) (k : Kind) (a : String) (v : V) (h : kindLacks k a = true) (hv : IsA W k v) :
    LacksAttr W v a := by
  cases k <;> simp only [kindLacks, beq_iff_eq] at h <;> simp only [IsA] at hv
  · subst h; exact hv.2
  · cases h
  · cases h
  · subst h; exact hv.2
  · cases h
  · cases h
  · cases h
  · cases h

theorem isA_showable (W : World V) (k : Kind) (v : V) (hv : IsA W k v) : Showable W v := by
  cases k <;> simp only [IsA] at hv <;> first | exact hv.1 | exact hv

theorem passes_lookup (W : World V) {kws : List (String × Kind)} {kw : List (String × V)}
    (h : List.Forall₂ (fun (k : String × Kind) (p : String × V) => p.1 = k.1 ∧ IsA W k.2 p.2) kws kw)
    {a : String} {k : Kind} (hk : alookup kws a = some k) : ∃ v : V, alookup kw a = some v ∧ IsA W k v := by
  induction h with
  | nil => cases hk
  | @cons q p kws kw hq _ ih =>
    obtain ⟨b, j⟩ := q
    obtain ⟨c, v⟩ := p
    obtain ⟨rfl, hv⟩ := hq
    simp only [alookup] at hk ⊢
    split at hk
    · next e => rw [if_pos e]; cases hk; exact ⟨v, rfl, hv⟩
    · next e => rw [if_neg e]; exact ih hk

/-- A field that names a keyword argument. -/
theorem onArg_sound (W : World V) (args : List V) {kws : List (String × Kind)} {kw : List (String × V)}
    (h : List.Forall₂ (fun (k : String × Kind) (p : String × V) => p.1 = k.1 ∧ IsA W k.2 p.2) kws kw)
    (f : Kind → List (List Char) → Bool) (ws : List (List Char)) (hw : onArg kws f ws = true) :
    ∃ (arg : List Char) (attrs : List (List Char)) (k : Kind) (v : V),
      ws = arg :: attrs ∧ f k attrs = true ∧ IsA W k v ∧
        ∀ num : Numbering, argument W args kw num arg = (.ok v, num) := by
  cases ws with
  | nil => cases hw
  | cons arg attrs =>
    simp only [onArg, Bool.and_eq_true, bne_iff_ne, Option.isNone_iff_eq_none] at hw
    obtain ⟨⟨hne, hd⟩, hw⟩ := hw
    split at hw
    · cases hw
    · next k hk =>
      obtain ⟨v, hv, hi⟩ := passes_lookup W h hk
      refine ⟨arg, attrs, k, v, rfl, hw, hi, fun num => ?_⟩
      simp only [argument]
      rw [if_neg hne, hd]
      simp only
      rw [hv]

theorem convert_showable (W : World V) (v : V) (hv : Showable W v) (conv : List (List Char))
    (hc : (conv == [] || conv == [['r']]) = true) : ∃ s : String, convert W v conv = .ok s := by
  simp only [Bool.or_eq_true, beq_iff_eq] at hc
  rcases hc with rfl | rfl
  · exact hv.1
  · exact hv.2

theorem fits_sound (W : World V) (args : List V) {kws : List (String × Kind)} {kw : List (String × V)}
    (h : List.Forall₂ (fun (k : String × Kind) (p : String × V) => p.1 = k.1 ∧ IsA W k.2 p.2) kws kw)
    (f : List Char) (hf : fits kws f = true) (num : Numbering) :
    ∃ s : String, fieldText W args kw num f = (.ok s, num) := by
  simp only [fits] at hf
  simp only [fieldText]
  split at hf
  · cases hf
  · next name conv hs =>
    simp only [Bool.and_eq_true] at hf
    obtain ⟨hc, ha⟩ := hf
    obtain ⟨arg, attrs, k, v, hws, hfit, hi, harg⟩ := onArg_sound W args h _ _ ha
    rw [hs]
    simp only
    rw [hws]
    simp only
    rw [harg num]
    simp only [Except.bind]
    have hfw : ∃ w : V, follow W v attrs = .ok w ∧ Showable W w := by
      match attrs, hfit with
      | [], _ => exact ⟨v, rfl, isA_showable W k v hi⟩
      | [a], hfit =>
        simp only [fitsAttrs, Bool.and_eq_true, bne_iff_ne] at hfit
        obtain ⟨w, hw, hs⟩ := kindHas_sound W k _ v hfit.2 hi
        refine ⟨w, ?_, hs⟩
        simp only [follow]
        rw [if_neg hfit.1, hw]
      | _ :: _ :: _, hfit => cases hfit
    obtain ⟨w, hw, hs'⟩ := hfw
    obtain ⟨s, hcs⟩ := convert_showable W w hs' conv hc
    exact ⟨s, by rw [hw]; simp only; rw [hcs]⟩

theorem fails_sound (W : World V) (args : List V) {kws : List (String × Kind)} {kw : List (String × V)}
    (h : List.Forall₂ (fun (k : String × Kind) (p : String × V) => p.1 = k.1 ∧ IsA W k.2 p.2) kws kw)
    (f : List Char) (hf : fails kws f = true) (num : Numbering) :
    (fieldText W args kw num f).1 = .error .attribute := by
  simp only [fails] at hf
  simp only [fieldText]
  split at hf
  · cases hf
  · next name conv hs =>
    obtain ⟨arg, attrs, k, v, hws, hfit, hi, harg⟩ := onArg_sound W args h _ _ hf
    rw [hs]
    simp only
    rw [hws]
    simp only
    rw [harg num]
    simp only [Except.bind]
    match attrs, hfit with
    | [], hfit => cases hfit
    | a :: as, hfit =>
      simp only [failsAttrs, Bool.and_eq_true, bne_iff_ne] at hfit
      have := kindLacks_sound W k _ v hfit.2 hi
      simp only [follow]
      rw [if_neg hfit.1, this]

theorem fitsAll_sound (W : World V) (args : List V) {kws : List (String × Kind)} {kw : List (String × V)}
    (h : List.Forall₂ (fun (k : String × Kind) (p : String × V) => p.1 = k.1 ∧ IsA W k.2 p.2) kws kw)
    (ps : List Piece) (hf : fitsAll kws ps = true) (num : Numbering) :
    ∃ s : String, render W args kw num ps = .ok s := by
  induction ps with
  | nil => exact ⟨"", rfl⟩
  | cons p ps ih =>
    cases p with
    | lit s =>
      obtain ⟨t, ht⟩ := ih hf
      exact ⟨String.ofList s ++ t, by simp only [render]; rw [ht]⟩
    | field f =>
      simp only [fitsAll, Bool.and_eq_true] at hf
      obtain ⟨s, hs⟩ := fits_sound W args h f hf.1 num
      obtain ⟨t, ht⟩ := ih hf.2
      exact ⟨s ++ t, by simp only [render]; rw [hs]; simp only; rw [ht]⟩
    | bad => cases hf

theorem failsAll_sound (W : World V) (args : List V) {kws : List (String × Kind)} {kw : List (String × V)}
    (h : List.Forall₂ (fun (k : String × Kind) (p : String × V) => p.1 = k.1 ∧ IsA W k.2 p.2) kws kw)
    (ps : List Piece) (hf : failsAll kws ps = true) (num : Numbering) :
    render W args kw num ps = .error .attribute := by
  induction ps with
  | nil => cases hf
  | cons p ps ih =>
    cases p with
    | lit s =>
      simp only [render]
      rw [ih hf]
    | field f =>
      simp only [failsAll, Bool.or_eq_true, Bool.and_eq_true] at hf
      simp only [render]
      rcases hf with hf | ⟨hf, hr⟩
      · rw [fails_sound W args h f hf num]
      · obtain ⟨s, hs⟩ := fits_sound W args h f hf num
        rw [hs]
        simp only
        rw [ih hr]
    | bad => cases hf

theorem firstName_sound (W : World V) (args : List V) (ps : List Piece) (k : String) (hk : firstName ps = some k)
    (num : Numbering) : render W args [] num ps = .error (.key [W.ofStr k]) := by
  induction ps with
  | nil => cases hk
  | cons p ps ih =>
    cases p with
    | lit s =>
      simp only [render]
      rw [ih hk]
    | bad => cases hk
    | field f =>
      simp only [firstName] at hk
      have ht : (fieldText W args [] num f).1 = .error (.key [W.ofStr k]) := by
        simp only [fieldText]
        split at hk
        · cases hk
        · next name conv hs =>
          split at hk
          · cases hk
          · next arg attrs ha =>
            split at hk
            · cases hk
            · next hn =>
              rw [not_or] at hn
              obtain ⟨hne, hd⟩ := hn
              have hd' : digits arg = none := by
                cases h : digits arg with
                | none => rfl
                | some n => rw [h] at hd; exact absurd rfl hd
              cases hk
              rw [hs]
              simp only
              rw [ha]
              simp only [argument]
              rw [if_neg hne, hd']
              rfl
      simp only [render]
      rw [ht]

theorem onlyText_sound (W : World V) (ps : List Piece) (h : onlyText ps = true) :
    ∃ s : String, ∀ (args : List V) (kw : List (String × V)) (num : Numbering), render W args kw num ps = .ok s := by
  induction ps with
  | nil => exact ⟨"", fun _ _ _ => rfl⟩
  | cons p ps ih =>
    cases p with
    | lit s =>
      obtain ⟨t, ht⟩ := ih h
      exact ⟨String.ofList s ++ t, fun args kw num => by simp only [render]; rw [ht]⟩
    | field f => cases h
    | bad => cases h

/-! ## The raise statements of the library -/

/-- The pieces of the message of a class. -/
def clsPieces (c : String) : Option (List Piece) := (findCls c).map (fun d => scan none [] d.message.toList)

/-- The class exists and its message can be formatted. -/
def siteFits (s : Site) : Bool :=
  match clsPieces s.cls with
  | none => false
  | some ps => fitsAll s.kwargs ps

/-- There is no such class, or its message cannot be formatted. -/
def siteFails (s : Site) : Bool :=
  match clsPieces s.cls with
  | none => true
  | some ps => failsAll s.kwargs ps

theorem findCls_name {c : String} {d : Cls} (h : findCls c = some d) : d.name = c := by
  simp only [findCls, Option.map_eq_some_iff] at h
  obtain ⟨m, _, rfl⟩ := h
  rfl

theorem siteFits_sound (W : World V) (s : Site) (args : List V) (kw : List (String × V)) (hp : Passes W s args kw)
    (hs : siteFits s = true) :
    ∃ (d : Cls) (t : String), findCls s.cls = some d ∧ format W d.message args kw = .ok t ∧
      ∀ n : Nat, create W (n + 1) s.cls args kw = .ok ⟨d, args, kw, t⟩ := by
  simp only [siteFits, clsPieces] at hs
  cases hd : findCls s.cls with
  | none => rw [hd] at hs; cases hs
  | some d =>
    rw [hd] at hs
    obtain ⟨t, ht⟩ := fitsAll_sound W args hp.2 _ hs .unset
    refine ⟨d, t, rfl, ht, fun n => ?_⟩
    have ht' : format W d.message args kw = .ok t := ht
    simp only [create]
    rw [hd]
    simp only [init]
    rw [ht']

theorem siteFails_sound (W : World V) (s : Site) (args : List V) (kw : List (String × V)) (hp : Passes W s args kw)
    (hs : siteFails s = true) (n : Nat) : create W (n + 1) s.cls args kw = .error (.py .attribute) := by
  simp only [siteFails, clsPieces] at hs
  simp only [create]
  cases hd : findCls s.cls with
  | none => rfl
  | some d =>
    rw [hd] at hs
    have ht : format W d.message args kw = .error .attribute := failsAll_sound W args hp.2 _ hs .unset
    simp only [init]
    rw [ht]

/-- The message can be formatted, unless the place is known to be broken. -/
def siteOk (s : Site) : Bool := if BrokenSite s then siteFails s else siteFits s

/-! In pieces, for the memory that the kernel needs. -/

set_option Elab.async false

theorem sites_ok0 : ((librarySites.drop 0).take 10).all siteOk = true := by decide +kernel

theorem sites_ok1 : ((librarySites.drop 10).take 10).all siteOk = true := by decide +kernel

theorem sites_ok2 : ((librarySites.drop 20).take 10).all siteOk = true := by decide +kernel

theorem sites_ok3 : ((librarySites.drop 30).take 10).all siteOk = true := by decide +kernel

theorem sites_ok4 : ((librarySites.drop 40).take 10).all siteOk = true := by decide +kernel

theorem sites_ok5 : ((librarySites.drop 50).take 10).all siteOk = true := by decide +kernel

theorem sites_ok6 : ((librarySites.drop 60).take 10).all siteOk = true := by decide +kernel

theorem sites_ok7 : ((librarySites.drop 70).take 10).all siteOk = true := by decide +kernel

theorem all_pieces {α : Type} (f : α → Bool) (n : Nat) (l : List α) (h1 : (l.take n).all f = true)
    (h2 : (l.drop n).all f = true) : l.all f = true := by
  rw [← List.take_append_drop n l, List.all_append, h1, h2]
  rfl

theorem sites_ok : librarySites.all siteOk = true := by
  refine all_pieces _ 10 _ sites_ok0 ?_
  refine all_pieces _ 10 _ sites_ok1 ?_
  rw [List.drop_drop]
  refine all_pieces _ 10 _ sites_ok2 ?_
  rw [List.drop_drop]
  refine all_pieces _ 10 _ sites_ok3 ?_
  rw [List.drop_drop]
  refine all_pieces _ 10 _ sites_ok4 ?_
  rw [List.drop_drop]
  refine all_pieces _ 10 _ sites_ok5 ?_
  rw [List.drop_drop]
  refine all_pieces _ 10 _ sites_ok6 ?_
  rw [List.drop_drop]
  refine all_pieces _ 10 _ sites_ok7 ?_
  rw [List.drop_drop]
  rfl

theorem sites_fit : ∀ s : Site, s ∈ librarySites → ¬ BrokenSite s → siteFits s = true := by
  intro s hs hb
  have h := List.all_eq_true.1 sites_ok s hs
  simp only [siteOk, if_neg hb] at h
  exact h

theorem sites_fail : ∀ s : Site, s ∈ librarySites → BrokenSite s → siteFails s = true := by
  intro s hs hb
  have h := List.all_eq_true.1 sites_ok s hs
  simp only [siteOk, if_pos hb] at h
  exact h

end Normalize.Exn
