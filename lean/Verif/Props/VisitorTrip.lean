import Verif.Spec.VisitorTrip
import Verif.Props.VisitorCue
import Verif.Props.JsonBack
import Mathlib.Tactic.Choose

/-!
# C53: `cast` undoes `visit`
-/

namespace Normalize.Visit
open Ident (IProp Ty ItemTy CollKind veq WF AtomLaws)
open Json (Setup Mk JInfo clsOf instOf typeSafe IsContainer)
open Spec

variable {J : Setup} {o : Opts} {H : Hooks} {self : IProp → Val} {ap rev : Leaf} {sel : Option (List FS)}
  {Q : Val → Val → Prop}

/-! ## What the loops give if nothing fails -/

/-- The result for one property. -/
def showOne (o : Opts) (cue : FS) (g : IProp → Slot) (f : IProp → Val) (p : IProp) : Option Val :=
  if isFiltered o cue p then none else if wanted o (g p) then keep o (f p) else none

/-- The results for the properties. -/
def shown (o : Opts) (cue : FS) (g : IProp → Slot) (f : IProp → Val) : List IProp → List (IProp × Val)
  | [] => []
  | p :: ps => addKept p (showOne o cue g f p) (shown o cue g f ps)

theorem mapRecord_eq {go : Go} {get : IProp → Except Exc Val} {cue : FS} {g : IProp → Slot} {f : IProp → Val} :
    ∀ (ps : List IProp), (∀ p ∈ ps, isFiltered o cue p = false → fetch get (push cue (.str p.name)) p = .ok (g p) ∧
      (wanted o (g p) = true → mapProp J H go (g p) p (push cue (.str p.name)) = .ok (f p))) →
    mapRecord J H o go get ps cue = .ok (shown o cue g f ps)
  | [], _ => rfl
  | p :: ps, h => by
    have h1 : mapSlot J H o go get cue p = .ok (showOne o cue g f p, cue) := by
      unfold mapSlot showOne
      simp only [pop_push]
      cases hf : isFiltered o cue p with
      | true => rfl
      | false =>
        obtain ⟨h2, h3⟩ := h p List.mem_cons_self hf
        simp only [h2]
        cases hw : wanted o (g p) with
        | false => rfl
        | true => simp only [h3 hw]; rfl
    unfold mapRecord
    rw [h1]
    simp only
    rw [mapRecord_eq ps (fun q hq => h q (List.mem_cons_of_mem _ hq))]
    rfl

theorem shown_mem {cue : FS} {g : IProp → Slot} {f : IProp → Val} {p : IProp} {w : Val} : ∀ (ps : List IProp),
    (p, w) ∈ shown o cue g f ps ↔ p ∈ ps ∧ showOne o cue g f p = some w
  | [] => by simp [shown]
  | q :: ps => by
    have ih : (p, w) ∈ shown o cue g f ps ↔ p ∈ ps ∧ showOne o cue g f p = some w := shown_mem ps
    unfold shown
    cases hq : showOne o cue g f q with
    | none =>
      simp only [addKept, ih, List.mem_cons]
      constructor
      · exact fun h => ⟨.inr h.1, h.2⟩
      · rintro ⟨rfl | h, h2⟩
        · rw [hq] at h2; cases h2
        · exact ⟨h, h2⟩
    | some v =>
      simp only [addKept, List.mem_cons, ih, Prod.mk.injEq]
      constructor
      · rintro (⟨rfl, rfl⟩ | h)
        · exact ⟨.inl rfl, hq⟩
        · exact ⟨.inr h.1, h.2⟩
      · rintro ⟨rfl | h, h2⟩
        · rw [hq] at h2; cases h2; exact .inl ⟨rfl, rfl⟩
        · exact .inr ⟨h, h2⟩

theorem shown_sub {cue : FS} {g : IProp → Slot} {f : IProp → Val} : ∀ (ps : List IProp),
    List.Sublist ((named (shown o cue g f ps)).map (·.1)) (ps.map (·.name))
  | [] => by simp [shown, named]
  | q :: ps => by
    have ih : List.Sublist ((named (shown o cue g f ps)).map (·.1)) (ps.map (·.name)) := shown_sub ps
    unfold shown
    cases showOne o cue g f q with
    | none => exact ih.cons _
    | some v => exact ih.cons₂ _

theorem shown_lookup {cue : FS} {g : IProp → Slot} {f : IProp → Val} {ps : List IProp}
    (hn : (ps.map (·.name)).Nodup) {p : IProp} (hp : p ∈ ps) :
    alookup (named (shown o cue g f ps)) p.name = showOne o cue g f p := by
  have hnd : ((named (shown o cue g f ps)).map (·.1)).Nodup := (shown_sub ps).nodup hn
  cases hs : showOne o cue g f p with
  | some w =>
    refine Ident.alookup_of_mem (x := (p.name, w)) hnd ?_
    have := (shown_mem (o := o) (cue := cue) (g := g) (f := f) (p := p) (w := w) ps).2 ⟨hp, hs⟩
    exact List.mem_map.2 ⟨(p, w), this, rfl⟩
  | none =>
    cases ha : alookup (named (shown o cue g f ps)) p.name with
    | none => rfl
    | some w =>
      exfalso
      have := Mfs.alookup_mem ha
      simp only [named, List.mem_map, Prod.mk.injEq] at this
      obtain ⟨⟨q, w'⟩, hq, h1, rfl⟩ := this
      have hq' := (shown_mem ps).1 hq
      have : q = p := by
        have := List.inj_on_of_nodup_map hn hq'.1 hp h1
        exact this
      subst this
      rw [hs] at hq'
      cases hq'.2

theorem asDict_lookup (l : List (String × Val)) (k : String) : alookup (asDict l) (.str k) = alookup l k := by
  induction l with
  | nil => rfl
  | cons x l ih =>
    obtain ⟨k', v⟩ := x
    by_cases h : k' = k
    · simp [asDict, alookup, h]
    · have h1 : alookup (asDict ((k', v) :: l)) (.str k) = alookup (asDict l) (.str k) := by
        simp [asDict, alookup, h]
      have h2 : alookup ((k', v) :: l) k = alookup l k := by simp [alookup, h]
      rw [h1, h2, ih]

theorem mapColl_eq {go : Go} {t it : Ty} {cue : FS} {f : Comp × Val → Val} (hit : itemType J t = .ok it) :
    ∀ (xs : List (Comp × Val)), (∀ y ∈ xs, go (.val y.2) it (cue ++ [y.1]) = .ok (f y) ∧ Kept o (f y)) →
    mapColl J o go t xs cue = .ok (xs.map (fun y => (y.1, f y)))
  | [], _ => rfl
  | (k, v) :: xs, h => by
    obtain ⟨h1, h2⟩ := h (k, v) List.mem_cons_self
    unfold mapColl
    rw [hit]
    simp only [pop_push]
    rw [show push cue k = cue ++ [k] from rfl, h1]
    simp only
    rw [mapColl_eq hit xs (fun y hy => h y (List.mem_cons_of_mem _ hy)), keep_eq, if_pos h2]
    rfl

theorem enum_map (f : Comp × Val → Val) (xs : List Val) :
    Ident.enum ((Ident.enum xs).map f) = (Ident.enum xs).map (fun y => (y.1, f y)) := by
  apply List.ext_getElem?
  intro i
  rw [enum_numbered, List.getElem?_map, List.getElem?_map, enum_numbered]
  cases xs[i]? <;> rfl

/-! ## There and back -/

/-- What is to be shown for a record or collection. -/
def TripGood (Q : Val → Val → Prop) (J : Setup) (self : IProp → Val) (o : Opts)
    (ap rev : Leaf) (mk : Mk) (path : FS) (v : Val) : Prop :=
  ∃ d j, clsOf v = some d ∧ IsContainer j ∧
    (∃ n0, ∀ n, n0 ≤ n → map J (visitHooks J self o ap) o n (.val v) (.cls d) path = .ok j) ∧
    ∃ n0, ∀ n, n0 ≤ n → ∃ w, map J (castHooks J mk o rev) o n (.val j) (.cls d) path = .ok w ∧ clsOf w = some d ∧
      Q w v

/-- What is to be shown for a slot that is shown as `j`. -/
def FieldTrip (Q : Val → Val → Prop) (J : Setup) (self : IProp → Val) (o : Opts)
    (ap rev : Leaf) (mk : Mk) (path : FS) (c : String) (p : IProp)
    (v j : Val) : Prop :=
  Kept o j ∧
  (∃ n0, ∀ n, n0 ≤ n →
    mapProp J (visitHooks J self o ap) (map J (visitHooks J self o ap) o n) (.val v) p path = .ok j) ∧
  ∃ n0, ∀ n, n0 ≤ n → ∃ w u,
    mapProp J (castHooks J mk o rev) (map J (castHooks J mk o rev) o n) (.val j) p path = .ok w ∧ Kept o w ∧
    typeSafe J mk (J.info c p.name) p.types w = .ok (some u) ∧ Q u v

/-- What is to be shown for an item that is shown as `j`. -/
def ItemTrip (Q : Val → Val → Prop) (J : Setup) (self : IProp → Val) (o : Opts)
    (ap rev : Leaf) (mk : Mk) (path : FS) (t : Ty) (v j : Val) :
    Prop :=
  Kept o j ∧
  (∃ n0, ∀ n, n0 ≤ n → map J (visitHooks J self o ap) o n (.val v) t path = .ok j) ∧
  ∃ n0, ∀ n, n0 ≤ n → ∃ w, map J (castHooks J mk o rev) o n (.val j) t path = .ok w ∧ Kept o w ∧
    instOf J t w = true ∧ Q w v

theorem container_kept {j : Val} (h : IsContainer j) : Kept o j := by
  rcases h with ⟨xs, rfl⟩ | ⟨xs, rfl⟩ <;> exact ⟨fun h => (by cases h.1), fun h => (by cases h.1)⟩

theorem cls_kept {w : Val} {d : String} (h : clsOf w = some d) : Kept o w := by
  cases w <;> simp [clsOf] at h <;> exact ⟨fun h => (by cases h.1), fun h => (by cases h.1)⟩

/-- A slot without record types. -/
theorem mapProp_leaf (hJ : SchemaOK J) {go : Go} {p : IProp} {v : Val} {path : FS} (h : ∀ d, .cls d ∉ p.types)
    (hc : p.types = [] → clsOf v = none) : mapProp J H go (.val v) p path = H.apply (.val v) (some p) path := by
  have hu : mapUnion J H go (.val v) p path = H.apply (.val v) (some p) path := by
    have h1 : p.types.filter (fun t => isCls t && isMatch J (.val v) t) = [] := by
      rw [List.filter_eq_nil_iff]
      intro t ht
      cases t with
      | cls d => exact absurd ht (h d)
      | other n => simp [isCls]
    have h2 : p.types.filter isCls = [] := by
      rw [List.filter_eq_nil_iff]
      intro t ht
      cases t with
      | cls d => exact absurd ht (h d)
      | other n => simp [isCls]
    have hn : Json.falsy J .none = true := hJ.noneFalse
    simp [mapUnion, h1, h2, tryTypes, hn]
  unfold mapProp
  match hp : p.types with
  | [] => simp only [hc hp]
  | [.cls d] => exact absurd (by rw [hp]; simp) (h d)
  | [.other n] => rfl
  | a :: _ :: _ => cases a <;> exact hu

theorem recordTypes_mem {d : String} : ∀ {ts : List Ty}, d ∈ recordTypes ts → .cls d ∈ ts
  | [], h => by cases h
  | .cls e :: ts, h => by
    rcases List.mem_cons.1 h with rfl | h
    · exact List.mem_cons_self
    · exact List.mem_cons_of_mem _ (recordTypes_mem h)
  | .other _ :: ts, h => List.mem_cons_of_mem _ (recordTypes_mem h)

theorem recordTypes_filter : ∀ (ts : List Ty), ts.filter isCls = (recordTypes ts).map .cls
  | [] => rfl
  | .cls e :: ts => by
    show Ty.cls e :: ts.filter isCls = _
    rw [recordTypes_filter ts]; rfl
  | .other _ :: ts => by
    show ts.filter isCls = _
    rw [recordTypes_filter ts]; rfl

/-- A slot with one record type: a record of the type, or data for it. -/
theorem mapProp_one {go : Go} {p : IProp} {v r : Val} {path : FS} {d : String} (h : recordTypes p.types = [d])
    (hv : instOf J (.cls d) v = true ∨ clsOf v = none)
    (ht : instOf J (.cls d) v = true ∨ p.types = [.cls d] ∨ Json.falsy J r = false)
    (hg : go (.val v) (.cls d) path = .ok r) : mapProp J H go (.val v) p path = .ok r := by
  have hfc : p.types.filter isCls = [.cls d] := by rw [recordTypes_filter, h]; rfl
  have hff : p.types.filter (fun t => isCls t && isMatch J (.val v) t) =
      [Ty.cls d].filter (isMatch J (.val v)) := by
    rw [← hfc, List.filter_filter]
    exact List.filter_congr (fun t _ => Bool.and_comm _ _)
  have hu : p.types ≠ [.cls d] → mapUnion J H go (.val v) p path = .ok r := by
    intro hne
    unfold mapUnion
    rw [hff, hfc]
    cases hi : instOf J (.cls d) v with
    | true =>
      have : [Ty.cls d].filter (isMatch J (.val v)) = [.cls d] := by simp [isMatch, hi]
      rw [this]
      simp only [List.isEmpty_cons, Bool.false_eq_true, if_false, tryTypes, hg]
      split <;> rfl
    | false =>
      have : [Ty.cls d].filter (isMatch J (.val v)) = [] := by simp [isMatch, hi]
      rw [this]
      have hr : Json.falsy J r = false := by
        rcases ht with ht | ht | ht
        · rw [hi] at ht; cases ht
        · exact absurd ht hne
        · exact ht
      simp [tryTypes, hg, hr]
  unfold mapProp
  match hp : p.types with
  | [] => rw [hp] at h; cases h
  | [.cls e] =>
    rw [hp] at h
    simp only [recordTypes, List.cons.injEq, and_true] at h
    subst h
    exact hg
  | [.other n] => rw [hp] at h; cases h
  | .cls a :: b :: l => exact hu (by rw [hp]; simp)
  | .other a :: b :: l => exact hu (by rw [hp]; simp)

/-- What equals a record or a collection with members is true. -/
theorem members_true {v w : Val} {d e : String} (hw : clsOf w = some d) (hv : clsOf v = some e) (he : veq J.S w v = .ok true)
    (hm : HasMembers v) : Json.falsy J w = false := by
  cases w with
  | atom a => cases hw
  | list xs => cases hw
  | dict xs => cases hw
  | rcd c s => rfl
  | lcoll c xs =>
    cases xs with
    | cons x xs => rfl
    | nil =>
      cases v with
      | lcoll e ys =>
        cases ys with
        | nil => exact absurd rfl hm
        | cons y ys => rw [Ident.veq_lcoll] at he; cases he.2
      | list _ => cases hv
      | _ => simp [veq] at he
  | dcoll c xs =>
    cases xs with
    | cons x xs => rfl
    | nil =>
      cases v with
      | dcoll e ys =>
        cases ys with
        | nil => exact absurd rfl hm
        | cons y ys => simp [veq] at he
      | dict _ => cases hv
      | _ => simp [veq] at he

theorem field_trip (L : Json.Trip J.S Q) (hJ : SchemaOK J) {mk : Mk} {path : FS} {c : String} {p : IProp} {v : Val}
    (h : TripField J o sel ap rev path c p v) (ih : Trip J o sel ap rev path v → TripGood Q J self o ap rev mk path v) :
    ∃ j, FieldTrip Q J self o ap rev mk path c p v j := by
  cases h with
  | leaf h1 h2 h3 h4 h5 =>
    obtain ⟨⟨j, hj1, hj2, hj3, hj4⟩, hk⟩ := h3
    refine ⟨j, hj2, ⟨0, fun n _ => ?_⟩, 0, fun n _ => ⟨v, v, ?_, hk, Json.accepted_typeSafe h5, L.same v h4⟩⟩
    · rw [mapProp_leaf hJ h1 h2]; exact hj1
    · rw [mapProp_leaf hJ h1 (fun _ => hj3)]; exact hj4
  | @record _ _ _ _ d h1 hm h2 h3 h4 =>
    obtain ⟨d', j, hd, hcon, hv, n0, hn0⟩ := ih h4
    rw [h2] at hd
    cases hd
    refine ⟨j, container_kept hcon, ?_, n0, fun n hn => ?_⟩
    · obtain ⟨n1, hn1⟩ := hv
      exact ⟨n1, fun n hn => mapProp_one h1 (.inl (Json.instOf_cls h2)) (.inl (Json.instOf_cls h2)) (hn1 n hn)⟩
    · obtain ⟨w, hw1, hw2, hw3⟩ := hn0 n hn
      have hcj : clsOf j = none := by rcases hcon with ⟨xs, rfl⟩ | ⟨xs, rfl⟩ <;> rfl
      refine ⟨w, w, mapProp_one h1 (.inr hcj) ?_ hw1, cls_kept hw2, ?_, hw3⟩
      · rcases hm with hm | hm
        · exact .inr (.inl hm)
        · exact .inr (.inr (members_true hw2 h2 (L.eq hw3) hm))
      have hrun : Json.runCheck (J.info c p.name) w = .ok (some w) := by
        unfold Json.runCheck
        cases hf : (J.info c p.name).check with
        | none => rfl
        | some f => simp [h3 f w hf (L.eq hw3)]
      have hmem : (.cls d : Ty) ∈ p.types := recordTypes_mem (by rw [h1]; simp)
      have hany : p.types.any (fun t => instOf J t w) = true := List.any_eq_true.2 ⟨_, hmem, Json.instOf_cls hw2⟩
      unfold typeSafe
      rw [if_neg (by rintro ⟨-, -, h⟩; rw [h] at hmem; cases hmem), hany]
      simp [hrun]

theorem item_trip (L : Json.Trip J.S Q) {mk : Mk} {path : FS} {t : Ty} {v : Val}
    (h : TripItem J o sel ap rev path t v) (ih : Trip J o sel ap rev path v → TripGood Q J self o ap rev mk path v) :
    ∃ j, ItemTrip Q J self o ap rev mk path t v j := by
  cases h with
  | leaf h1 h2 h3 =>
    obtain ⟨⟨j, hj1, hj2, hj3, hj4⟩, hk⟩ := h1
    refine ⟨j, hj2, ⟨1, fun n hn => ?_⟩, 1, fun n hn => ⟨v, ?_, hk, h3, L.same v h2⟩⟩
    · obtain ⟨k, rfl⟩ : ∃ k, n = k + 1 := ⟨n - 1, by omega⟩
      exact hj1
    · obtain ⟨k, rfl⟩ : ∃ k, n = k + 1 := ⟨n - 1, by omega⟩
      exact hj4
  | @record _ d _ h1 h2 =>
    obtain ⟨d', j, hd, hcon, hv, n0, hn0⟩ := ih h2
    rw [h1] at hd
    cases hd
    refine ⟨j, container_kept hcon, hv, n0, fun n hn => ?_⟩
    obtain ⟨w, hw1, hw2, hw3⟩ := hn0 n hn
    exact ⟨w, hw1, cls_kept hw2, Json.instOf_cls hw2, hw3⟩

theorem any_chosen {ord : List MArg → List MArg} (hord : Mfs.OrdOK ord) (hf : FilterIs ord o sel) {path : FS}
    {c : String} : (propsOf J (.cls c)).any (fun p => !isFiltered o path p) = true ↔ HasChosen J o sel path c := by
  simp only [List.any_eq_true, HasChosen, propsOf]
  constructor
  · rintro ⟨p, hp, h⟩; exact ⟨p, hp, (chosen_iff hord hf path p).1 (by simpa using h)⟩
  · rintro ⟨p, hp, h⟩; exact ⟨p, hp, by simpa using (chosen_iff hord hf path p).2 h⟩

theorem none_chosen {ord : List MArg → List MArg} (hord : Mfs.OrdOK ord) (hf : FilterIs ord o sel) {path : FS}
    {c : String} (h : ¬ HasChosen J o sel path c) :
    (propsOf J (.cls c)).any (fun p => !isFiltered o path p) = false ∧
      (propsOf J (.cls c)).all (isFiltered o path) = true := by
  have h1 : ∀ p ∈ propsOf J (.cls c), isFiltered o path p = true := by
    intro p hp
    cases hfp : isFiltered o path p with
    | true => rfl
    | false => exact absurd ⟨p, hp, (chosen_iff hord hf path p).1 hfp⟩ h
  refine ⟨?_, List.all_eq_true.2 h1⟩
  rw [← Bool.not_eq_true, any_chosen hord hf]
  exact h

theorem record_trip (L : Json.Trip J.S Q) (hJ : SchemaOK J) {ord : List MArg → List MArg} (hord : Mfs.OrdOK ord)
    (hf : FilterIs ord o sel) (he : o.emptySlots = false) {mk : Mk} {path : FS} {c : String} {s : List (String × Val)}
    (hc : (J.S.cls c).coll = none) (hh : HasChosen J o sel path c)
    (hm : ∀ p ∈ (J.S.cls c).props, MayHide J o sel path c s p)
    (hv : ∀ p v, p ∈ (J.S.cls c).props → alookup s p.name = some v → Chosen o sel path p →
        TripField J o sel ap rev (path ++ [.str p.name]) c p v)
    (ih : ∀ x ∈ s, ∀ path, Trip J o sel ap rev path x.2 → TripGood Q J self o ap rev mk path x.2) :
    TripGood Q J self o ap rev mk path (.rcd c s) := by
  have h1 : ∀ p, ∃ j, p ∈ (J.S.cls c).props → ∀ v, alookup s p.name = some v → Chosen o sel path p →
      FieldTrip Q J self o ap rev mk (path ++ [.str p.name]) c p v j := by
    intro p
    by_cases hp : p ∈ (J.S.cls c).props ∧ (∃ v, alookup s p.name = some v) ∧ Chosen o sel path p
    · obtain ⟨hp, ⟨v, hs⟩, hch⟩ := hp
      obtain ⟨j, hj⟩ := field_trip (self := self) (mk := mk) L hJ (hv p v hp hs hch)
        (ih (p.name, v) (Mfs.alookup_mem hs) _)
      exact ⟨j, fun _ w hw _ => by rw [hs] at hw; cases hw; exact hj⟩
    · exact ⟨.none, fun h1 v h2 h3 => absurd ⟨h1, ⟨v, h2⟩, h3⟩ hp⟩
  choose f hfld using h1
  -- the visit
  let g : IProp → Slot := fun p => match alookup s p.name with
    | some v => .val v
    | none => .miss .attributeError
  have hg : ∀ p, (∀ v, alookup s p.name = some v → g p = .val v) ∧
      (alookup s p.name = none → g p = .miss .attributeError) := by
    intro p
    refine ⟨fun v h => ?_, fun h => ?_⟩ <;> simp only [g, h]
  have hfetch : ∀ p ∈ (J.S.cls c).props, fetch (readSlot self (.val (.rcd c s))) (push path (.str p.name)) p = .ok (g p) := by
    intro p hp
    unfold fetch
    cases hs : alookup s p.name with
    | some v => simp [readSlot, hs, (hg p).1 v hs]
    | none => simp [readSlot, hs, (hm p hp).v1, (hg p).2 hs, Exc.isAttribute]
  have hwanted : ∀ p, wanted o (g p) = true ↔ ∃ v, alookup s p.name = some v := by
    intro p
    cases hs : alookup s p.name with
    | some v => simp [(hg p).1 v hs, wanted]
    | none => simp [(hg p).2 hs, wanted, he]
  generalize g = g at hg hfetch hwanted
  have hone : ∀ p ∈ (J.S.cls c).props, showOne o path g f p =
      if isFiltered o path p = false ∧ wanted o (g p) = true then some (f p) else none := by
    intro p hp
    unfold showOne
    cases hfp : isFiltered o path p with
    | true => simp
    | false =>
      cases hw : wanted o (g p) with
      | false => simp
      | true =>
        obtain ⟨v, hs⟩ := (hwanted p).1 hw
        have := (hfld p hp v hs ((chosen_iff hord hf path p).1 hfp)).1
        simp [keep_eq, this]
  obtain ⟨n1, hn1⟩ := Json.bound (l := (J.S.cls c).props) (P := fun n p => isFiltered o path p = false →
      wanted o (g p) = true → mapProp J (visitHooks J self o ap) (map J (visitHooks J self o ap) o n) (g p) p
        (path ++ [.str p.name]) = .ok (f p)) (fun p hp => by
    by_cases hw : isFiltered o path p = false ∧ wanted o (g p) = true
    · obtain ⟨v, hs⟩ := (hwanted p).1 hw.2
      obtain ⟨n0, hn0⟩ := (hfld p hp v hs ((chosen_iff hord hf path p).1 hw.1)).2.1
      exact ⟨n0, fun n hn _ _ => by rw [(hg p).1 v hs]; exact hn0 n hn⟩
    · exact ⟨0, fun n _ h1 h2 => absurd ⟨h1, h2⟩ hw⟩)
  have hvis : ∀ n, n1 ≤ n → map J (visitHooks J self o ap) o (n + 1) (.val (.rcd c s)) (.cls c) path =
      .ok (.dict (asDict (named (shown o path g f (J.S.cls c).props)))) := by
    intro n hn
    have hmr := mapRecord_eq (J := J) (H := visitHooks J self o ap) (o := o) (go := map J (visitHooks J self o ap) o n)
      (get := readSlot self (.val (.rcd c s))) (cue := path) (g := g) (f := f) (J.S.cls c).props
      (fun p hp hfp => ⟨hfetch p hp, fun hw => hn1 n hn p hp hfp hw⟩)
    simp only [visitHooks] at hmr
    simp only [map, visitHooks, unpack, hc, collected, propsOf, hmr, reduce]
  refine ⟨c, .dict (asDict (named (shown o path g f (J.S.cls c).props))), rfl, .inl ⟨_, rfl⟩, ⟨n1 + 1, fun n hn => ?_⟩, ?_⟩
  · obtain ⟨k, rfl⟩ : ∃ k, n = k + 1 := ⟨n - 1, by omega⟩
    exact hvis k (by omega)
  -- the cast
  obtain ⟨n2, hn2⟩ := Json.bound (l := (J.S.cls c).props) (P := fun n p => isFiltered o path p = false →
      ∀ v, alookup s p.name = some v → ∃ w u, mapProp J (castHooks J mk o rev) (map J (castHooks J mk o rev) o n) (.val (f p)) p
        (path ++ [.str p.name]) = .ok w ∧ Kept o w ∧
        typeSafe J mk (J.info c p.name) p.types w = .ok (some u) ∧ Q u v) (fun p hp => by
    by_cases hw : isFiltered o path p = false ∧ ∃ v, alookup s p.name = some v
    · obtain ⟨hw, v, hs⟩ := hw
      obtain ⟨n0, hn0⟩ := (hfld p hp v hs ((chosen_iff hord hf path p).1 hw)).2.2
      exact ⟨n0, fun n hn _ v' hs' => by rw [hs] at hs'; cases hs'; exact hn0 n hn⟩
    · exact ⟨0, fun n _ h1 v h2 => absurd ⟨h1, v, h2⟩ hw⟩)
  refine ⟨n2 + 1, fun n hn => ?_⟩
  obtain ⟨k, rfl⟩ : ∃ k, n = k + 1 := ⟨n - 1, by omega⟩
  have hw : ∀ p, ∃ w, p ∈ (J.S.cls c).props → isFiltered o path p = false → ∀ v, alookup s p.name = some v →
      ∃ u, mapProp J (castHooks J mk o rev) (map J (castHooks J mk o rev) o k) (.val (f p)) p
        (path ++ [.str p.name]) = .ok w ∧ Kept o w ∧
        typeSafe J mk (J.info c p.name) p.types w = .ok (some u) ∧ Q u v := by
    intro p
    by_cases hp : p ∈ (J.S.cls c).props ∧ isFiltered o path p = false ∧ ∃ v, alookup s p.name = some v
    · obtain ⟨h1, h2, v, h3⟩ := hp
      obtain ⟨w, u, hwu⟩ := hn2 k (by omega) p h1 h2 v h3
      exact ⟨w, fun _ _ v' h3' => by rw [h3] at h3'; cases h3'; exact ⟨u, hwu⟩⟩
    · exact ⟨.none, fun h1 h2 v h3 => absurd ⟨h1, h2, v, h3⟩ hp⟩
  choose f' hf' using hw
  have hd : ∀ p ∈ (J.S.cls c).props, alookup (asDict (named (shown o path g f (J.S.cls c).props))) (.str p.name) =
      showOne o path g f p := fun p hp => by
    rw [asDict_lookup, shown_lookup (hJ.names c) hp]
  let g' : IProp → Slot := fun p => match alookup s p.name with
    | some _ => .val (f p)
    | none => .miss .keyError
  have hg' : ∀ p, (∀ v, alookup s p.name = some v → g' p = .val (f p)) ∧
      (alookup s p.name = none → g' p = .miss .keyError) := by
    intro p
    refine ⟨fun v h => ?_, fun h => ?_⟩ <;> simp only [g', h]
  have hwanted' : ∀ p, wanted o (g' p) = true ↔ ∃ v, alookup s p.name = some v := by
    intro p
    cases hs : alookup s p.name with
    | some v => simp [(hg' p).1 v hs, wanted]
    | none => simp [(hg' p).2 hs, wanted, he]
  generalize g' = g' at hg' hwanted'
  have hmr := mapRecord_eq (J := J) (H := castHooks J mk o rev) (o := o) (go := map J (castHooks J mk o rev) o k)
    (get := readKey (asDict (named (shown o path g f (J.S.cls c).props)))) (cue := path) (g := g') (f := f')
    (J.S.cls c).props (fun p hp hfp => by
      refine ⟨?_, fun hwt => ?_⟩
      · unfold fetch readKey
        rw [hd p hp, hone p hp]
        cases hs : alookup s p.name with
        | some v =>
          rw [if_pos ⟨hfp, (hwanted p).2 ⟨v, hs⟩⟩, (hg' p).1 v hs]
        | none =>
          rw [if_neg (fun h => by obtain ⟨v, hv⟩ := (hwanted p).1 h.2; rw [hs] at hv; cases hv), (hg' p).2 hs]
          simp [Exc.isKey]
      · obtain ⟨v, hs⟩ := (hwanted' p).1 hwt
        obtain ⟨u, hu, _⟩ := hf' p hp hfp v hs
        rw [(hg' p).1 v hs]
        exact hu)
  have hone' : ∀ p ∈ (J.S.cls c).props, showOne o path g' f' p =
      if isFiltered o path p = false ∧ wanted o (g' p) = true then some (f' p) else none := by
    intro p hp
    unfold showOne
    cases hfp : isFiltered o path p with
    | true => simp
    | false =>
      cases hw : wanted o (g' p) with
      | false => simp
      | true =>
        obtain ⟨v, hs⟩ := (hwanted' p).1 hw
        obtain ⟨u, _, hk, _⟩ := hf' p hp hfp v hs
        simp [keep_eq, hk]
  obtain ⟨s', hs', hveq⟩ := Json.initRecord_same L (mk := mk) (s := s)
    (kw := named (shown o path g' f' (J.S.cls c).props))
    (W := fun p => (∃ v, alookup s p.name = some v) ∧ Chosen o sel path p) (hJ.names c)
    ((shown_sub _).nodup (hJ.names c)) (fun p hp => (hm p hp).eager)
    (fun p hp hex hw => by
      cases hs : alookup s p.name with
      | none => rfl
      | some v =>
        exfalso
        by_cases hch : Chosen o sel path p
        · exact hw ⟨⟨v, hs⟩, hch⟩
        · have := (hm p hp).hidden v hs hch
          rw [hex] at this; cases this)
    (fun x hx => by
      simp only [named, List.mem_map] at hx
      obtain ⟨⟨p, w⟩, hpw, rfl⟩ := hx
      obtain ⟨hp, h2⟩ := (shown_mem _).1 hpw
      rw [hone' p hp] at h2
      split at h2
      · rename_i hcond
        cases h2
        obtain ⟨v, hs⟩ := (hwanted' p).1 hcond.2
        obtain ⟨u, _, _, hu, _⟩ := hf' p hp hcond.1 v hs
        exact ⟨p, u, Json.findProp_of_mem (hJ.names c) hp, hu⟩
      · cases h2)
    (fun p hp hex hw => by
      obtain ⟨⟨v, hs⟩, hch⟩ := hw
      have hfp := (chosen_iff hord hf path p).2 hch
      obtain ⟨u, _, _, hu, hveq⟩ := hf' p hp hfp v hs
      refine ⟨v, f' p, u, hs, ?_, hu, hveq⟩
      rw [shown_lookup (hJ.names c) hp, hone' p hp, if_pos ⟨hfp, (hwanted' p).2 ⟨v, hs⟩⟩])
    (fun p hp hw => by
      obtain ⟨⟨v, hs⟩, hch⟩ := hw
      have hfp := (chosen_iff hord hf path p).2 hch
      rw [shown_lookup (hJ.names c) hp, hone' p hp, if_pos ⟨hfp, (hwanted' p).2 ⟨v, hs⟩⟩]
      rfl)
    (fun p hp hex hw => by
      rw [shown_lookup (hJ.names c) hp, hone' p hp, if_neg]
      intro hcond
      exact hw ⟨(hwanted' p).1 hcond.2, (chosen_iff hord hf path p).1 hcond.1⟩)
  refine ⟨.rcd c s', ?_, rfl, hveq⟩
  have hgrok : grok J o (.val (.dict (asDict (named (shown o path g f (J.S.cls c).props))))) (.cls c) path =
      .ok (.parts (some (readKey (asDict (named (shown o path g f (J.S.cls c).props))))) none) := by
    simp only [grok, (any_chosen hord hf).2 hh, isMapping, hc, grokGet]
    simp
  simp only [castHooks] at hmr
  simp only [map, castHooks, hgrok, collected, propsOf, hmr, produce, hc, kwargs, hs', lift]

theorem mapRecord_none {go : Go} {get : IProp → Except Exc Val} {cue : FS} : ∀ (ps : List IProp),
    (∀ p ∈ ps, isFiltered o cue p = true) → mapRecord J H o go get ps cue = .ok []
  | [], _ => rfl
  | p :: ps, h => by
    simp [mapRecord, mapSlot, h p List.mem_cons_self, mapRecord_none ps (fun q hq => h q (List.mem_cons_of_mem _ hq)),
      addKept]

/-- No slot that is not filtered out is set. -/
theorem mapRecord_missing (he : o.emptySlots = false) {go : Go} {get : IProp → Except Exc Val} {cue : FS} :
    ∀ (ps : List IProp), (∀ p ∈ ps, isFiltered o cue p = false → ∃ e, fetch get (push cue (.str p.name)) p = .ok (.miss e)) →
    mapRecord J H o go get ps cue = .ok []
  | [], _ => rfl
  | p :: ps, h => by
    have h1 : mapSlot J H o go get cue p = .ok (none, cue) := by
      unfold mapSlot
      simp only [pop_push]
      cases hf : isFiltered o cue p with
      | true => rfl
      | false =>
        obtain ⟨e, h2⟩ := h p List.mem_cons_self hf
        simp [h2, wanted, he]
    unfold mapRecord
    rw [h1]
    simp only
    rw [mapRecord_missing he ps (fun q hq => h q (List.mem_cons_of_mem _ hq))]
    rfl

theorem mapColl_eq₂ {go : Go} {t it : Ty} {cue : FS} {f f' : Comp × Val → Val} (hit : itemType J t = .ok it) :
    ∀ (xs : List (Comp × Val)), (∀ y ∈ xs, go (.val (f y)) it (cue ++ [y.1]) = .ok (f' y) ∧ Kept o (f' y)) →
    mapColl J o go t (xs.map (fun y => (y.1, f y))) cue = .ok (xs.map (fun y => (y.1, f' y)))
  | [], _ => rfl
  | (k, v) :: xs, h => by
    obtain ⟨h1, h2⟩ := h (k, v) List.mem_cons_self
    simp only [List.map_cons]
    unfold mapColl
    rw [hit]
    simp only [pop_push]
    rw [show push cue k = cue ++ [k] from rfl, h1]
    simp only
    rw [mapColl_eq₂ hit xs (fun y hy => h y (List.mem_cons_of_mem _ hy)), keep_eq, if_pos h2]
    rfl

/-- A collection with these keys and members. -/
theorem coll_trip (hJ : SchemaOK J) {ord : List MArg → List MArg} (hord : Mfs.OrdOK ord)
    (hf : FilterIs ord o sel) {mk : Mk} {path : FS} {c : String} {k : CollKind} {t : Ty} {v : Val}
    {es : List (Comp × Val)} {pack : List (Comp × Val) → Val} {made : List (Comp × Val) → Val}
    (he : o.emptySlots = false) (hv : clsOf v = some c) (hc : (J.S.cls c).coll = some (k, .one t))
    (hh : UnsetProps J o sel path c)
    (hes : unpackColl k (.val v) = .ok es)
    (hpack : ∀ l, aggregate J l (.cls c) path = .ok (pack l))
    (hcon : ∀ l, IsContainer (pack l))
    (hgrok : ∀ f : Comp × Val → Val, grokColl J false k (pack (es.map (fun y => (y.1, f y)))) path =
      .ok (es.map (fun y => (y.1, f y))))
    (hcoll : ∀ l, (∀ y ∈ l, instOf J t y.2 = true) → collect J mk l (.cls c) path = .ok (pack l))
    (hmade : ∀ l, (∀ y ∈ l, instOf J t y.2 = true) → produce J mk none (some (pack l)) (.cls c) path = .ok (made l))
    (hmcls : ∀ l, clsOf (made l) = some c)
    (hveq : ∀ f : Comp × Val → Val, (∀ y ∈ es, Q (f y) y.2) →
      Q (made (es.map (fun y => (y.1, f y)))) v)
    (hi : ∀ y ∈ es, ∃ j, ItemTrip Q J self o ap rev mk (path ++ [y.1]) t y.2 j) :
    TripGood Q J self o ap rev mk path v := by
  have h1 : ∀ y, ∃ j, y ∈ es → ItemTrip Q J self o ap rev mk (path ++ [y.1]) t y.2 j := by
    intro y
    by_cases hy : y ∈ es
    · obtain ⟨j, hj⟩ := hi y hy; exact ⟨j, fun _ => hj⟩
    · exact ⟨.none, fun h => absurd h hy⟩
  choose f hfi using h1
  have hit : itemType J (.cls c) = .ok t := by simp [itemType, hc]
  obtain ⟨n1, hn1⟩ := Json.bound (l := es) (P := fun n y =>
    map J (visitHooks J self o ap) o n (.val y.2) t (path ++ [y.1]) = .ok (f y)) (fun y hy => (hfi y hy).2.1)
  obtain ⟨n2, hn2⟩ := Json.bound (l := es) (P := fun n y =>
    ∃ w, map J (castHooks J mk o rev) o n (.val (f y)) t (path ++ [y.1]) = .ok w ∧ Kept o w ∧
      instOf J t w = true ∧ Q w y.2) (fun y hy => (hfi y hy).2.2)
  have hprops : ∀ p ∈ propsOf J (.cls c), isFiltered o path p = false → p.unset = none ∧ p.name ≠ "values" :=
    fun p hp h => hh p hp ((chosen_iff hord hf path p).1 h)
  -- what is shown: with visited properties, the members are under "values"
  have hshow : ∃ j, IsContainer j ∧ reduce J o (some []) (some (pack (es.map (fun y => (y.1, f y))))) (.cls c) path = .ok j ∧
      ∃ g, grok J o (.val j) (.cls c) path = .ok (.parts g (some (es.map (fun y => (y.1, f y))))) ∧
        ∀ get, g = some get → ∀ p ∈ propsOf J (.cls c), isFiltered o path p = false →
          ∃ e, fetch get (push path (.str p.name)) p = .ok (.miss e) := by
    cases hany : (propsOf J (.cls c)).any (fun p => !isFiltered o path p) with
    | false =>
      have hall : (propsOf J (.cls c)).all (isFiltered o path) = true := by
        rw [List.all_eq_true]
        intro p hp
        cases hfp : isFiltered o path p with
        | true => rfl
        | false => rw [List.any_eq_false] at hany; exact absurd (by simp [hfp]) (hany p hp)
      refine ⟨pack (es.map (fun y => (y.1, f y))), hcon _, by simp only [reduce, hall, if_true], none, ?_,
        fun get h => by cases h⟩
      simp only [grok, hany, hc, hgrok f, grokGet]
      simp
    | true =>
      have hall : (propsOf J (.cls c)).all (isFiltered o path) = false := by
        rw [List.all_eq_false]
        obtain ⟨p, hp, h⟩ := List.any_eq_true.1 hany
        exact ⟨p, hp, by simpa using h⟩
      refine ⟨.dict [(.str "values", pack (es.map (fun y => (y.1, f y))))], .inl ⟨_, rfl⟩, ?_,
        some (readKey [(.str "values", pack (es.map (fun y => (y.1, f y))))]), ?_, ?_⟩
      · simp only [reduce, hall, Bool.false_eq_true, if_false]
        rfl
      · have h1 : grokColl J true k (.dict [(.str "values", pack (es.map (fun y => (y.1, f y))))]) path =
            grokColl J false k (pack (es.map (fun y => (y.1, f y)))) path := by
          have h2 : ∀ x, grokValues false x = x := fun x => by cases x <;> rfl
          have h3 : ∀ x, grokValues true (.dict [(.str "values", x)]) = x := fun x => rfl
          simp only [grokColl, h2, h3]
        simp only [grok, hany, hc, h1, hgrok f, grokGet, isMapping]
        simp
      · rintro get h p hp hfp
        cases h
        refine ⟨.keyError, ?_⟩
        have hne : "values" ≠ p.name := fun h => (hprops p hp hfp).2 h.symm
        simp [fetch, readKey, alookup, hne, Exc.isKey]
  obtain ⟨j, hj, hred, g, hg, hgm⟩ := hshow
  refine ⟨c, j, hv, hj, ⟨n1 + 1, fun n hn => ?_⟩, n2 + 1, fun n hn => ?_⟩
  · obtain ⟨m, rfl⟩ : ∃ m, n = m + 1 := ⟨n - 1, by omega⟩
    have hmc := mapColl_eq (J := J) (o := o) (go := map J (visitHooks J self o ap) o m) (t := .cls c) (cue := path)
      (f := f) hit es (fun y hy => ⟨hn1 m (by omega) y hy, (hfi y hy).1⟩)
    have hmr := mapRecord_missing (J := J) (H := visitHooks J self o ap) he (go := map J (visitHooks J self o ap) o m)
      (get := readSlot self (.val v)) (cue := path) (propsOf J (.cls c)) (fun p hp hfp => by
        refine ⟨.attributeError, ?_⟩
        have hu := (hprops p hp hfp).1
        have hr : readSlot self (.val v) p = .error .attributeError := by
          cases v with
          | lcoll _ _ => simp [readSlot, hu]
          | dcoll _ _ => simp [readSlot, hu]
          | rcd _ _ => cases k <;> cases hes
          | atom _ => cases hv
          | list _ => cases hv
          | dict _ => cases hv
        simp [fetch, hr, Exc.isAttribute])
    simp only [visitHooks] at hmc hmr
    simp only [map, visitHooks, unpack, hc, hes, collected, hmc, hpack, hmr, hred]
  · obtain ⟨m, rfl⟩ : ∃ m, n = m + 1 := ⟨n - 1, by omega⟩
    have h2 : ∀ y, ∃ w, y ∈ es → map J (castHooks J mk o rev) o m (.val (f y)) t (path ++ [y.1]) = .ok w ∧ Kept o w ∧
        instOf J t w = true ∧ Q w y.2 := by
      intro y
      by_cases hy : y ∈ es
      · obtain ⟨w, hw⟩ := hn2 m (by omega) y hy; exact ⟨w, fun _ => hw⟩
      · exact ⟨.none, fun h => absurd h hy⟩
    choose f' hf' using h2
    have hmc := mapColl_eq₂ (J := J) (o := o) (go := map J (castHooks J mk o rev) o m) (t := .cls c) (cue := path)
      (f := f) (f' := f') hit es (fun y hy => ⟨(hf' y hy).1, (hf' y hy).2.1⟩)
    have hin : ∀ y ∈ es.map (fun y => (y.1, f' y)), instOf J t y.2 = true := by
      intro y hy
      obtain ⟨z, hz, rfl⟩ := List.mem_map.1 hy
      exact (hf' z hz).2.2.1
    refine ⟨made (es.map (fun y => (y.1, f' y))), ?_, hmcls _, hveq f' (fun y hy => (hf' y hy).2.2.2)⟩
    simp only [castHooks] at hmc
    cases g with
    | none => simp only [map, castHooks, hg, collected, hmc, hcoll _ hin, hmade _ hin]
    | some get =>
      have hmr := mapRecord_missing (J := J) (H := castHooks J mk o rev) he (go := map J (castHooks J mk o rev) o m)
        (get := get) (cue := path) (propsOf J (.cls c)) (fun p hp hfp => hgm get rfl p hp hfp)
      have hmade' : produce J mk (some []) (some (pack (es.map (fun y => (y.1, f' y))))) (.cls c) path =
          .ok (made (es.map (fun y => (y.1, f' y)))) := by
        rw [← hmade _ hin]
        rfl
      simp only [castHooks] at hmr
      simp only [map, castHooks, hg, collected, hmc, hcoll _ hin, hmr, hmade']

theorem coerceEntry_ok {mk : Mk} {t : Ty} {l : List (Comp × Val)} (h : ∀ y ∈ l, instOf J t y.2 = true) :
    mapE (Json.coerceEntry J mk (.one t)) l = .ok l := by
  refine Json.mapE_of_forall₂ ?_
  rw [List.forall₂_same]
  intro y hy
  simp [Json.coerceEntry, Json.coerceItem, Json.isItem, h y hy]

theorem coerceItem_ok {mk : Mk} {t : Ty} {l : List Val} (h : ∀ y ∈ l, instOf J t y = true) :
    mapE (Json.coerceItem J mk (.one t)) l = .ok l := by
  refine Json.mapE_of_forall₂ ?_
  rw [List.forall₂_same]
  intro y hy
  simp [Json.coerceItem, Json.isItem, h y hy]

theorem enum_snd (xs : List Val) : (Ident.enum xs).map (·.2) = xs := by
  apply List.ext_getElem?
  intro i
  rw [List.getElem?_map, enum_numbered]
  cases xs[i]? <;> rfl

theorem list_trip (L : Json.Trip J.S Q) (hJ : SchemaOK J) {ord : List MArg → List MArg} (hord : Mfs.OrdOK ord)
    (hf : FilterIs ord o sel) {mk : Mk} {path : FS} {c : String} {t : Ty} {xs : List Val}
    (he : o.emptySlots = false) (hc : (J.S.cls c).coll = some (.list, .one t)) (hh : UnsetProps J o sel path c)
    (hv : ∀ (i : Nat) v, xs[i]? = some v → TripItem J o sel ap rev (path ++ [.int i]) t v)
    (ih : ∀ x ∈ xs, ∀ path, Trip J o sel ap rev path x → TripGood Q J self o ap rev mk path x) :
    TripGood Q J self o ap rev mk path (.lcoll c xs) := by
  refine coll_trip (es := Ident.enum xs) (pack := fun l => .list (l.map (·.2))) (made := fun l => .lcoll c (l.map (·.2)))
    hJ hord hf he rfl hc hh rfl (fun l => by simp [aggregate, hc]) (fun l => .inr ⟨_, rfl⟩) (fun f => ?_)
    (fun l hl => ?_) (fun l hl => ?_) (fun l => rfl) (fun f hfv => ?_) (fun y hy => ?_)
  · have : Ident.enum ((Ident.enum xs).map f) = (Ident.enum xs).map (fun y => (y.1, f y)) := enum_map f xs
    simp only [grokColl, grokValues, isGrokColl, if_true, collTuples, List.map_map]
    rw [← this]
    rfl
  · simp [collect, hc, coerceEntry_ok hl]
  · have : mapE (Json.coerceItem J mk (.one t)) (l.map (·.2)) = .ok (l.map (·.2)) := coerceItem_ok (fun y hy => by
      obtain ⟨z, hz, rfl⟩ := List.mem_map.1 hy
      exact hl z hz)
    simp [produce, hc, kwargs, Json.mkList, Json.listItems, this, lift]
  · refine L.lcoll ?_
    have key : List.Forall₂ Q ((Ident.enum xs).map f) ((Ident.enum xs).map (·.2)) := by
      rw [List.forall₂_map_left_iff, List.forall₂_map_right_iff, List.forall₂_same]
      exact hfv
    rw [enum_snd] at key
    simpa [List.map_map, Function.comp_def] using key
  · obtain ⟨i, hi⟩ := List.mem_iff_getElem?.1 hy
    rw [enum_numbered] at hi
    cases hx : xs[i]? with
    | none => rw [hx] at hi; cases hi
    | some v =>
      rw [hx] at hi
      cases hi
      exact item_trip L (hv i v hx) (ih v (List.mem_iff_getElem?.2 ⟨i, hx⟩) _)

theorem dict_trip (L : Json.Trip J.S Q) (hJ : SchemaOK J) {ord : List MArg → List MArg} (hord : Mfs.OrdOK ord)
    (hf : FilterIs ord o sel) {mk : Mk} {path : FS} {c : String} {t : Ty} {xs : List (Comp × Val)}
    (he : o.emptySlots = false) (hc : (J.S.cls c).coll = some (.dict, .one t)) (hh : UnsetProps J o sel path c)
    (hn : (xs.map (·.1)).Nodup)
    (hv : ∀ x ∈ xs, TripItem J o sel ap rev (path ++ [x.1]) t x.2)
    (ih : ∀ x ∈ xs, ∀ path, Trip J o sel ap rev path x.2 → TripGood Q J self o ap rev mk path x.2) :
    TripGood Q J self o ap rev mk path (.dcoll c xs) := by
  refine coll_trip (es := xs) (pack := fun l => .dict l) (made := fun l => .dcoll c l)
    hJ hord hf he rfl hc hh rfl (fun l => by simp [aggregate, hc]) (fun l => .inl ⟨_, rfl⟩) (fun f => rfl)
    (fun l hl => ?_) (fun l hl => ?_) (fun l => rfl) (fun f hfv => ?_) (fun y hy => item_trip L (hv y hy) (ih y hy _))
  · simp [collect, hc, coerceEntry_ok hl]
  · simp [produce, hc, kwargs, Json.mkDict, Json.dictItems, coerceEntry_ok hl, lift]
  · refine L.dcoll hn ?_
    rw [List.forall₂_map_left_iff, List.forall₂_same]
    exact fun y hy => ⟨rfl, hfv y hy⟩

theorem trip_good (L : Json.Trip J.S Q) (hJ : SchemaOK J) {ord : List MArg → List MArg} (hord : Mfs.OrdOK ord)
    (hf : FilterIs ord o sel) (he : o.emptySlots = false) {mk : Mk} : ∀ (v : Val) (path : FS),
    Trip J o sel ap rev path v → TripGood Q J self o ap rev mk path v := by
  refine Val.ind ?_ ?_ ?_ ?_ ?_ ?_
  · intro a path h; cases h
  · intro xs ih path h; cases h
  · intro xs ih path h; cases h
  · intro c s ih path h
    cases h with
    | record h1 h2 h3 h4 => exact record_trip L hJ hord hf he h1 h2 h3 h4 ih
  · intro c xs ih path h
    cases h with
    | list h1 h2 h3 => exact list_trip L hJ hord hf he h1 h2 h3 ih
  · intro c xs ih path h
    cases h with
    | dict h1 h2 h3 h4 => exact dict_trip L hJ hord hf he h1 h2 h3 h4 ih

/-! ## C53 -/

/-- Reading what a visit of `v` shows gives an equal object, if the recursion limits are high enough. -/
def ComesBack (J : Setup) (self : IProp → Val) (o : Opts) (ap rev : Leaf) (c : String) (v : Val) : Prop :=
  ∀ m, ∃ n0, ∀ n, n0 ≤ n → ∃ j w, visit J n self o ap v = .ok j ∧ cast J m n o rev (.cls c) j = .ok w ∧
    veq J.S w v = .ok true

/-- C53: `cast(T, visit(x)) == x`, if `reverse` undoes `apply` for all the values. -/
def C53_statement : Prop := ∀ (J : Setup) (self : IProp → Val) (o : Opts) (ap rev : Leaf) (c : String)
  (s : List (String × Val)), AtomLaws J.S → SchemaOK J → o.filter = none → o.emptySlots = false →
  Sound J o none ap rev [] (.rcd c s) → ComesBack J self o ap rev c (.rcd c s)

/-- C53 for objects without values that the visit ignores (`None`) and, apart from collections, without objects none of
whose properties are visited; collections have members of one type, and none of their visited properties is set.
Properties have at most one record type, and hold a record of it if they have one (see `C53_violated_union`); an empty
collection only if there is no other type.  Missing: collections with properties that are set. -/
theorem C53_partial (L : AtomLaws J.S) (hJ : SchemaOK J) {ord : List MArg → List MArg} (hord : Mfs.OrdOK ord)
    (hf : FilterIs ord o sel) (he : o.emptySlots = false) {v : Val} (h : Trip J o sel ap rev [] v) :
    ∃ c, clsOf v = some c ∧ ComesBack J self o ap rev c v := by
  obtain ⟨c, _, hc, _⟩ := trip_good (self := self) (mk := Json.make J 0) (Json.trip_veq L) hJ hord hf he v [] h
  refine ⟨c, hc, fun m => ?_⟩
  obtain ⟨c', j, hc', _, ⟨n1, h1⟩, n2, h2⟩ := trip_good (self := self) (mk := Json.make J m) (Json.trip_veq L) hJ hord hf he v [] h
  rw [hc] at hc'
  cases hc'
  refine ⟨max n1 n2, fun n hn => ?_⟩
  obtain ⟨w, hw, _, hveq⟩ := h2 n (by omega)
  exact ⟨j, w, by simp only [visit, hc]; exact h1 n (by omega), hw, hveq⟩

namespace Trips

/-- A post has a title, a time, an author, a collection of comments and some extraneous data; an author has a name; a
thread is by a name or an author, and has replies, a collection with a note; a fan likes a name, an author or a reader;
and there is a class without properties. -/
def cls : String → Ident.ICls
  | "Post" => { props := [⟨"title", false, [.other 0], none⟩, ⟨"when", false, [], none⟩,
      ⟨"author", false, [.cls "Author"], none⟩, ⟨"comments", false, [.cls "Comments"], none⟩,
      ⟨"seen", true, [], none⟩] }
  | "Author" => { props := [⟨"name", false, [], none⟩, ⟨"rank", false, [], none⟩] }
  | "Comments" => { coll := some (.list, .one (.cls "Author")) }
  | "Replies" => { coll := some (.dict, .one (.cls "Author")), props := [⟨"note", false, [], none⟩] }
  | "Thread" => { props := [⟨"by", false, [.other 0, .cls "Author"], none⟩, ⟨"replies", false, [.cls "Replies"], none⟩] }
  | "Reader" => { props := [⟨"name", false, [], none⟩] }
  | "Fan" => { props := [⟨"likes", false, [.other 0, .cls "Author", .cls "Reader"], none⟩] }
  | _ => {}

def isStr : Val → Bool
  | .atom (.str _) => true
  | _ => false

def blogJ : Setup :=
  { S := Json.exSchema cls, info := fun _ _ => {}, isJson := fun _ => false
    isa := fun _ v => isStr v, make := fun _ v => .ok v, loads := fun _ => .error .valueCheck }

theorem laws : AtomLaws blogJ.S where
  refl a := by simp [blogJ, Json.exSchema]
  symm a b h := by simp [blogJ, Json.exSchema] at h ⊢; exact h.symm
  trans a b c h h' := by simp [blogJ, Json.exSchema] at h h' ⊢; exact h.trans h'

theorem ok : SchemaOK blogJ where
  names c := by
    show ((cls c).props.map (·.name)).Nodup
    unfold cls
    split <;> decide +kernel
  noneFalse := by decide +kernel

/-- Times are shown as strings. -/
def showTime (s : Slot) (_ : Option IProp) (_ : FS) : Except VErr Val :=
  match s with
  | .val v => if v = .atom (.opq 7) then .ok (.str "noon") else .ok v
  | .miss _ => .ok .none

def readTime (s : Slot) (_ : Option IProp) (_ : FS) : Except VErr Val :=
  match s with
  | .val v => if v = .str "noon" then .ok (.atom (.opq 7)) else .ok v
  | .miss _ => .ok .none

def author (s : String) : Val := .rcd "Author" [("name", .str s)]

def slots : List (String × Val) := [("title", .str "hello"), ("when", .atom (.opq 7)), ("author", author "ann"),
  ("comments", .lcoll "Comments" [author "bob", author "eve"]), ("seen", .int 3)]

def blogSelf (_ : IProp) : Val := .none

theorem chosen {path : FS} {p : IProp} (h : p.extraneous = false) : Chosen {} none path p :=
  ⟨.inl h, fun _ h => by cases h⟩

theorem mayHide {path : FS} {c : String} {s : List (String × Val)} {p : IProp}
    (h : p.unset = none) : MayHide blogJ {} none path c s p where
  hidden v hv hc := by
    by_contra hne
    exact hc (chosen (by simpa using hne))
  v1 := h
  eager he _ := by
    have := he.2
    simp [blogJ] at this

theorem inverts {v : Val} {p : Option IProp} {path : FS} (h1 : Kept {} v) (h2 : v ≠ .atom (.opq 7)) (h3 : v ≠ .str "noon")
    (h4 : clsOf v = none) : Inverts {} showTime readTime v p path :=
  ⟨⟨v, by simp [showTime, h2], h1, h4, by simp [readTime, h3]⟩, h1⟩

theorem authorTrip {path : FS} {s : String} (h1 : s ≠ "noon") :
    Trip blogJ {} none showTime readTime path (author s) := by
  refine .record rfl ⟨_, List.mem_cons_self, chosen rfl⟩ ?_ ?_
  · intro p hp
    simp only [blogJ, Json.exSchema, cls, List.mem_cons, List.not_mem_nil, or_false] at hp
    rcases hp with rfl | rfl <;> exact mayHide rfl
  · intro p v hp hv _
    simp only [blogJ, Json.exSchema, cls, List.mem_cons, List.not_mem_nil, or_false] at hp
    rcases hp with rfl | rfl
    · have hv : some (Val.str s) = some v := hv
      cases hv
      refine .leaf (fun d h => by cases h) (fun _ => rfl) (inverts ?_ ?_ ?_ rfl) (Json.atomWF _)
        ⟨.inl rfl, fun f h => (by cases h), fun h => by cases h.2.1⟩
      · exact ⟨fun h => (by cases h.1), fun h => (by cases h.2)⟩
      · intro h; cases h
      · intro h; cases h; exact h1 rfl
    · have hv : none = some v := hv
      cases hv

theorem postTrip : Trip blogJ {} none showTime readTime [] (.rcd "Post" slots) := by
  refine .record rfl ⟨_, List.mem_cons_self, chosen rfl⟩ ?_ ?_
  · intro p hp
    simp only [blogJ, Json.exSchema, cls, List.mem_cons, List.not_mem_nil, or_false] at hp
    rcases hp with rfl | rfl | rfl | rfl | rfl <;> exact mayHide rfl
  · intro p v hp hv hch
    simp only [blogJ, Json.exSchema, cls, List.mem_cons, List.not_mem_nil, or_false] at hp
    rcases hp with rfl | rfl | rfl | rfl | rfl
    · have hv : some (Val.str "hello") = some v := hv
      cases hv
      refine .leaf (fun d h => by simp at h) (fun h => by cases h) (inverts ?_ ?_ ?_ rfl) (Json.atomWF _)
        ⟨.inr ⟨_, List.mem_cons_self, rfl⟩, fun f h => (by cases h), fun h => by cases h.2.1⟩
      · decide +kernel
      · intro h; cases h
      · simp [Val.str]
    · have hv : some (Val.atom (.opq 7)) = some v := hv
      cases hv
      exact .leaf (fun d h => by cases h) (fun _ => rfl) ⟨⟨.str "noon", by simp [showTime], by decide +kernel, rfl, by simp [readTime]⟩, by decide +kernel⟩
        (Json.atomWF _) ⟨.inl rfl, fun f h => (by cases h), fun h => by cases h.2.1⟩
    · have hv : some (author "ann") = some v := hv
      cases hv
      exact .record rfl (.inl rfl) rfl (fun f w h => by cases h) (authorTrip (by decide))
    · have hv : some (Val.lcoll "Comments" [author "bob", author "eve"]) = some v := hv
      cases hv
      refine .record rfl (.inl rfl) rfl (fun f w h => by cases h) (.list rfl ?_ ?_)
      · intro p hp _; cases hp
      · intro i v hi
        match i, hi with
        | 0, hi => cases hi; exact .record rfl (authorTrip (by decide))
        | 1, hi => cases hi; exact .record rfl (authorTrip (by decide))
        | n + 2, hi => simp at hi
    · rcases hch.1 with h | h <;> cases h

-- it comes back; here is what the visit shows, and what is read
example : ∃ c, clsOf (.rcd "Post" slots) = some c ∧ ComesBack blogJ blogSelf {} showTime readTime c (.rcd "Post" slots) :=
  C53_partial laws ok (ord := id) (fun _ _ => Iff.rfl) (.all rfl) rfl postTrip

def doc : Val := .dict [(.str "title", .str "hello"), (.str "when", .str "noon"),
  (.str "author", .dict [(.str "name", .str "ann")]),
  (.str "comments", .list [.dict [(.str "name", .str "bob")], .dict [(.str "name", .str "eve")]])]

example : visit blogJ 5 blogSelf {} showTime (.rcd "Post" slots) = .ok doc := by decide +kernel

example : cast blogJ 3 5 {} readTime (.cls "Post") doc = .ok (.rcd "Post" [("title", .str "hello"), ("when", .atom (.opq 7)),
  ("author", author "ann"), ("comments", .lcoll "Comments" [author "bob", author "eve"])]) := by decide +kernel

-- a property with several types, and a collection that has a property
def threadSlots : List (String × Val) := [("by", author "ann"), ("replies", .dcoll "Replies" [(.str "x", author "bob")])]

theorem threadTrip : Trip blogJ {} none showTime readTime [] (.rcd "Thread" threadSlots) := by
  refine .record rfl ⟨_, List.mem_cons_self, chosen rfl⟩ ?_ ?_
  · intro p hp
    simp only [blogJ, Json.exSchema, cls, List.mem_cons, List.not_mem_nil, or_false] at hp
    rcases hp with rfl | rfl <;> exact mayHide rfl
  · intro p v hp hv _
    simp only [blogJ, Json.exSchema, cls, List.mem_cons, List.not_mem_nil, or_false] at hp
    rcases hp with rfl | rfl
    · have hv : some (author "ann") = some v := hv
      cases hv
      exact .record rfl (.inr trivial) rfl (fun f w h => by cases h) (authorTrip (by decide))
    · have hv : some (Val.dcoll "Replies" [(.str "x", author "bob")]) = some v := hv
      cases hv
      refine .record rfl (.inl rfl) rfl (fun f w h => by cases h) (.dict rfl ?_ (by simp) ?_)
      · intro p hp _
        simp only [blogJ, Json.exSchema, cls, List.mem_cons, List.not_mem_nil, or_false] at hp
        subst hp
        exact ⟨rfl, by decide⟩
      · intro x hx
        simp only [List.mem_cons, List.not_mem_nil, or_false] at hx
        subst hx
        exact .record rfl (authorTrip (by decide))

example : ∃ c, clsOf (.rcd "Thread" threadSlots) = some c ∧
    ComesBack blogJ blogSelf {} showTime readTime c (.rcd "Thread" threadSlots) :=
  C53_partial laws ok (ord := id) (fun _ _ => Iff.rfl) (.all rfl) rfl threadTrip

example : visit blogJ 5 blogSelf {} showTime (.rcd "Thread" threadSlots) =
    .ok (.dict [(.str "by", .dict [(.str "name", .str "ann")]),
      (.str "replies", .dict [(.str "values", .dict [(.str "x", .dict [(.str "name", .str "bob")])])])]) := by
  decide +kernel

/-! ## The literal statement is false -/

/-- An author without a rank, and one whose rank is `None`. -/
def ranked : List (String × Val) := [("name", .str "ann"), ("rank", .none)]

theorem rankedSound : Sound blogJ {} none applyDefault applyDefault [] (.rcd "Author" ranked) := by
  refine .record rfl ?_ ?_
  · intro p hp
    simp only [blogJ, Json.exSchema, cls, List.mem_cons, List.not_mem_nil, or_false] at hp
    rcases hp with rfl | rfl <;> exact mayHide rfl
  · intro p v hp hv _
    simp only [blogJ, Json.exSchema, cls, List.mem_cons, List.not_mem_nil, or_false] at hp
    rcases hp with rfl | rfl
    · have hv : some (Val.str "ann") = some v := hv
      cases hv
      exact .leaf (fun d h => by cases h) rfl rfl rfl rfl (Json.atomWF _)
        ⟨.inl rfl, fun f h => (by cases h), fun h => by cases h.2.1⟩
    · have hv : some Val.none = some v := hv
      cases hv
      exact .leaf (fun d h => by cases h) rfl rfl rfl rfl (Json.atomWF _)
        ⟨.inl rfl, fun f h => (by cases h), fun h => by cases h.2.1⟩

end Trips

/-- C53 is violated: a visit ignores values that are `None`, also if the property is not set by default. -/
theorem C53_violated : ¬ C53_statement := by
  intro h
  obtain ⟨n0, hn0⟩ := h Trips.blogJ Trips.blogSelf {} applyDefault applyDefault "Author" Trips.ranked Trips.laws Trips.ok rfl rfl
    Trips.rankedSound 0
  obtain ⟨j, w, h1, h2, h3⟩ := hn0 (n0 + 1) (by omega)
  have e1 : visit Trips.blogJ (n0 + 1) Trips.blogSelf {} applyDefault (.rcd "Author" Trips.ranked) =
      .ok (.dict [(.str "name", .str "ann")]) := by with_unfolding_all rfl
  rw [e1] at h1
  cases h1
  have e2 : cast Trips.blogJ 0 (n0 + 1) {} applyDefault (.cls "Author") (.dict [(.str "name", .str "ann")]) =
      .ok (.rcd "Author" [("name", .str "ann")]) := by with_unfolding_all rfl
  rw [e2] at h2
  cases h2
  revert h3
  decide +kernel

/-- Another way in which C53 fails: an object without properties is shown as an empty dict, for which `cast` calls
`reverse` instead of the constructor. -/
theorem C53_violated_empty {m n : Nat} : visit Trips.blogJ (n + 1) Trips.blogSelf {} applyDefault (.rcd "Nothing" []) = .ok (.dict []) ∧
    cast Trips.blogJ m (n + 1) {} applyDefault (.cls "Nothing") (.dict []) = .ok (.dict []) ∧
    veq Trips.blogJ.S (.dict []) (.rcd "Nothing" []) ≠ .ok true := by
  refine ⟨rfl, rfl, ?_⟩
  decide +kernel

/-- Another way: of a property that can hold a text or a record, `cast` reads no text. -/
theorem C53_violated_union {m n : Nat} :
    visit Trips.blogJ (n + 2) Trips.blogSelf {} applyDefault (.rcd "Fan" [("likes", .str "ann")]) =
      .ok (.dict [(.str "likes", .str "ann")]) ∧
    cast Trips.blogJ m (n + 2) {} applyDefault (.cls "Fan") (.dict [(.str "likes", .str "ann")]) =
      .error (.grokRecord [.str "likes"]) :=
  ⟨by with_unfolding_all rfl, by with_unfolding_all rfl⟩

/-- Another way: a record comes back as one of the first class that takes its data. -/
theorem C53_violated_classes {m n : Nat} :
    visit Trips.blogJ (n + 2) Trips.blogSelf {} applyDefault
        (.rcd "Fan" [("likes", .rcd "Reader" [("name", .str "ann")])]) =
      .ok (.dict [(.str "likes", .dict [(.str "name", .str "ann")])]) ∧
    cast Trips.blogJ m (n + 2) {} applyDefault (.cls "Fan")
        (.dict [(.str "likes", .dict [(.str "name", .str "ann")])]) =
      .ok (.rcd "Fan" [("likes", .rcd "Author" [("name", .str "ann")])]) ∧
    veq Trips.blogJ.S (.rcd "Fan" [("likes", .rcd "Author" [("name", .str "ann")])])
      (.rcd "Fan" [("likes", .rcd "Reader" [("name", .str "ann")])]) ≠ .ok true :=
  ⟨by with_unfolding_all rfl, by with_unfolding_all rfl, by decide +kernel⟩

end Normalize.Visit
