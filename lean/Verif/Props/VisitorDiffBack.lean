import Verif.Props.JsonDiffBack
import Verif.Props.VisitorTrip

/-!
# C131, continued: what is cast from what a visit shows has no differences from what was visited
-/

namespace Normalize.Diff
open Ident (IProp Schema readAttr veq Sub AtomLaws)
open Spec (Real FlatItems FlatRecord IsAtom Agree AgreeAt NoDiffs)

variable {o : Opts}

/-- **C131 for visits (what holds).** An object that can be cast from what a visit shows of it (the conditions of C53)
has no differences from what is cast, in either direction, with the conditions of `C131_partial` on collections. -/
theorem C131_visit_partial (D : Setup) (J : Json.Setup) (hS : J.S = D.S) (hc : Spec.ComparePure D)
    (hi : ∀ v, D.compareItemAs v = none) (ho : OrdOK D.hooks) (L : AtomLaws D.S) (hd : o.duckType = false)
    (hf : o.compareFilter = none) (he : o.extraneous = false) (hJ : Visit.SchemaOK J)
    {self : IProp → Val} {vo : Visit.Opts} {sel : Option (List FS)} {ap rev : Spec.Leaf}
    {ord : List MArg → List MArg} (hord : Mfs.OrdOK ord) (hsel : Visit.FilterIs ord vo sel) (hes : vo.emptySlots = false)
    {v : Val} (ht : Spec.Trip J vo sel ap rev [] v) (hv : Real D.S v) (hfl : ∀ u, Sub u v → FlatItems D u) :
    ∃ c, Json.clsOf v = some c ∧ ∀ m, ∃ n0, ∀ n, n0 ≤ n → ∃ j w, Visit.visit J n self vo ap v = .ok j ∧
      Visit.cast J m n vo rev (.cls c) j = .ok w ∧ (Real D.S w → SameEitherWay D o v w) := by
  have T : Json.Trip J.S (BackAs D _) := hS ▸ trip_back D hc hi L he (walk_either (o := o) D)
  obtain ⟨c, _, hcl, _⟩ := Visit.trip_good (self := self) (mk := Json.make J 0) T hJ hord hsel hes v [] ht
  have htag : tagOf v ≠ none := by
    cases v with
    | atom a => cases hcl
    | list xs => cases hcl
    | dict xs => cases hcl
    | _ => simp [tagOf]
  refine ⟨c, hcl, fun m => ?_⟩
  obtain ⟨c', j, hc', _, ⟨n1, h1⟩, n2, h2⟩ := Visit.trip_good (self := self) (mk := Json.make J m) T hJ hord hsel hes v [] ht
  rw [hcl] at hc'
  cases hc'
  refine ⟨max n1 n2, fun n hn => ?_⟩
  obtain ⟨w, hw, _, hq⟩ := h2 n (by omega)
  exact ⟨j, w, by simp only [Visit.visit, hcl]; exact h1 n (by omega), hw,
    fun hr => noDiffs_back D hc.flat ho L hd hf hv hr htag hq.tag (hq.agree ⟨hv, hfl⟩)⟩

/-! ## An example -/

namespace Ex

theorem okLog (b : Bool) : Visit.SchemaOK (jsonLog b) where
  names c := by
    show ((clsLog b c).props.map (·.name)).Nodup
    unfold clsLog
    split <;> cases b <;> decide +kernel
  noneFalse := rfl

theorem chosenLog {path : FS} {p : IProp} (h : p.extraneous = false) : Spec.Chosen {} none path p :=
  ⟨.inl h, fun _ h => by cases h⟩

theorem mayHideLog {path : FS} {c : String} {s : List (String × Val)} {p : IProp} (h : p.unset = none) :
    Spec.MayHide (jsonLog false) {} none path c s p where
  hidden v hv hc := by
    by_contra hne
    exact hc (chosenLog (by simpa using hne))
  v1 := h
  eager he _ := by
    have h1 := he.2
    have : ((jsonLog false).info c p.name).default = none ∧ ((jsonLog false).info c p.name).required = false := by
      simp only [jsonLog, infoLog]
      split <;> exact ⟨rfl, rfl⟩
    simp [this] at h1

theorem leafLog {path : FS} {c : String} {p : IProp} {a : Atom} (hp : p.types = []) (hk : Spec.Kept {} (.atom a))
    (ha : Val.atom a ≠ .atom (.opq 7)) (hb : Val.atom a ≠ .str "noon") :
    Spec.TripField (jsonLog false) {} none Visit.Trips.showTime Visit.Trips.readTime path c p (.atom a) := by
  have : ((jsonLog false).info c p.name).check = none ∧ ((jsonLog false).info c p.name).required = false := by
    simp only [jsonLog, infoLog]
    split <;> exact ⟨rfl, rfl⟩
  exact .leaf (fun d h => by rw [hp] at h; cases h) (fun _ => rfl) (Visit.Trips.inverts hk ha hb rfl) (Json.atomWF _)
    ⟨.inl hp, fun f h => (by rw [this.1] at h; cases h), fun h => by rw [this.2] at h; cases h.2.1⟩

theorem visitTripLog {path : FS} {i : Int} {p : String} (h : p ≠ "noon") :
    Spec.Trip (jsonLog false) {} none Visit.Trips.showTime Visit.Trips.readTime path (logVisit i p) := by
  refine .record rfl ⟨⟨"no", false, [], none⟩, by decide +kernel, chosenLog rfl⟩ ?_ ?_
  · intro p hp
    simp only [jsonLog, clsLog, List.mem_cons, List.not_mem_nil, or_false] at hp
    rcases hp with rfl | rfl | rfl <;> exact mayHideLog rfl
  · intro q v hp hv hch
    simp only [jsonLog, clsLog, List.mem_cons, List.not_mem_nil, or_false] at hp
    rcases hp with rfl | rfl | rfl
    · have hv : none = some v := hv
      cases hv
    · have hv : some (Val.int i) = some v := hv
      cases hv
      exact leafLog rfl ⟨fun h => (by cases h.1), fun h => (by cases h.2)⟩ (by simp) (by simp [Val.str])
    · have hv : some (Val.str p) = some v := hv
      cases hv
      exact leafLog rfl ⟨fun h => (by cases h.1), fun h => (by cases h.2)⟩ (by simp) (by simpa [Val.str] using h)

theorem tripLog : Spec.Trip (jsonLog false) {} none Visit.Trips.showTime Visit.Trips.readTime [] logOf := by
  refine .record rfl ⟨⟨"title", false, [], none⟩, by decide +kernel, chosenLog rfl⟩ ?_ ?_
  · intro p hp
    simp only [jsonLog, clsLog, List.mem_cons, List.not_mem_nil, or_false] at hp
    rcases hp with rfl | rfl | rfl <;> exact mayHideLog rfl
  · intro q v hp hv hch
    simp only [jsonLog, clsLog, List.mem_cons, List.not_mem_nil, or_false] at hp
    rcases hp with rfl | rfl | rfl
    · have hv : none = some v := hv
      cases hv
    · have hv : some (Val.str "today") = some v := hv
      cases hv
      exact leafLog rfl ⟨fun h => (by cases h.1), fun h => (by cases h.2)⟩ (by simp) (by simp [Val.str])
    · have hv : some (Val.lcoll "Log visits" [logVisit 1 "home", logVisit 2 "news"]) = some v := hv
      cases hv
      refine .record rfl (.inl rfl) rfl (fun f w h => by cases h) (.list rfl ?_ ?_)
      · intro p hp _; cases hp
      · intro i v hi
        match i, hi with
        | 0, hi => cases hi; exact .record rfl (visitTripLog (by decide))
        | 1, hi => cases hi; exact .record rfl (visitTripLog (by decide))
        | n + 2, hi => simp at hi

/-- The log meets the hypotheses of `C131_visit_partial`, with and without `recurse`. -/
example (b : Bool) := C131_visit_partial (o := { recurse := b }) (self := fun _ => .none) (setupLog false) (jsonLog false)
  rfl (.none fun _ => rfl) (fun _ => rfl) (fun _ _ => List.Perm.refl _) (lawsLog false) rfl rfl rfl (okLog false) (ord := id)
  (fun _ _ => Iff.rfl) (.all rfl) rfl tripLog (real_log false) flat_log

end Ex
end Normalize.Diff
