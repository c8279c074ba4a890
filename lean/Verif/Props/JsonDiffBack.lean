import Verif.Lemmas.DiffBack
import Verif.Props.JsonBack
import Verif.Props.DiffEx

/-!
# C131: what is read back from JSON has no differences from what was written
-/

namespace Normalize.Diff
open Ident (IProp Schema readAttr veq Sub AtomLaws)
open Spec (Real FlatItems FlatRecord IsAtom Agree AgreeAt NoDiffs)

variable {o : Opts}

/-- C131: whenever a record can be read back from what `to_json` makes of it (the conditions of C48), it has no
differences from what is read. -/
def C131_statement : Prop :=
  ∀ (D : Setup) (J : Json.Setup) (e : Bool) (c : String) (s : List (String × Val)) (j w : Val) (n m : Nat), J.S = D.S →
    (∀ p, D.compareAs p = none) → (∀ v, D.compareItemAs v = none) → OrdOK D.hooks → AtomLaws D.S →
    Spec.Back J e true (.rcd c s) → Real D.S (.rcd c s) → Json.toJson J e (.rcd c s) = .ok j →
    Json.fromJson J n c j = .ok w → Real D.S w → (diff D.hooks {} m (.rcd c s) w).exc = none →
    NoDiffs (diff D.hooks {} m (.rcd c s) w)

/-- Neither comparison of the two objects finds a difference. -/
def SameEitherWay (D : Setup) (o : Opts) (v w : Val) : Prop :=
  ∀ m, (∀ d ∈ (diff D.hooks o m v w).out, d.kind = .noChange ∨ d.kind = .moved) ∧
    ∀ d ∈ (diff D.hooks o m w v).out, d.kind = .noChange ∨ d.kind = .moved

theorem noDiffs_back (D : Setup) (hc : Spec.CompareFlat D) (ho : OrdOK D.hooks) (L : AtomLaws D.S)
    (hd : o.duckType = false) (hf : o.compareFilter = none) {v w : Val} (hv : Real D.S v) (hw : Real D.S w)
    (ht : tagOf v ≠ none) (hvw : tagOf v = tagOf w)
    (h : if o.recurse then AgreeAt D.hooks o (some v) (some w) else Agree D.hooks o (some v) (some w)) :
    SameEitherWay D o v w := by
  intro m
  refine ⟨(noDiffs_iff D hc ho hd hf m v w hv hw ht hvw).2 h,
    (noDiffs_iff D hc ho hd hf m w v hw hv (hvw ▸ ht) hvw.symm).2 ?_⟩
  split at h
  · rename_i hr
    rw [if_pos hr]
    exact agree_symm_at D hc L h (by rintro _ ⟨⟩; exact hv) (by rintro _ ⟨⟩; exact hw)
  · rename_i hr
    rw [if_neg hr]
    exact agree_symm D hc L h (by rintro _ ⟨⟩; exact hv) (by rintro _ ⟨⟩; exact hw)

/-- The relation that the comparison decides. -/
theorem walk_either (D : Setup) : Walk D o (fun a b => if o.recurse then AgreeAt D.hooks o a b else Agree D.hooks o a b) := by
  cases o.recurse
  · simpa using walk_agree D
  · simpa using walk_agree_at D

/-- **C131 (what holds).** A record that can be read back from JSON has no differences from what is read, in either
direction, with any options for text and for empty values, if lists and dicts of values have items without parts and
the records in collections are identified by values without parts that are not extraneous. -/
theorem C131_partial (D : Setup) (J : Json.Setup) (e : Bool) (hS : J.S = D.S) (hc : Spec.ComparePure D)
    (hi : ∀ v, D.compareItemAs v = none) (ho : OrdOK D.hooks) (L : AtomLaws D.S) (hd : o.duckType = false)
    (hf : o.compareFilter = none) (he : o.extraneous = false) {c : String} {s : List (String × Val)}
    (hb : Spec.Back J e true (.rcd c s)) (hv : Real D.S (.rcd c s)) (hfl : ∀ u, Sub u (.rcd c s) → FlatItems D u) :
    (∃ j n0, Json.toJson J e (.rcd c s) = .ok j ∧ ∀ n, n0 ≤ n → ∃ w, Json.fromJson J n c j = .ok w ∧
      (Real D.S w → SameEitherWay D o (.rcd c s) w)) ∧
    ∃ j n0, Json.jsonData J e (.rcd c s) = .ok j ∧ ∀ n, n0 ≤ n → ∃ w, Json.fromJson J n c j = .ok w ∧
      (Real D.S w → SameEitherWay D o (.rcd c s) w) := by
  have T : Json.Trip J.S (BackAs D _) := hS ▸ trip_back D hc hi L he (walk_either (o := o) D)
  have last : ∀ w, BackAs D (fun a b => if o.recurse then AgreeAt D.hooks o a b else Agree D.hooks o a b) w (.rcd c s) →
      Real D.S w → SameEitherWay D o (.rcd c s) w := fun w h hw =>
    noDiffs_back D hc.flat ho L hd hf hv hw (by simp [tagOf]) h.tag (h.agree ⟨hv, hfl⟩)
  obtain ⟨⟨j, hj, n0, hn⟩, j', hj', n0', hn'⟩ := Json.back_trip T hb
  refine ⟨⟨j, n0, hj, fun n h => ?_⟩, j', n0', hj', fun n h => ?_⟩
  · obtain ⟨w, hw, _, hq⟩ := hn n h
    exact ⟨w, hw, last w hq⟩
  · obtain ⟨w, hw, _, hq⟩ := hn' n h
    exact ⟨w, hw, last w hq⟩

/-! ## Examples -/

namespace Ex

/-- A log of visits, which are identified by their numbers; `b` says whether the numbers are extraneous. -/
def clsLog (b : Bool) : String → Ident.ICls
  | "Log" => { props := [⟨"unknown_json_keys", true, [], none⟩, ⟨"title", false, [], none⟩,
      ⟨"visits", false, [.cls "Log visits"], none⟩] }
  | "Log visits" => { coll := some (.list, .one (.cls "Log visit")) }
  | "Log visit" =>
    { props := [⟨"unknown_json_keys", true, [], none⟩, ⟨"no", b, [], none⟩, ⟨"page", false, [], none⟩]
      pk := [⟨"no", b, [], none⟩] }
  | _ => {}

def infoLog : String → String → Json.JInfo
  | _, "unknown_json_keys" => { json := some { jsonName := some none } }
  | "Log", "title" => { json := some { jsonName := some (some "Title") } }
  | _, _ => {}

def jsonLog (b : Bool) : Json.Setup :=
  { S := { schema with cls := clsLog b }, info := infoLog, isJson := fun _ => true, isa := fun _ _ => false
    make := fun _ _ => .error .typeError, loads := fun _ => .error .valueCheck }

def setupLog (b : Bool) : Setup := { setup {} with S := { schema with cls := clsLog b } }

def logVisit (i : Int) (p : String) : Val := .rcd "Log visit" [("no", .int i), ("page", .str p)]

def logSlots : List (String × Val) :=
  [("title", .str "today"), ("visits", .lcoll "Log visits" [logVisit 1 "home", logVisit 2 "news"])]

def logOf : Val := .rcd "Log" logSlots

theorem lawsLog (b : Bool) : AtomLaws (setupLog b).S := ⟨laws.refl, laws.symm, laws.trans⟩

theorem back_visit (b m : Bool) (i : Int) (p : String) (hi : -(2 ^ 50) ≤ i ∧ i ≤ 2 ^ 50) :
    Spec.Back (jsonLog b) false m (logVisit i p) := by
  refine .record (.inl rfl) rfl (by cases b <;> decide +kernel) (Json.exDistinct (by cases b <;> decide +kernel))
    (fun _ => Json.exKeepsOf rfl ⟨_, List.mem_cons_self, rfl, rfl, rfl⟩ (by cases b <;> decide +kernel)) (fun _ u hu => ?_) ?_ ?_
  · have hu : none = some u := hu
    cases hu
  · intro p hp
    simp only [jsonLog, clsLog, List.mem_cons, List.not_mem_nil, or_false] at hp
    rcases hp with rfl | rfl | rfl <;> exact Json.exMayMiss (by cases b <;> decide +kernel) rfl rfl rfl
  · intro q v hp hv hw
    simp only [jsonLog, clsLog, List.mem_cons, List.not_mem_nil, or_false] at hp
    rcases hp with rfl | rfl | rfl
    · have hv : none = some v := hv
      cases hv
    · have hv : some (Val.int i) = some v := hv
      cases hv
      exact Json.exPlainField (fun o h => by cases h) rfl ⟨.int hi.1 hi.2, Json.atomWF _⟩ rfl rfl
    · have hv : some (Val.str p) = some v := hv
      cases hv
      exact Json.exPlainField (fun o h => by cases h) rfl (Json.exStr _) rfl rfl

theorem back_log (b : Bool) : Spec.Back (jsonLog b) false true logOf := by
  refine .record (.inl rfl) rfl (by cases b <;> decide +kernel) (Json.exDistinct (by cases b <;> decide +kernel))
    (fun _ => Json.exKeepsOf rfl ⟨_, List.mem_cons_self, rfl, rfl, rfl⟩ (by cases b <;> decide +kernel)) (fun _ u hu => ?_) ?_ ?_
  · have hu : none = some u := hu
    cases hu
  · intro p hp
    simp only [jsonLog, clsLog, List.mem_cons, List.not_mem_nil, or_false] at hp
    rcases hp with rfl | rfl | rfl <;> exact Json.exMayMiss (by cases b <;> decide +kernel) rfl rfl rfl
  · intro q v hp hv hw
    simp only [jsonLog, clsLog, List.mem_cons, List.not_mem_nil, or_false] at hp
    rcases hp with rfl | rfl | rfl
    · have hv : none = some v := hv
      cases hv
    · have hv : some (Val.str "today") = some v := hv
      cases hv
      exact Json.exPlainField (fun o h => by cases h; exact ⟨rfl, rfl⟩) rfl (Json.exStr _) rfl rfl
    · have hv : some (Val.lcoll "Log visits" [logVisit 1 "home", logVisit 2 "news"]) = some v := hv
      cases hv
      refine .record (fun o h => by cases h) rfl rfl rfl (fun f w h => by cases h) (.jlist rfl rfl ?_)
      intro x hx
      simp only [List.mem_cons, List.not_mem_nil, or_false] at hx
      rcases hx with rfl | rfl <;> exact .record rfl (back_visit b _ _ _ (by omega))

theorem real_visit (b : Bool) {s : List (String × Val)} (h : (s.map (·.1)).Nodup) (hs : ∀ x ∈ s, (x.1 = "no" ∨ x.1 = "page") ∧
    ∃ a, x.2 = .atom a) : Real (setupLog b).S (.rcd "Log visit" s) := by
  refine .rcd ⟨h, fun x hx => ?_⟩ rfl ?_
  · simp only [setupLog, clsLog, List.mem_cons, List.not_mem_nil, or_false]
    rcases (hs x hx).1 with h | h
    · exact ⟨_, .inr (.inl rfl), h.symm⟩
    · exact ⟨_, .inr (.inr rfl), h.symm⟩
  · intro x hx
    obtain ⟨a, ha⟩ := (hs x hx).2
    rw [ha]
    exact .atom a

theorem real_logOf (b : Bool) {t : Val} {l : List Val} (ht : ∃ a, t = .atom a) (h : ∀ x ∈ l, ∃ s, x = .rcd "Log visit" s ∧ Real (setupLog b).S x) :
    Real (setupLog b).S (.rcd "Log" [("title", t), ("visits", .lcoll "Log visits" l)]) := by
  refine .rcd ⟨by simp, fun x hx => ?_⟩ rfl ?_
  · simp only [List.mem_cons, List.not_mem_nil, or_false] at hx
    simp only [setupLog, clsLog, List.mem_cons, List.not_mem_nil, or_false]
    rcases hx with rfl | rfl
    · exact ⟨_, .inr (.inl rfl), rfl⟩
    · exact ⟨_, .inr (.inr rfl), rfl⟩
  · intro x hx
    simp only [List.mem_cons, List.not_mem_nil, or_false] at hx
    rcases hx with rfl | rfl
    · obtain ⟨a, rfl⟩ := ht
      exact .atom a
    · refine .lcoll ⟨⟨_, rfl⟩, fun _ _ _ x hx => ?_⟩ (fun x hx => ?_)
      · obtain ⟨s, rfl, _⟩ := h x hx
        simp [clsOf]
      · obtain ⟨s, _, hr⟩ := h x hx
        exact hr

theorem real_log (b : Bool) : Real (setupLog b).S logOf := by
  refine real_logOf b ⟨_, rfl⟩ ?_
  intro x hx
  simp only [List.mem_cons, List.not_mem_nil, or_false] at hx
  rcases hx with rfl | rfl
  · exact ⟨_, rfl, real_visit b (by decide) (by simp; exact ⟨⟨_, rfl⟩, _, rfl⟩)⟩
  · exact ⟨_, rfl, real_visit b (by decide) (by simp; exact ⟨⟨_, rfl⟩, _, rfl⟩)⟩

theorem flat_log : ∀ u, Sub u logOf → FlatItems (setupLog false) u := by
  intro u hu
  cases hu with
  | self => trivial
  | rcd hm hs =>
    simp only [logSlots, List.mem_cons, Prod.mk.injEq, List.not_mem_nil, or_false] at hm
    rcases hm with ⟨rfl, rfl⟩ | ⟨rfl, rfl⟩
    · cases hs
      trivial
    · cases hs with
      | self =>
        refine ⟨⟨_, _, rfl⟩, fun h => absurd rfl (h .list "Log visit"), fun _ x hx => ?_⟩
        have key : ∀ (i : Int) (p : String), (∃ k, (setupLog false).hooks.recId none none (logVisit i p) = .ok k) →
            FlatRecord (setupLog false) (logVisit i p) := by
          intro i p hk
          refine ⟨_, _, rfl, rfl, fun q hq => ?_, hk⟩
          have hq : q = ⟨"no", false, [], none⟩ := by simpa [Ident.Identifies, setupLog, clsLog] using hq
          subst hq
          refine ⟨by simp [setupLog, clsLog], rfl, fun r hr => ?_⟩
          have hr : some (Val.int i) = some r := hr
          cases hr
          exact ⟨_, rfl⟩
        simp only [List.mem_cons, List.not_mem_nil, or_false] at hx
        rcases hx with rfl | rfl <;> exact key _ _ ⟨_, by with_unfolding_all rfl⟩
      | lcoll hm hs =>
        simp only [List.mem_cons, List.not_mem_nil, or_false] at hm
        rcases hm with rfl | rfl <;> cases hs with
        | self => trivial
        | rcd hm hs =>
          simp only [List.mem_cons, Prod.mk.injEq, List.not_mem_nil, or_false] at hm
          rcases hm with ⟨rfl, rfl⟩ | ⟨rfl, rfl⟩ <;> cases hs <;> trivial

/-- The log meets the hypotheses of `C131_partial`. -/
example := C131_partial (o := {}) (setupLog false) (jsonLog false) false rfl (.none fun _ => rfl) (fun _ => rfl)
  (fun _ _ => List.Perm.refl _) (lawsLog false) rfl rfl rfl (back_log false) (real_log false) flat_log

/-- What is written and read. -/
example : Json.toJson (jsonLog false) false logOf = .ok (.dict [(.str "Title", .str "today"), (.str "visits",
    .list [.dict [(.str "no", .int 1), (.str "page", .str "home")], .dict [(.str "no", .int 2), (.str "page", .str "news")]])]) ∧
    Json.fromJson (jsonLog false) 9 "Log" (.dict [(.str "Title", .str "today"), (.str "visits",
    .list [.dict [(.str "no", .int 1), (.str "page", .str "home")], .dict [(.str "no", .int 2), (.str "page", .str "news")]])]) =
    .ok logOf := by
  decide +kernel

/-- The log without the numbers of the visits. -/
def logBare : Val := .rcd "Log" [("title", .str "today"),
  ("visits", .lcoll "Log visits" [.rcd "Log visit" [("page", .str "home")], .rcd "Log visit" [("page", .str "news")]])]

def logDoc : Val := .dict [(.str "Title", .str "today"),
  (.str "visits", .list [.dict [(.str "page", .str "home")], .dict [(.str "page", .str "news")]])]

theorem real_bare (b : Bool) : Real (setupLog b).S logBare := by
  refine real_logOf b ⟨_, rfl⟩ ?_
  intro x hx
  simp only [List.mem_cons, List.not_mem_nil, or_false] at hx
  rcases hx with rfl | rfl
  · exact ⟨_, rfl, real_visit b (by decide) (by simp; exact ⟨_, rfl⟩)⟩
  · exact ⟨_, rfl, real_visit b (by decide) (by simp; exact ⟨_, rfl⟩)⟩

end Ex

/-! ## What does not hold -/

/-- **C131 does not hold**: extraneous properties are not written, and what is read back is equal to the record, but if
the primary key is extraneous, the members of collections are found by it. -/
theorem C131_violated : ¬ C131_statement := by
  intro h
  have := h (Ex.setupLog true) (Ex.jsonLog true) false "Log" Ex.logSlots Ex.logDoc Ex.logBare 9 9 rfl (fun _ => rfl)
    (fun _ => rfl) (fun _ _ => List.Perm.refl _) (Ex.lawsLog true) (Ex.back_log true) (Ex.real_log true)
    (by decide +kernel) (by decide +kernel) (Ex.real_bare true) (by decide +kernel)
  exact absurd this.2 (by decide +kernel)

/-- The two are equal all the same. -/
example : veq (Ex.setupLog true).S Ex.logBare Ex.logOf = .ok true := by decide +kernel

end Normalize.Diff
