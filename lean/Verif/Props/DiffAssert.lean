import Verif.Lemmas.Diff
import Verif.Lemmas.Mfs2
import Verif.Props.DiffEx
import Verif.Props.DiffMirror
import Verif.Props.Mfs
import Verif.Props.DiffFilter
import Verif.Lemmas.AutoJson

/-!
# C89: comparing with what is not there
-/

namespace Normalize.Diff
open Ident (IProp ICls Ty ItemTy CollKind Schema readAttr)
open Gen

variable {E F : Type} [DecidableEq E] [DecidableEq F] {H : Hooks E F} {o : Opts}

/-- The functions that the user can override do not fail an assertion of their own, nor make something of an unset
slot. -/
structure GoodHooks (H : Hooks E F) : Prop where
  unset : ∀ p obj, H.normSlot none p obj = .ok none
  slot : ∀ v p obj, H.normSlot v p obj ≠ .error .assertionError
  item : ∀ c v, H.itemId c v ≠ .error .assertionError
  equal : ∀ x y, H.itemsEqual x y ≠ .error .assertionError
  id : ∀ t s v, H.recId t s v ≠ .error .assertionError

/-- No assertion failed. -/
def Fine (g : Gen) : Prop := g.exc ≠ some .assertionError

/-- All differences are of this kind. -/
def Only (k : DType) (g : Gen) : Prop := ∀ d ∈ g.out, d.kind = k ∨ d.kind = .noChange

theorem fine_nil : Fine nil := by simp [Fine]
theorem fine_yield {k : DType} {p q : FS} : Fine (yield k p q) := by simp [Fine]

theorem fine_append {g h : Gen} (hg : Fine g) (hh : Fine h) : Fine (g ++ h) := by
  unfold Fine at *
  cases he : g.exc with
  | none =>
    rw [append_def]
    simpa [Gen.append, he] using hh
  | some e => rw [append_raised he]; exact hg

theorem fine_when {b : Bool} {g : Gen} (h : Fine g) : Fine (when b g) := by
  cases b
  · exact fine_nil
  · exact h

theorem fine_forEach {α : Type} {f : α → Gen} {l : List α} (h : ∀ x ∈ l, Fine (f x)) : Fine (forEach f l) := by
  induction l with
  | nil => exact fine_nil
  | cons x xs ih => exact fine_append (h x (by simp)) (ih (fun y hy => h y (by simp [hy])))

theorem fine_bindE {α : Type} {r : Except Exc α} {f : α → Gen} (hr : r ≠ .error .assertionError) (h : ∀ a, r = .ok a → Fine (f a)) : Fine (bindE r f) := by
  cases r with
  | error e =>
    simp only [bindE_error, Fine, exc_raise]
    intro he
    cases he
    exact hr rfl
  | ok a => exact h a rfl

theorem only_nil {k : DType} : Only k nil := by simp [Only]

theorem only_append {k : DType} {g h : Gen} (hg : Only k g) (hh : Only k h) : Only k (g ++ h) := fun d hd => (mem_append hd).elim (hg d) (hh d)

theorem only_when {k : DType} {b : Bool} {g : Gen} (h : Only k g) : Only k (when b g) := fun d hd => h d (mem_when hd).2

theorem only_forEach {k : DType} {α : Type} {f : α → Gen} {l : List α} (h : ∀ x ∈ l, Only k (f x)) : Only k (forEach f l) := fun d hd => by
  obtain ⟨x, hx, h'⟩ := mem_forEach hd
  exact h x hx d h'

theorem only_bindE {k : DType} {α : Type} {r : Except Exc α} {f : α → Gen} (h : ∀ a, r = .ok a → Only k (f a)) : Only k (bindE r f) := fun d hd => by
  obtain ⟨a, ha, h'⟩ := mem_bindE hd
  exact h a ha d h'

theorem only_yield {k : DType} {p q : FS} : Only k (yield k p q) := by simp [Only]

theorem only_noChange {k : DType} {p q : FS} : Only k (yield .noChange p q) := by simp [Only]

theorem mapE_error {α β : Type} {f : α → Except Exc β} {e : Exc} : ∀ {l : List α}, mapE f l = .error e → ∃ x ∈ l, f x = .error e
  | [], h => by cases h
  | x :: xs, h => by
    simp only [mapE] at h
    cases hx : f x with
    | error e' =>
      simp only [hx] at h
      cases h
      exact ⟨x, by simp, hx⟩
    | ok y =>
      simp only [hx] at h
      cases hr : mapE f xs with
      | error e' =>
        simp only [hr] at h
        cases h
        obtain ⟨z, hz, he⟩ := mapE_error hr
        exact ⟨z, by simp [hz], he⟩
      | ok ys => simp [hr] at h

theorem tuplesOf_noassert (x : Option Val) : tuplesOf x ≠ .error .assertionError := by
  unfold tuplesOf
  split <;> simp

theorem itemAt_noassert (x : Option Val) (k : Comp) : itemAt x k ≠ .error .assertionError := by
  cases x with
  | none => simp [itemAt]
  | some v =>
    simp only [itemAt]
    unfold getItem
    split <;> (try split) <;> simp

theorem simpleBag_noassert (hg : GoodHooks H) (a x : Option Val) : simpleBag H o a x ≠ .error .assertionError := by
  unfold simpleBag
  have := tuplesOf_noassert x
  split
  · rename_i e he
    rw [he] at this
    intro hc
    cases hc
    exact this rfl
  · split
    · rename_i e he
      obtain ⟨kv, _, h⟩ := mapE_error he
      intro hc
      cases hc
      cases hi : H.itemId (if o.duckType then a else x) kv.2 with
      | error e => rw [hi] at h; simp [Except.map] at h; subst h; exact hg.item _ _ hi
      | ok i => rw [hi] at h; simp [Except.map] at h
    · simp

theorem collBag_noassert (hg : GoodHooks H) (ty : Option Ty) (ia : IdArgs) (fa : FS) (x : Option Val) : collBag H o ty ia fa x ≠ .error .assertionError := by
  unfold collBag
  have := tuplesOf_noassert x
  split
  · rename_i e he
    rw [he] at this
    intro hc
    cases hc
    exact this rfl
  · split
    · rename_i e he
      obtain ⟨kv, _, h⟩ := mapE_error he
      intro hc
      cases hc
      cases hi : H.recId ty (ia.selector kv.1) kv.2 with
      | error e => rw [hi] at h; simp [Except.map] at h; subst h; exact hg.id _ _ _ hi
      | ok i => rw [hi] at h; simp [Except.map] at h
    · simp

theorem pairsOf_noassert (A B : List (Ent (Id E))) : pairsOf H o A B ≠ .error .assertionError := by
  unfold pairsOf fuzzyMatch
  split
  · split
    · rename_i e he
      obtain ⟨p, _, h⟩ := mapE_error he
      unfold scoreOne score at h
      intro hc
      cases hc
      split at h
      · rename_i e' he'
        cases h
        split at he' <;> cases he'
      · cases h
    · simp
  · simp

theorem idArgs_noassert (hf : ∀ h, o.compareFilter = some h → Mfs.WF h) (fs : FS) : idArgs o fs ≠ .error .assertionError := by
  unfold idArgs
  cases ha : o.active with
  | none => simp
  | some h =>
    have w : Mfs.WF h := by
      unfold Opts.active at ha
      exact hf h (Option.filter_eq_some_iff.1 ha).1
    simp only
    split
    · simp
    · rename_i cf hcf
      have w' : Mfs.WF cf := by
        split at hcf
        · cases hcf; exact w
        · exact (Mfs.getPath_some w hcf).1
      split
      · rename_i hn
        obtain ⟨t, rfl⟩ := w'.single hn
        split
        · rename_i e he
          unfold getAny at he
          split at he <;> cases he
        · simp
      · simp

theorem only_compareBags {A B : List (Ent (Option F))} (ho : OrdOK H) {fa fb : FS} :
    (A = [] → Only .added (compareBags H o fa fb A B)) ∧ (B = [] → Only .removed (compareBags H o fa fb A B)) := by
  constructor
  · rintro rfl
    unfold compareBags
    refine only_append (only_append (only_append (only_when ?_) (only_forEach ?_)) (only_forEach ?_)) (only_forEach ?_)
    · simp only [common, List.filterMap_nil, ho.nil]; exact only_nil
    · intro e he
      rw [ho.mem] at he
      simp [minus] at he
    · intro e _
      exact only_when only_yield
    · intro k hk
      rw [ho.mem] at hk
      simp [modifiedKeys, minus] at hk
  · rintro rfl
    unfold compareBags
    refine only_append (only_append (only_append (only_when ?_) (only_forEach ?_)) (only_forEach ?_)) (only_forEach ?_)
    · refine only_forEach (fun k hk => ?_)
      rw [ho.mem] at hk
      simp [common, commonEnt, alookup] at hk
    · intro e _
      exact only_when only_yield
    · intro e he
      rw [ho.mem] at he
      simp [minus] at he
    · intro k hk
      rw [ho.mem] at hk
      simp [modifiedKeys, minus] at hk

theorem fine_compareBags {A B : List (Ent (Option F))} {fa fb : FS} : Fine (compareBags H o fa fb A B) := by
  unfold compareBags
  refine fine_append (fine_append (fine_append (fine_when (fine_forEach fun k _ => ?_)) (fine_forEach fun e _ => ?_)) (fine_forEach fun e _ => ?_)) (fine_forEach fun e _ => ?_)
  · unfold matched
    split
    · exact fine_yield
    · exact fine_when fine_yield
  · exact fine_when fine_yield
  · exact fine_when fine_yield
  · exact fine_yield

/-- What is shown of a comparison. -/
structure OK (a b : Option Val) (g : Gen) : Prop where
  fine : Fine g
  added : a = none → Only .added g
  removed : b = none → Only .removed g

theorem ok_append {a b : Option Val} {g h : Gen} (hg : OK a b g) (hh : OK a b h) : OK a b (g ++ h) :=
  ⟨fine_append hg.fine hh.fine, fun e => only_append (hg.added e) (hh.added e), fun e => only_append (hg.removed e) (hh.removed e)⟩

theorem ok_nil {a b : Option Val} : OK a b nil := ⟨fine_nil, fun _ => only_nil, fun _ => only_nil⟩

theorem ok_raise {a b : Option Val} {e : Exc} (he : e ≠ .assertionError) : OK a b (raise e) :=
  ⟨by simpa [Fine] using he, fun _ => by simp [Only], fun _ => by simp [Only]⟩

theorem ok_when {a b : Option Val} {c : Bool} {g : Gen} (h : OK a b g) : OK a b (when c g) :=
  ⟨fine_when h.fine, fun e => only_when (h.added e), fun e => only_when (h.removed e)⟩

theorem ok_simple (hg : GoodHooks H) (ho : OrdOK H) {a b : Option Val} {fa fb : FS} : OK a b (compareSimple H o a b fa fb) := by
  unfold compareSimple
  refine ⟨fine_bindE (simpleBag_noassert hg _ _) fun A hA => fine_bindE (simpleBag_noassert hg _ _) fun B hB => fine_compareBags, ?_, ?_⟩
  · rintro rfl
    rw [simpleBag_none]
    exact only_bindE fun A hA => only_bindE fun B hB => (only_compareBags ho).1 (by cases hA; rfl)
  · rintro rfl
    rw [simpleBag_none (a := a)]
    exact only_bindE fun A hA => only_bindE fun B hB => (only_compareBags ho).2 (by cases hB; rfl)

/-- If one kind of difference is found, the assertion holds. -/
theorem fine_net {k : DType} {fa fb : FS} {g : Gen} (hf : Fine g) (h : Only k g) : Fine (net o fa fb g) ∧ Only k (net o fa fb g) := by
  unfold net
  cases hx : g.exc with
  | some e =>
    simp only
    unfold Fine at hf
    rw [hx] at hf
    exact ⟨by simpa [Fine] using hf, by simp [Only]⟩
  | none =>
    simp only
    have hk : ∀ t ∈ ((g.out.map (·.kind)).filter (fun t => decide (t ≠ .noChange))).dedup, t = k := by
      intro t ht
      simp only [List.mem_dedup, List.mem_filter, List.mem_map, decide_eq_true_eq] at ht
      obtain ⟨⟨d, hd, rfl⟩, hn⟩ := ht
      exact (h d hd).resolve_right hn
    have hnd : ((g.out.map (·.kind)).filter (fun t => decide (t ≠ .noChange))).dedup.Nodup := List.nodup_dedup _
    generalize ((g.out.map (·.kind)).filter (fun t => decide (t ≠ .noChange))).dedup = l at hk hnd
    match l, hk, hnd with
    | [], _, _ => exact ⟨fine_when fine_yield, only_when only_noChange⟩
    | [t], hk, _ =>
      have := hk t (by simp)
      subst this
      exact ⟨fine_yield, only_yield⟩
    | t :: u :: l, hk, hnd =>
      have h1 := hk t (by simp)
      have h2 := hk u (by simp)
      subst h1
      subst h2
      simp at hnd

theorem ok_vals (hg : GoodHooks H) {rec : Rec} (hr : ∀ a b fa fb, OK a b (rec a b fa fb)) {va vb : Option Val} {fa fb : FS} : OK va vb (compareVals H o rec va vb fa fb) := by
  match va, vb with
  | none, none => exact ok_nil
  | some x, some y =>
    refine ⟨?_, fun h => (nomatch h), fun h => (nomatch h)⟩
    simp only [compareVals]
    split
    · exact (hr _ _ _ _).fine
    · refine fine_bindE (hg.equal _ _) fun eq _ => ?_
      split
      · exact fine_when fine_yield
      · exact fine_yield
  | none, some y =>
    simp only [compareVals]
    split
    · have := fine_net (o := o) (fa := fa) (fb := fb) (hr none (some y) fa fb).fine ((hr none (some y) fa fb).added rfl)
      exact ⟨this.1, fun _ => this.2, fun h => (nomatch h)⟩
    · exact ⟨fine_yield, fun _ => only_yield, fun h => (nomatch h)⟩
  | some x, none =>
    simp only [compareVals]
    split
    · have := fine_net (o := o) (fa := fa) (fb := fb) (hr (some x) none fa fb).fine ((hr (some x) none fa fb).removed rfl)
      exact ⟨this.1, fun h => (nomatch h), fun _ => this.2⟩
    · exact ⟨fine_yield, fun h => (nomatch h), fun _ => only_yield⟩

theorem ok_prop (hg : GoodHooks H) {rec : Rec} (hr : ∀ a b fa fb, OK a b (rec a b fa fb)) {a b : Option Val} {fa fb : FS} {p : IProp} : OK a b (compareProp H o rec a b fa fb p) := by
  unfold compareProp
  refine ok_when ⟨?_, ?_, ?_⟩
  · exact fine_bindE (hg.slot _ _ _) fun va _ => fine_bindE (hg.slot _ _ _) fun vb _ => (ok_vals hg hr).fine
  · rintro rfl
    refine only_bindE fun va hva => only_bindE fun vb _ => (ok_vals hg hr).added ?_
    have : H.normSlot none p none = .ok va := hva
    rw [hg.unset] at this
    cases this
    rfl
  · rintro rfl
    refine only_bindE fun va _ => only_bindE fun vb hvb => (ok_vals hg hr).removed ?_
    have : H.normSlot none p none = .ok vb := hvb
    rw [hg.unset] at this
    cases this
    rfl

theorem ok_forEach {α : Type} {a b : Option Val} {f : α → Gen} {l : List α} (h : ∀ x ∈ l, OK a b (f x)) : OK a b (forEach f l) :=
  ⟨fine_forEach fun x hx => (h x hx).fine, fun e => only_forEach fun x hx => (h x hx).added e, fun e => only_forEach fun x hx => (h x hx).removed e⟩

theorem ok_record (hg : GoodHooks H) {rec : Rec} (hr : ∀ a b fa fb, OK a b (rec a b fa fb)) {a b : Option Val} {fa fb : FS} : OK a b (compareRecord H o rec a b fa fb) := by
  unfold compareRecord
  split
  · exact ok_raise (by simp)
  · exact ok_forEach fun p _ => ok_prop hg hr

theorem ok_members (ho : OrdOK H) {rec : Rec} (hr : ∀ a b fa fb, OK a b (rec a b fa fb)) {a b : Option Val} {fa fb : FS} {A B : List (Ent (Id E))}
    (hA : a = none → A = []) (hB : b = none → B = []) : OK a b (compareMembers H o rec a b fa fb A B) := by
  unfold compareMembers
  split
  · unfold compareKeys
    refine ok_append (ok_append (ok_forEach fun k _ => ?_) ⟨fine_forEach fun k _ => fine_yield, ?_, fun _ => only_forEach fun k _ => only_yield⟩)
      ⟨fine_forEach fun k _ => fine_yield, fun _ => only_forEach fun k _ => only_yield, ?_⟩
    · cases a with
      | none => exact ok_nil
      | some x =>
        cases b with
        | none => exact ok_nil
        | some y =>
          refine ok_when ⟨fine_bindE (itemAt_noassert _ _) fun x' _ => fine_bindE (itemAt_noassert _ _) fun y' _ => (hr _ _ _ _).fine, fun h => (nomatch h), fun h => (nomatch h)⟩
    · intro h
      refine only_forEach fun k hk => ?_
      rw [ho.mem, hA h] at hk
      simp at hk
    · intro h
      refine only_forEach fun k hk => ?_
      rw [ho.mem, hB h] at hk
      simp at hk
  · split
    · rename_i hn
      unfold compareOne
      refine ok_forEach fun e _ => ?_
      unfold descendOne
      cases a with
      | none =>
        simp only
        refine ⟨fine_bindE (itemAt_noassert _ _) fun y _ => (hr _ _ _ _).fine, fun _ => only_bindE fun y _ => (hr _ _ _ _).added rfl, ?_⟩
        rintro rfl
        simp [itemAt, Only]
      | some x =>
        simp only
        exact ⟨fine_bindE (itemAt_noassert _ _) fun y _ => (hr _ _ _ _).fine, fun h => (nomatch h), fun _ => only_bindE fun y _ => (hr _ _ _ _).removed rfl⟩
    · rename_i hn
      simp only [Bool.or_eq_true, Option.isNone_iff_eq_none, not_or] at hn
      refine ⟨?_, fun h => absurd h hn.1, fun h => absurd h hn.2⟩
      have hd : ∀ k, Fine (descend rec a b fa fb k) := by
        intro k
        unfold descend
        exact fine_bindE (itemAt_noassert _ _) fun x _ => fine_bindE (itemAt_noassert _ _) fun y _ => (hr _ _ _ _).fine
      unfold compareIds
      refine fine_append (fine_when (fine_forEach fun k _ => hd k)) (fine_bindE (pairsOf_noassert _ _) fun ps _ => ?_)
      refine fine_append (fine_append (fine_append (fine_forEach fun p _ => ?_) (fine_when (fine_forEach fun k _ => ?_))) (fine_forEach fun e _ => fine_yield)) (fine_forEach fun e _ => fine_yield)
      · unfold fuzzyPair
        refine fine_append (hd _) ?_
        split
        · exact fine_yield
        · exact fine_when fine_yield
      · unfold matched
        split
        · exact fine_yield
        · exact fine_when fine_yield

theorem ok_records (hg : GoodHooks H) (ho : OrdOK H) (hf : ∀ h, o.compareFilter = some h → Mfs.WF h) {rec : Rec} (hr : ∀ a b fa fb, OK a b (rec a b fa fb)) {it : Ty}
    {a b : Option Val} {fa fb : FS} : OK a b (compareRecords H o rec it a b fa fb) := by
  have hm : ∀ ia A B, collBag H o (idType o it) ia fa a = .ok A → collBag H o (idType o it) ia fa b = .ok B → OK a b (compareMembers H o rec a b fa fb A B) := by
    intro ia A B hA hB
    refine ok_members ho hr ?_ ?_
    · rintro rfl
      rw [collBag_none] at hA
      cases hA; rfl
    · rintro rfl
      rw [collBag_none] at hB
      cases hB; rfl
  unfold compareRecords
  refine ⟨?_, ?_, ?_⟩
  · exact fine_bindE (idArgs_noassert hf _) fun ia _ => fine_when (fine_bindE (collBag_noassert hg _ _ _ _) fun A hA => fine_bindE (collBag_noassert hg _ _ _ _) fun B hB => (hm ia A B hA hB).fine)
  · intro h
    exact only_bindE fun ia _ => only_when (only_bindE fun A hA => only_bindE fun B hB => (hm ia A B hA hB).added h)
  · intro h
    exact only_bindE fun ia _ => only_when (only_bindE fun A hA => only_bindE fun B hB => (hm ia A B hA hB).removed h)

theorem ok_coll (hg : GoodHooks H) (ho : OrdOK H) (hf : ∀ h, o.compareFilter = some h → Mfs.WF h) {rec : Rec} (hr : ∀ a b fa fb, OK a b (rec a b fa fb)) {c : String}
    {a b : Option Val} {fa fb : FS} : OK a b (compareColl H o rec c a b fa fb) := by
  unfold compareColl
  split
  · exact ok_raise (by simp)
  · exact ok_raise (by simp)
  · exact ok_simple hg ho
  · exact ok_records hg ho hf hr

theorem ok_diffIter (hg : GoodHooks H) (ho : OrdOK H) (hf : ∀ h, o.compareFilter = some h → Mfs.WF h) : ∀ (n : Nat) (a b : Option Val) (fa fb : FS), OK a b (diffIter H o n a b fa fb)
  | 0, _, _, _, _ => ok_raise (by simp)
  | n + 1, a, b, fa, fb => by
    have ih := ok_diffIter hg ho hf n
    simp only [diffIter]
    unfold dispatch
    split
    · exact ok_simple hg ho
    · exact ok_simple hg ho
    · exact ok_record hg ih
    · exact ok_append (ok_coll hg ho hf ih) (ok_record hg ih)
    · exact ok_append (ok_coll hg ho hf ih) (ok_record hg ih)
    · exact ok_nil
    · exact ok_nil

/-- C89: no comparison fails an assertion, whatever the options and the filter. -/
theorem C89 (hg : GoodHooks H) (ho : OrdOK H) {ord : List MArg → List MArg} (hord : Mfs.OrdOK ord) {qs : List FS}
    (hf : ∀ h, o.compareFilter = some h → Built ord h qs) (n : Nat) (x y : Val) : (diff H o n x y).exc ≠ some .assertionError :=
  (ok_diffIter hg ho (fun h hh => (built_sound hord (hf h hh)).1) n (some x) (some y) [] []).fine

/-- C89: what is there on one side only is reported as added or removed at its own place, and nothing inside it. -/
theorem C89_one_sided (hg : GoodHooks H) (ho : OrdOK H) {ord : List MArg → List MArg} (hord : Mfs.OrdOK ord) {qs : List FS}
    (hf : ∀ h, o.compareFilter = some h → Built ord h qs) (n : Nat) (y : Val) (fa fb : FS) :
    (∀ d ∈ (compareVals H o (diffIter H o n) none (some y) fa fb).out, (d.kind = .added ∨ d.kind = .noChange) ∧ d.base = fa ∧ d.other = fb) ∧
    (∀ d ∈ (compareVals H o (diffIter H o n) (some y) none fa fb).out, (d.kind = .removed ∨ d.kind = .noChange) ∧ d.base = fa ∧ d.other = fb) := by
  have hw : ∀ h, o.compareFilter = some h → Mfs.WF h := fun h hh => (built_sound hord (hf h hh)).1
  have hok := ok_diffIter (o := o) hg ho hw n
  have hnet : ∀ g : Gen, ∀ d ∈ (net o fa fb g).out, d.base = fa ∧ d.other = fb := by
    intro g d hd
    unfold net at hd
    split at hd
    · simp at hd
    · split at hd
      · have := mem_yield (mem_when hd).2
        subst this
        exact ⟨rfl, rfl⟩
      · have := mem_yield hd
        subst this
        exact ⟨rfl, rfl⟩
      · simp at hd
  constructor
  · intro d hd
    refine ⟨(ok_vals hg hok).added rfl d hd, ?_⟩
    simp only [compareVals] at hd
    split at hd
    · exact hnet _ d hd
    · have := mem_yield hd
      subst this
      exact ⟨rfl, rfl⟩
  · intro d hd
    refine ⟨(ok_vals hg hok).removed rfl d hd, ?_⟩
    simp only [compareVals] at hd
    split at hd
    · exact hnet _ d hd
    · have := mem_yield hd
      subst this
      exact ⟨rfl, rfl⟩

/-- C89: and it is one entry at most; exactly one if it is not looked into. -/
theorem C89_one_entry (n : Nat) (y : Val) (fa fb : FS) :
    (compareVals H o (diffIter H o n) none (some y) fa fb).out.length ≤ 1 ∧ (compareVals H o (diffIter H o n) (some y) none fa fb).out.length ≤ 1 ∧
    (o.duckType = false → o.ignoreEmptySlots = false → (compareVals H o (diffIter H o n) none (some y) fa fb).out = [⟨.added, fa, fb⟩] ∧
      (compareVals H o (diffIter H o n) (some y) none fa fb).out = [⟨.removed, fa, fb⟩]) := by
  have hnet : ∀ g : Gen, (net o fa fb g).out.length ≤ 1 := by
    intro g
    unfold net
    split
    · simp
    · split
      · cases o.unchanged <;> simp [Gen.when]
      · simp
      · simp
  refine ⟨?_, ?_, ?_⟩
  · simp only [compareVals]
    split
    · exact hnet _
    · simp
  · simp only [compareVals]
    split
    · exact hnet _
    · simp
  · intro h1 h2
    simp [compareVals, h1, h2]

/-! ## The default methods -/

section Default
variable {S : Schema}

/-- Converting a list or dict for a comparison does not fail an assertion. -/
structure GoodMix (S : Schema) : Prop where
  list : ∀ c xs ys, S.mixL c xs ys ≠ .error .assertionError
  dict : ∀ c xs ys, S.mixD c xs ys ≠ .error .assertionError

theorem eqLoop_na : ∀ {fs : List (Val → Except Exc Bool)} {ys : List Val}, (∀ f ∈ fs, ∀ y, f y ≠ .error .assertionError) → Ident.eqLoop fs ys ≠ .error .assertionError
  | [], _, _ => by simp [Ident.eqLoop]
  | f :: fs, [], _ => by simp [Ident.eqLoop]
  | f :: fs, y :: ys, h => by
    simp only [Ident.eqLoop]
    split
    · rename_i e he
      intro hc
      cases hc
      exact h f (by simp) y he
    · simp
    · exact eqLoop_na (fun g hg => h g (by simp [hg]))

theorem eqLoopD_na : ∀ {fs : List (Comp × (Val → Except Exc Bool))} {ys : List (Comp × Val)}, (∀ f ∈ fs, ∀ y, f.2 y ≠ .error .assertionError) →
    Ident.eqLoopD fs ys ≠ .error .assertionError
  | [], _, _ => by simp [Ident.eqLoopD]
  | (k, f) :: fs, ys, h => by
    simp only [Ident.eqLoopD]
    split
    · simp
    · rename_i y _
      split
      · rename_i e he
        intro hc
        cases hc
        exact h (k, f) (by simp) y he
      · simp
      · exact eqLoopD_na (fun g hg => h g (by simp [hg]))

theorem eqProps_na {l : String → Option (Val → Except Exc Bool)} {r : String → Option Val} (h : ∀ nm f, l nm = some f → ∀ y, f y ≠ .error .assertionError) :
    ∀ ps : List IProp, Ident.eqProps ps l r ≠ .error .assertionError
  | [] => by simp [Ident.eqProps]
  | p :: ps => by
    simp only [Ident.eqProps]
    split
    · exact eqProps_na h ps
    · split
      · rename_i e he
        intro hc
        cases hc
        unfold Ident.eqRead at he
        split at he
        · cases he
        · rename_i f y hf _
          exact h _ f hf y he
        · cases he
      · simp
      · exact eqProps_na h ps

theorem atomVs_na {a : Atom} {w : Val} : Ident.atomVs S a w ≠ .error .assertionError := by
  unfold Ident.atomVs
  split <;> simp

mutual
theorem veq_na (hm : GoodMix S) : ∀ x w : Val, Ident.veq S x w ≠ .error .assertionError
  | .atom a, w => by simp only [Ident.veq]; exact atomVs_na
  | .list xs, w => by
    simp only [Ident.veq]
    split
    · split
      · exact eqLoop_na (veqL_na hm xs)
      · simp
    · exact hm.list _ _ _
    · simp
  | .dict xs, w => by
    simp only [Ident.veq]
    split
    · split
      · exact eqLoopD_na (veqC_na hm xs)
      · simp
    · exact hm.dict _ _ _
    · simp
  | .rcd c s, w => by
    simp only [Ident.veq]
    split
    · split
      · refine eqProps_na ?_ _
        intro nm f hf y
        unfold Ident.leftRead at hf
        split at hf
        · rename_i g hg
          cases hf
          exact veqS_na hm s _ (AutoJson.alookup_mem hg) y
        · rw [Option.map_eq_some_iff] at hf
          obtain ⟨a, _, rfl⟩ := hf
          exact atomVs_na
      · simp
    · simp
  | .lcoll c xs, w => by
    simp only [Ident.veq]
    split
    · exact hm.list _ _ _
    · split
      · split
        · exact eqLoop_na (veqL_na hm xs)
        · simp
      · simp
    · simp
  | .dcoll c xs, w => by
    simp only [Ident.veq]
    split
    · exact hm.dict _ _ _
    · split
      · split
        · exact eqLoopD_na (veqC_na hm xs)
        · simp
      · simp
    · simp
theorem veqL_na (hm : GoodMix S) : ∀ xs : List Val, ∀ f ∈ Ident.veqL S xs, ∀ y, f y ≠ .error .assertionError
  | [], f, hf => by simp [Ident.veqL] at hf
  | x :: xs, f, hf => by
    simp only [Ident.veqL, List.mem_cons] at hf
    rcases hf with rfl | hf
    · exact veq_na hm x
    · exact veqL_na hm xs f hf
theorem veqC_na (hm : GoodMix S) : ∀ xs : List (Comp × Val), ∀ f ∈ Ident.veqC S xs, ∀ y, f.2 y ≠ .error .assertionError
  | [], f, hf => by simp [Ident.veqC] at hf
  | (k, x) :: xs, f, hf => by
    simp only [Ident.veqC, List.mem_cons] at hf
    rcases hf with rfl | hf
    · exact veq_na hm x
    · exact veqC_na hm xs f hf
theorem veqS_na (hm : GoodMix S) : ∀ xs : List (String × Val), ∀ f ∈ Ident.veqS S xs, ∀ y, f.2 y ≠ .error .assertionError
  | [], f, hf => by simp [Ident.veqS] at hf
  | (k, x) :: xs, f, hf => by
    simp only [Ident.veqS, List.mem_cons] at hf
    rcases hf with rfl | hf
    · exact veq_na hm x
    · exact veqS_na hm xs f hf
end

theorem mapE_na {α β : Type} {f : α → Except Exc β} {l : List α} (h : ∀ x ∈ l, f x ≠ .error .assertionError) : mapE f l ≠ .error .assertionError := by
  intro hc
  obtain ⟨x, hx, he⟩ := mapE_error hc
  exact h x hx he

theorem asTuple_na {r : Except Exc (List Ident.Key)} (h : r ≠ .error .assertionError) : Ident.asTuple r ≠ .error .assertionError := by
  cases r with
  | ok ks => simp [Ident.asTuple]
  | error e =>
    simp only [Ident.asTuple]
    intro hc
    cases hc
    exact h rfl

theorem bestKey_na {idOf : String → Except Exc Ident.Key} (h : ∀ c, idOf c ≠ .error .assertionError) : ∀ (ts : List Ty) (best : List Ident.Key) (n : Nat),
    Ident.bestKey idOf ts best n ≠ .error .assertionError
  | [], _, _ => by simp [Ident.bestKey]
  | .other _ :: ts, best, n => by simp only [Ident.bestKey]; exact bestKey_na h ts best n
  | .cls c :: ts, best, n => by
    simp only [Ident.bestKey]
    split
    · rename_i e he
      intro hc
      cases hc
      exact h c he
    · split <;> exact bestKey_na h ts _ _

theorem runHook_na {nos : Option Ident.SlotHook} (hn : ∀ f, nos = some f → ∀ v p o, f v p o ≠ .error .assertionError) (v : Val) (p : IProp) (ob : Val) :
    Ident.runHook nos v p ob ≠ .error .assertionError := by
  unfold Ident.runHook
  split
  · simp
  · exact hn _ rfl v p ob

theorem rid_na {nos : Option Ident.SlotHook} (hn : ∀ f, nos = some f → ∀ v p o, f v p o ≠ .error .assertionError) : ∀ n : Nat,
    (∀ t sel v, Ident.rid S nos n t sel v ≠ .error .assertionError) ∧ (∀ t sel v, Ident.rid S none n t sel v ≠ .error .assertionError) ∧ ∀ k, Ident.khash S n k ≠ .error .assertionError
  | 0 => by simp [Ident.rid, Ident.khash]
  | n + 1 => by
    obtain ⟨h1, h2, h3⟩ := rid_na hn n
    have key : ∀ nos : Option Ident.SlotHook, (∀ f, nos = some f → ∀ v p o, f v p o ≠ .error .assertionError) → (∀ t sel v, Ident.rid S nos n t sel v ≠ .error .assertionError) →
        ∀ t sel v, Ident.rid S nos (n + 1) t sel v ≠ .error .assertionError := by
      intro nos hn h1 t sel v
      cases t with
      | other _ =>
        simp only [Ident.rid]
        split <;> simp
      | cls c =>
        simp only [Ident.rid]
        split
        · split
          · rename_i e he
            intro hc
            cases hc
            unfold Ident.collTuples Ident.sortedEntries at he
            split at he <;> (try split at he) <;> cases he
          · exact asTuple_na (mapE_na fun x _ => h1 _ _ _)
        · refine asTuple_na (mapE_na fun p _ => ?_)
          unfold Ident.slotKey
          split
          · rename_i e he
            intro hc
            cases hc
            exact runHook_na hn _ _ _ he
          · split
            · rename_i e he
              intro hc
              cases hc
              exact runHook_na hn _ _ _ he
            · split
              · split
                · rename_i e he
                  intro hc
                  cases hc
                  exact bestKey_na (fun c => h1 _ _ _) _ _ _ he
                · unfold Ident.checkedKey
                  split
                  · simp
                  · rename_i e he
                    split
                    · simp
                    · intro hc
                      cases hc
                      exact h3 _ he
              · simp
    refine ⟨key nos hn h1, key none (fun f hf => by cases hf) h2, ?_⟩
    intro k
    unfold Ident.khash
    split
    · cases ‹_›
    · split <;> simp
    · rename_i heq
      cases heq
      split
      · rename_i e he
        intro hc
        cases hc
        exact h2 _ _ _ he
      · exact h3 _
    · simp
    · rename_i heq
      cases heq
      split
      · rename_i e he
        intro hc
        cases hc
        exact mapE_na (fun k _ => h3 k) he
      · simp

/-- C89: the default methods are fine. -/
theorem C89_default (D : Setup) (hm : GoodMix D.S) (hc : ∀ p f, D.compareAs p = some f → ∀ ob v, f ob v ≠ .error .assertionError)
    (hi : ∀ c f, D.compareItemAs c = some f → ∀ v, f v ≠ .error .assertionError) : GoodHooks D.hooks := by
  have hs : ∀ v p obj, normalizeObjectSlot D v p obj ≠ .error .assertionError := by
    intro v p obj
    unfold normalizeObjectSlot
    split
    · simp
    · split
      · simp
      · rename_i f hf
        split
        · rename_i e he
          intro h
          cases h
          exact hc p f hf _ _ he
        · simp
  refine ⟨fun p obj => rfl, hs, ?_, fun x y => veq_na hm x y, ?_⟩
  · intro c v
    show normalizeItem D c v ≠ _
    unfold normalizeItem compareItem
    split
    · rename_i e he
      intro h
      cases h
      split at he
      · cases he
      · rename_i f hf
        rw [Option.bind_eq_some_iff] at hf
        obtain ⟨c', _, hf⟩ := hf
        exact hi c' f hf v he
    · simp
  · intro t s v
    show recordIdOf D t s v ≠ _
    have hn : ∀ f, some (slotHook D) = some f → ∀ v p ob, f v p ob ≠ .error .assertionError := by
      intro f hf v p ob
      cases hf
      unfold slotHook
      split
      · rename_i e he
        intro h
        cases h
        exact hs _ _ _ he
      · simp
    unfold recordIdOf
    split
    · rename_i e he
      intro h
      cases h
      exact (rid_na hn D.depth).1 _ _ _ he
    · split
      · rename_i e he
        intro h
        cases h
        exact (rid_na hn D.depth).2.2 _ he
      · simp

/-- C89: comparing with the default methods never fails an assertion, if the user's functions do not. -/
theorem C89_diff (D : Setup) (hm : GoodMix D.S) (hc : ∀ p f, D.compareAs p = some f → ∀ ob v, f ob v ≠ .error .assertionError)
    (hi : ∀ c f, D.compareItemAs c = some f → ∀ v, f v ≠ .error .assertionError) (ho : OrdOK D.hooks) {o : Opts} {ord : List MArg → List MArg} (hord : Mfs.OrdOK ord)
    {qs : List FS} (hf : ∀ h, o.compareFilter = some h → Built ord h qs) (n : Nat) (x y : Val) : (diff D.hooks o n x y).exc ≠ some .assertionError :=
  C89 (C89_default D hm hc hi) ho hord hf n x y

end Default

/-! ## Cases -/

namespace Ex

-- a document without an author compared with one that has an author, empty slots ignored: one entry for the author
example : (diff (hooks {}) { ignoreEmptySlots := true } 9 (.rcd "Doc" [("title", .str "A")]) (.rcd "Doc" [("title", .str "A"), ("author", person 1 "Ann")])).out =
    [⟨.added, [.str "author"], [.str "author"]⟩] := by decide +kernel

-- the same with a collection, and nothing to report for an empty one
example : (diff (hooks {}) { ignoreEmptySlots := true, unchanged := true } 9 (.rcd "Doc" [("people", .lcoll "People" [person 1 "Ann", person 2 "Bob"]), ("words", .lcoll "Words" [])])
    (.rcd "Doc" [])).out = [⟨.removed, [.str "people"], [.str "people"]⟩, ⟨.noChange, [.str "words"], [.str "words"]⟩] := by decide +kernel

theorem goodMix : GoodMix schema := ⟨fun _ _ _ => by simp [schema], fun _ _ _ => by simp [schema]⟩

example (o : Opts) (ho : o.compareFilter = some someTags) (n : Nat) (x y : Val) : (diff (hooks {}) o n x y).exc ≠ some .assertionError :=
  C89_diff (setup {}) goodMix (fun _ _ h => nomatch h) (fun _ _ h => nomatch h) (ordOK {}) ordOK_id (fun h hh => by rw [ho] at hh; cases hh; exact someTags_built) n x y

end Ex

end Normalize.Diff
