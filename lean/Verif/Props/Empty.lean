import Verif.Spec.Empty
import Verif.Lemmas.Access

/-!
# C58, C59: empty placeholders and `itertypes`
-/

namespace Normalize.Empty
open Spec (InEntry FoundBefore Inherits HasAttr MakesUp DeclaredAs Untyped SomeHas ItemAs UntypedItems SomeItems SomeCall IsFor
  Knows Reached Supports)

/-! ## C59 -/

theorem eachType_append (xs ys seen : List PTy) : eachType (xs ++ ys) seen =
    ((eachType xs seen).1 ++ (eachType ys (eachType xs seen).2).1, (eachType ys (eachType xs seen).2).2) := by
  induction xs generalizing seen with
  | nil => rfl
  | cons x xs ih =>
    simp only [List.cons_append, eachType]
    split
    · rw [ih]
    · rw [ih]; rfl

theorem eachEntry_eq (es : List Entry) (seen : List PTy) : eachEntry es seen = (eachType (Spec.flatten es) seen).1 := by
  induction es generalizing seen with
  | nil => rfl
  | cons e es ih =>
    cases e with
    | one t =>
      simp only [eachEntry, Spec.flatten, eachType]
      split
      · exact ih _
      · rw [ih]
    | many ts => simp only [eachEntry, Spec.flatten, eachType_append, ih]

theorem eachType_mem (l seen : List PTy) (t : PTy) : t ∈ (eachType l seen).1 ↔ t ∈ l ∧ t ∉ seen := by
  induction l generalizing seen with
  | nil => simp [eachType]
  | cons x l ih =>
    simp only [eachType]
    split
    · rename_i hx
      rw [ih, List.mem_cons]
      constructor
      · rintro ⟨h1, h2⟩; exact ⟨.inr h1, h2⟩
      · rintro ⟨rfl | h1, h2⟩
        · exact absurd hx h2
        · exact ⟨h1, h2⟩
    · rename_i hx
      simp only [List.mem_cons, ih, not_or]
      constructor
      · rintro (rfl | ⟨h1, h2, h3⟩)
        · exact ⟨.inl rfl, hx⟩
        · exact ⟨.inr h1, h3⟩
      · rintro ⟨rfl | h1, h2⟩
        · exact .inl rfl
        · by_cases h : t = x
          · exact .inl h
          · exact .inr ⟨h1, h, h2⟩

theorem eachType_nodup (l seen : List PTy) : (eachType l seen).1.Nodup := by
  induction l generalizing seen with
  | nil => simp [eachType]
  | cons x l ih =>
    simp only [eachType]
    split
    · exact ih _
    · rw [List.nodup_cons]
      refine ⟨?_, ih _⟩
      rw [eachType_mem]
      simp

theorem eachType_order (l seen : List PTy) : (eachType l seen).1.Pairwise (FoundBefore l) := by
  have step : ∀ {x : PTy} {l : List PTy} {a b : PTy}, b ≠ x → FoundBefore l a b → FoundBefore (x :: l) a b := by
    rintro x l a b hb ⟨i, h1, h2⟩
    refine ⟨i + 1, h1, ?_⟩
    intro j hj
    cases j with
    | zero => simp; exact fun h => hb h.symm
    | succ j => simpa using h2 j (by omega)
  induction l generalizing seen with
  | nil => simp [eachType]
  | cons x l ih =>
    simp only [eachType]
    split
    · rename_i hx
      refine (ih seen).imp_of_mem (fun {a b} _ hb h => step ?_ h)
      rintro rfl
      exact ((eachType_mem _ _ _).1 hb).2 hx
    · rw [List.pairwise_cons]
      refine ⟨?_, (ih _).imp_of_mem (fun {a b} _ hb h => step ?_ h)⟩
      · intro b hb
        refine ⟨0, rfl, ?_⟩
        intro j hj
        obtain rfl : j = 0 := by omega
        intro h
        cases h
        exact ((eachType_mem _ _ _).1 hb).2 List.mem_cons_self
      · rintro rfl
        exact ((eachType_mem _ _ _).1 hb).2 List.mem_cons_self

/-- C59: `itertypes` yields each type once … -/
theorem C59_once (es : List Entry) : (itertypes es).Nodup := by
  rw [itertypes, eachEntry_eq]; exact eachType_nodup _ _

/-- … all those that are there, and no others … -/
theorem C59_all (es : List Entry) (t : PTy) : t ∈ itertypes es ↔ ∃ e ∈ es, InEntry t e := by
  rw [itertypes, eachEntry_eq, eachType_mem]
  simp only [List.not_mem_nil, not_false_eq_true, and_true]
  induction es with
  | nil => simp [Spec.flatten]
  | cons e es ih => cases e <;> simp [Spec.flatten, ih, InEntry]

/-- … in the order in which they first occur. -/
theorem C59_order (es : List Entry) {i j : Nat} {a b : PTy} (hij : i < j) (ha : (itertypes es)[i]? = some a)
    (hb : (itertypes es)[j]? = some b) : FoundBefore (Spec.flatten es) a b := by
  have := eachType_order (Spec.flatten es) []
  rw [← eachEntry_eq] at this
  obtain ⟨hi, rfl⟩ := List.getElem?_eq_some_iff.1 ha
  obtain ⟨hj, rfl⟩ := List.getElem?_eq_some_iff.1 hb
  exact List.pairwise_iff_getElem.1 this i j hi hj hij

/-- What has been yielded does not depend on what follows. -/
theorem C59_lazy (es es' : List Entry) : ∃ ts, itertypes (es ++ es') = itertypes es ++ ts := by
  have : ∀ (es : List Entry), Spec.flatten (es ++ es') = Spec.flatten es ++ Spec.flatten es' := by
    intro es
    induction es with
    | nil => rfl
    | cons e es ih => cases e <;> simp [Spec.flatten, ih]
  simp only [itertypes, eachEntry_eq, this, eachType_append]
  exact ⟨_, rfl⟩

example : itertypes [.one (.ty "A"), .many [.ty "B", .ty "A", .any], .one (.ty "C"), .one (.ty "B")] =
    [.ty "A", .ty "B", .any, .ty "C"] := by decide

/-! ## The heap -/

variable {W : World} {h h' : Heap} {i j : Nat}

/-- The types of an attribute, from the class attributes. -/
def attrTypes (W : World) (ts : List PTy) (nm : String) : Types :=
  typesOf (itertypes ((ts.flatMap (attrFound W nm)).map valuetype))

/-- The types of items. -/
def itemTypes (W : World) (ts : List PTy) : Types := typesOf (itertypes (ts.flatMap (itemFound W)))

/-- What holds of the placeholders and their caches. -/
structure Good (W : World) (h : Heap) : Prop where
  vals : ∀ t i, alookup h.vals t = some i → IsFor h i t
  objs : ∀ t i, IsFor h i t → alookup h.vals t = some i
  noAny : ∀ i ts, IsFor h i (.tuple ts) → .any ∉ ts
  attrs : ∀ (i : Nat) (o : Obj) ts nm j, h.objs[i]? = some o → o.types = .tuple ts → alookup o.attrs nm = some j →
    (ts.flatMap (attrFound W nm)).isEmpty = false ∧ IsFor h j (attrTypes W ts nm)
  member : ∀ (i : Nat) (o : Obj) ts j, h.objs[i]? = some o → o.types = .tuple ts → o.member = some j →
    (ts.flatMap (itemFound W)).isEmpty = false ∧ IsFor h j (itemTypes W ts)

/-- Later, nothing but caches has changed. -/
def Later (h h' : Heap) : Prop := ∀ i t, IsFor h i t → IsFor h' i t

theorem Later.rfl : Later h h := fun _ _ h => h

theorem Later.trans {h'' : Heap} (h1 : Later h h') (h2 : Later h' h'') : Later h h'' := fun i t hi => h2 i t (h1 i t hi)

theorem isFor_unique {t t' : Types} (h1 : IsFor h i t) (h2 : IsFor h i t') : t = t' := by
  obtain ⟨o, ho, rfl⟩ := h1
  obtain ⟨o', ho', rfl⟩ := h2
  rw [ho] at ho'
  cases ho'
  rfl

theorem placeholder_good (hg : Good W h) (ts : List PTy) : Good W (placeholder h ts).2 ∧
    IsFor (placeholder h ts).2 (placeholder h ts).1 (typesOf ts) ∧ Later h (placeholder h ts).2 := by
  unfold placeholder
  cases hl : alookup h.vals (typesOf ts) with
  | some i => exact ⟨hg, hg.vals _ _ hl, .rfl⟩
  | none =>
    simp only
    have old : ∀ {i : Nat} {o : Obj}, h.objs[i]? = some o → (h.objs ++ [{ types := typesOf ts }])[i]? = some o := by
      intro i o ho
      rw [List.getElem?_append_left (List.getElem?_eq_some_iff.1 ho).1]
      exact ho
    have new : ∀ {i : Nat} {o : Obj}, (h.objs ++ [({ types := typesOf ts } : Obj)])[i]? = some o →
        h.objs[i]? = some o ∨ (i = h.objs.length ∧ o = { types := typesOf ts }) := by
      intro i o ho
      rw [List.getElem?_append] at ho
      split at ho
      · exact .inl ho
      · right
        rw [List.getElem?_eq_some_iff] at ho
        obtain ⟨h1, h2⟩ := ho
        simp at h1 h2
        exact ⟨by omega, h2.symm⟩
    have later : Later h ⟨aset h.vals (typesOf ts) h.objs.length, h.objs ++ [{ types := typesOf ts }]⟩ := by
      rintro i t ⟨o, ho, rfl⟩
      exact ⟨o, old ho, rfl⟩
    have fresh : IsFor ⟨aset h.vals (typesOf ts) h.objs.length, h.objs ++ [{ types := typesOf ts }]⟩ h.objs.length
        (typesOf ts) := ⟨{ types := typesOf ts }, by simp, rfl⟩
    refine ⟨⟨?_, ?_, ?_, ?_, ?_⟩, fresh, later⟩
    · intro t i hi
      simp only [alookup_aset] at hi
      split at hi
      · rename_i he; cases hi; cases he; exact fresh
      · exact later _ _ (hg.vals _ _ hi)
    · rintro t i ⟨o, ho, rfl⟩
      rw [alookup_aset]
      rcases new ho with ho | ⟨rfl, rfl⟩
      · have := hg.objs _ _ ⟨o, ho, rfl⟩
        split
        · rename_i he; rw [he, this] at hl; cases hl
        · exact this
      · simp
    · rintro i us ⟨o, ho, he⟩
      rcases new ho with ho | ⟨rfl, rfl⟩
      · exact hg.noAny i us ⟨o, ho, he⟩
      · simp only [typesOf] at he
        split at he
        · cases he
        · cases he; assumption
    · intro i o us nm j ho he hj
      rcases new ho with ho | ⟨rfl, rfl⟩
      · exact (hg.attrs i o us nm j ho he hj).imp_right (later _ _)
      · cases hj
    · intro i o us j ho he hj
      rcases new ho with ho | ⟨rfl, rfl⟩
      · exact (hg.member i o us j ho he hj).imp_right (later _ _)
      · cases hj

/-- Changing the caches of an object. -/
theorem put_good (hg : Good W h) {o o' : Obj} (hi : h.objs[i]? = some o) (ht : o'.types = o.types)
    (ha : ∀ ts nm j, o.types = .tuple ts → alookup o'.attrs nm = some j →
      (ts.flatMap (attrFound W nm)).isEmpty = false ∧ IsFor h j (attrTypes W ts nm))
    (hm : ∀ ts j, o.types = .tuple ts → o'.member = some j →
      (ts.flatMap (itemFound W)).isEmpty = false ∧ IsFor h j (itemTypes W ts)) :
    Good W (h.put i o') ∧ Later h (h.put i o') := by
  have hlen := (List.getElem?_eq_some_iff.1 hi).1
  have get : ∀ k, (h.put i o').objs[k]? = if i = k then some o' else h.objs[k]? := by
    intro k
    simp only [Heap.put, List.getElem?_set]
    split
    · rfl
    · rfl
  have iff : ∀ k t, IsFor (h.put i o') k t ↔ IsFor h k t := by
    intro k t
    unfold IsFor
    rw [get]
    split
    · rename_i he; subst he; simp [hi, ht]
    · exact Iff.rfl
  refine ⟨⟨?_, ?_, ?_, ?_, ?_⟩, fun k t hk => (iff k t).2 hk⟩
  · intro t k hk; exact (iff k t).2 (hg.vals t k hk)
  · intro t k hk; exact hg.objs t k ((iff k t).1 hk)
  · intro k ts hk; exact hg.noAny k ts ((iff _ _).1 hk)
  · intro k p ts nm j hk hp hj
    rw [iff]
    rw [get] at hk
    split at hk
    · cases hk; exact ha ts nm j (ht ▸ hp) hj
    · exact hg.attrs k p ts nm j hk hp hj
  · intro k p ts j hk hp hj
    rw [iff]
    rw [get] at hk
    split at hk
    · cases hk; exact hm ts j (ht ▸ hp) hj
    · exact hg.member k p ts j hk hp hj

/-- `__getattr__`, step by step. -/
theorem access_good (hg : Good W h) {nm : String} (ha : access W h i nm = .ok (j, h')) : Good W h' ∧ Later h h' ∧
    ((IsFor h i .any ∧ j = i ∧ h' = h) ∨ ∃ ts, IsFor h i (.tuple ts) ∧ (ts.flatMap (attrFound W nm)).isEmpty = false ∧
      IsFor h' j (attrTypes W ts nm)) := by
  unfold access at ha
  split at ha
  · cases ha
  · rename_i o ho
    split at ha
    · rename_i ht
      cases ha
      exact ⟨hg, .rfl, .inl ⟨⟨o, ho, ht⟩, rfl, rfl⟩⟩
    · rename_i ts ht
      split at ha
      · rename_i k hk
        cases ha
        obtain ⟨h1, h2⟩ := hg.attrs i o ts nm _ ho ht hk
        exact ⟨hg, .rfl, .inr ⟨ts, ⟨o, ho, ht⟩, h1, h2⟩⟩
      · split at ha
        · cases ha
        · rename_i hne
          simp only [Bool.not_eq_true] at hne
          simp only [Except.ok.injEq, Prod.mk.injEq] at ha
          obtain ⟨rfl, rfl⟩ := ha
          obtain ⟨g1, g2, g3⟩ := placeholder_good hg (itertypes ((ts.flatMap (attrFound W nm)).map valuetype))
          obtain ⟨o', ho', ht'⟩ := g3 i _ ⟨o, ho, ht⟩
          unfold remember
          rw [ho']
          simp only
          obtain ⟨p1, p2⟩ := put_good g1 ho' (o' := { o' with attrs := aset o'.attrs nm (placeholder h
            (itertypes ((ts.flatMap (attrFound W nm)).map valuetype))).1 }) rfl (by
              intro us nm' k hu hk
              rw [ht'] at hu
              cases hu
              simp only [alookup_aset] at hk
              split at hk
              · rename_i he; subst he; cases hk; exact ⟨hne, g2⟩
              · exact g1.attrs i o' ts nm' k ho' ht' hk)
            (fun us k hu hk => g1.member i o' us k ho' hu hk)
          exact ⟨p1, g3.trans p2, .inr ⟨ts, ⟨o, ho, ht⟩, hne, p2 _ _ g2⟩⟩

/-- `__getitem__`, step by step. -/
theorem subscript_good (hg : Good W h) {b : Bool} (ha : subscript W h i b = .ok (j, h')) : Good W h' ∧ Later h h' ∧
    ((IsFor h i .any ∧ j = i ∧ h' = h) ∨ (b = true ∧ j = i ∧ h' = h ∧ ∃ t, IsFor h i t) ∨
      ∃ ts, b = false ∧ IsFor h i (.tuple ts) ∧ (ts.flatMap (itemFound W)).isEmpty = false ∧
      IsFor h' j (itemTypes W ts)) := by
  unfold subscript at ha
  split at ha
  · cases ha
  · rename_i o ho
    split at ha
    · rename_i ht
      cases ha
      exact ⟨hg, .rfl, .inl ⟨⟨o, ho, ht⟩, rfl, rfl⟩⟩
    · rename_i ts ht
      split at ha
      · rename_i hb
        cases ha
        exact ⟨hg, .rfl, .inr (.inl ⟨hb, rfl, rfl, _, o, ho, rfl⟩)⟩
      · rename_i hb
        simp only [Bool.not_eq_true] at hb
        split at ha
        · rename_i k hk
          cases ha
          obtain ⟨h1, h2⟩ := hg.member i o ts _ ho ht hk
          exact ⟨hg, .rfl, .inr (.inr ⟨ts, hb, ⟨o, ho, ht⟩, h1, h2⟩)⟩
        · split at ha
          · cases ha
          · rename_i hne
            simp only [Bool.not_eq_true] at hne
            simp only [Except.ok.injEq, Prod.mk.injEq] at ha
            obtain ⟨rfl, rfl⟩ := ha
            obtain ⟨g1, g2, g3⟩ := placeholder_good hg (itertypes (ts.flatMap (itemFound W)))
            obtain ⟨o', ho', ht'⟩ := g3 i _ ⟨o, ho, ht⟩
            unfold rememberMember
            rw [ho']
            simp only
            obtain ⟨p1, p2⟩ := put_good g1 ho' (o' := { o' with member := some (placeholder h
              (itertypes (ts.flatMap (itemFound W)))).1 }) rfl
              (fun us nm k hu hk => g1.attrs i o' us nm k ho' hu hk) (by
                intro us k hu hk
                rw [ht'] at hu
                cases hu
                cases hk
                exact ⟨hne, g2⟩)
            exact ⟨p1, g3.trans p2, .inr (.inr ⟨ts, hb, ⟨o, ho, ht⟩, hne, p2 _ _ g2⟩)⟩

/-- `__call__`, step by step. -/
theorem call_good (hg : Good W h) (ha : call W h i = .ok (j, h')) : Good W h' ∧ Later h h' ∧ IsFor h' j .any ∧
    ((IsFor h i .any ∧ j = i ∧ h' = h) ∨ ∃ ts, IsFor h i (.tuple ts) ∧ ts.any (callable W) = true) := by
  unfold call at ha
  split at ha
  · cases ha
  · rename_i o ho
    split at ha
    · rename_i ht
      cases ha
      exact ⟨hg, .rfl, ⟨o, ho, ht⟩, .inl ⟨⟨o, ho, ht⟩, rfl, rfl⟩⟩
    · rename_i ts ht
      split at ha
      · rename_i hc
        obtain ⟨g1, g2, g3⟩ := placeholder_good hg [PTy.any]
        rw [Except.ok.injEq] at ha
        rw [ha] at g1 g2 g3
        exact ⟨g1, g3, by simpa [typesOf] using g2, .inr ⟨ts, ⟨o, ho, ht⟩, hc⟩⟩
      · cases ha

theorem run_good (hg : Good W h) {op : Op} (ha : run W h i op = .ok (j, h')) :
    Good W h' ∧ Later h h' ∧ ∃ t, IsFor h' j t := by
  cases op with
  | attr nm =>
    obtain ⟨h1, h2, ⟨h3, rfl, rfl⟩ | ⟨ts, _, _, h3⟩⟩ := access_good hg ha
    · exact ⟨h1, h2, _, h3⟩
    · exact ⟨h1, h2, _, h3⟩
  | item =>
    obtain ⟨h1, h2, ⟨h3, rfl, rfl⟩ | ⟨hb, _⟩ | ⟨ts, _, _, _, h3⟩⟩ := subscript_good hg ha
    · exact ⟨h1, h2, _, h3⟩
    · cases hb
    · exact ⟨h1, h2, _, h3⟩
  | slice =>
    obtain ⟨h1, h2, ⟨h3, rfl, rfl⟩ | ⟨_, rfl, rfl, t, h3⟩ | ⟨ts, hb, _⟩⟩ := subscript_good hg ha
    · exact ⟨h1, h2, _, h3⟩
    · exact ⟨h1, h2, t, h3⟩
    · cases hb
  | call =>
    obtain ⟨h1, h2, h3, _⟩ := call_good hg ha
    exact ⟨h1, h2, _, h3⟩

theorem reached_good (hr : Reached W h) : Good W h := by
  induction hr with
  | init =>
    refine ⟨fun t i hi => by (cases hi), ?_, ?_, ?_, ?_⟩
    · rintro t i ⟨o, ho, _⟩; simp at ho
    · rintro i ts ⟨o, ho, _⟩; simp at ho
    · intro i o ts nm j ho; simp at ho
    · intro i o ts j ho; simp at ho
  | placeholder _ ih => exact (placeholder_good ih _).1
  | run _ ha ih => exact (run_good ih ha).1

/-! ## Types -/

theorem lookup_iff (nm : String) (a : Attr) : ∀ cs : List String, lookup W nm cs = some a ↔
    ∃ (i : Nat) (d : String), cs[i]? = some d ∧ W.dict d nm = some a ∧ ∀ j < i, ∀ b, cs[j]? = some b → W.dict b nm = none
  | [] => by simp [lookup]
  | c :: cs => by
    unfold lookup
    cases hc : W.dict c nm with
    | some b =>
      simp only [Option.some.injEq]
      constructor
      · rintro rfl
        exact ⟨0, c, rfl, hc, fun j hj => by omega⟩
      · rintro ⟨i, d, h1, h2, h3⟩
        cases i with
        | zero => cases h1; rw [hc] at h2; cases h2; rfl
        | succ i => have := h3 0 (by omega) c rfl; rw [hc] at this; cases this
    | none =>
      simp only
      rw [lookup_iff nm a cs]
      constructor
      · rintro ⟨i, d, h1, h2, h3⟩
        refine ⟨i + 1, d, h1, h2, ?_⟩
        intro j hj b hb
        cases j with
        | zero => cases hb; exact hc
        | succ j => exact h3 j (by omega) b hb
      · rintro ⟨i, d, h1, h2, h3⟩
        cases i with
        | zero => cases h1; rw [hc] at h2; cases h2
        | succ i => exact ⟨i, d, h1, h2, fun j hj b hb => h3 (j + 1) (by omega) b hb⟩

theorem getattr_iff {c nm : String} {a : Attr} : getattr W c nm = some a ↔ HasAttr W c nm a := by
  have hl := fun a => lookup_iff (W := W) nm a (W.mro c)
  unfold getattr HasAttr Inherits
  rw [← hl a]
  cases hc : lookup W nm (W.mro c) with
  | none => simp
  | some b =>
    cases b with
    | pyNone => simp; rintro rfl; simp
    | plain => simp; rintro rfl; simp
    | typed e => simp; rintro rfl; simp

theorem getattr_none {c nm : String} : getattr W c nm = none ↔ ∀ a, ¬ HasAttr W c nm a := by
  rw [Option.eq_none_iff_forall_ne_some]
  exact forall_congr' (fun a => not_congr getattr_iff)

theorem dynamic_iff {c : String} : (W.dict c "__getattr__").isSome = true ↔ MakesUp W c := by
  unfold MakesUp; rw [Option.isSome_iff_exists]

/-- What is in `attrs_found`. -/
theorem mem_attrFound {ts : List PTy} {nm : String} {x : Option Attr} : x ∈ ts.flatMap (attrFound W nm) ↔
    ∃ c, .ty c ∈ ts ∧ ((∃ a, x = some a ∧ HasAttr W c nm a) ∨ (x = none ∧ (∀ a, ¬ HasAttr W c nm a) ∧ MakesUp W c)) := by
  rw [List.mem_flatMap]
  constructor
  · rintro ⟨t, ht, hx⟩
    cases t with
    | any => cases hx
    | ty c =>
      refine ⟨c, ht, ?_⟩
      simp only [attrFound] at hx
      cases hg : getattr W c nm with
      | some a =>
        rw [hg] at hx
        simp only [List.mem_singleton] at hx
        exact .inl ⟨a, hx, getattr_iff.1 hg⟩
      | none =>
        rw [hg] at hx
        simp only at hx
        split at hx
        · rename_i hd
          simp only [List.mem_singleton] at hx
          exact .inr ⟨hx, getattr_none.1 hg, dynamic_iff.1 hd⟩
        · cases hx
  · rintro ⟨c, ht, ⟨a, rfl, ha⟩ | ⟨rfl, hn, hd⟩⟩
    · refine ⟨_, ht, ?_⟩
      simp [attrFound, getattr_iff.2 ha]
    · refine ⟨_, ht, ?_⟩
      simp [attrFound, getattr_none.2 hn, dynamic_iff.2 hd]

theorem attrFound_empty {ts : List PTy} {nm : String} :
    (ts.flatMap (attrFound W nm)).isEmpty = false ↔ SomeHas W ts nm := by
  rw [← Bool.not_eq_true, List.isEmpty_iff, ← ne_eq, List.ne_nil_iff_exists_cons]
  constructor
  · rintro ⟨x, l, hl⟩
    obtain ⟨c, h1, h2⟩ := mem_attrFound.1 (show x ∈ ts.flatMap (attrFound W nm) by rw [hl]; exact List.mem_cons_self)
    rcases h2 with ⟨a, _, ha⟩ | ⟨_, _, hd⟩
    · exact ⟨c, h1, .inl ⟨a, ha⟩⟩
    · exact ⟨c, h1, .inr hd⟩
  · rintro ⟨c, h1, h2⟩
    have : ∃ x, x ∈ ts.flatMap (attrFound W nm) := by
      by_cases ha : ∃ a, HasAttr W c nm a
      · obtain ⟨a, ha⟩ := ha
        exact ⟨some a, mem_attrFound.2 ⟨c, h1, .inl ⟨a, rfl, ha⟩⟩⟩
      · rcases h2 with h2 | h2
        · exact absurd h2 ha
        · exact ⟨none, mem_attrFound.2 ⟨c, h1, .inr ⟨rfl, not_exists.1 ha, h2⟩⟩⟩
    obtain ⟨x, hx⟩ := this
    exact List.exists_cons_of_ne_nil (List.ne_nil_of_mem hx)

theorem typesOf_knows {es : List Entry} {unknown : Prop} {known : PTy → Prop}
    (hu : .any ∈ itertypes es ↔ unknown) (hk : ¬ unknown → ∀ t, t ∈ itertypes es ↔ known t) :
    Knows unknown known (typesOf (itertypes es)) := by
  unfold typesOf
  split
  · rename_i h; exact hu.1 h
  · rename_i h
    have hn : ¬ unknown := fun hh => h (hu.2 hh)
    exact ⟨hn, C59_once es, hk hn⟩

theorem attrTypes_knows (ts : List PTy) (nm : String) :
    Knows (Untyped W ts nm) (DeclaredAs W ts nm) (attrTypes W ts nm) := by
  have key : ∀ t, t ∈ itertypes ((ts.flatMap (attrFound W nm)).map valuetype) ↔
      DeclaredAs W ts nm t ∨ (t = .any ∧ Untyped W ts nm) := by
    intro t
    rw [C59_all]
    simp only [List.mem_map]
    constructor
    · rintro ⟨e, ⟨x, hx, rfl⟩, ht⟩
      obtain ⟨c, hc, ⟨a, rfl, ha⟩ | ⟨rfl, hn, hd⟩⟩ := mem_attrFound.1 hx
      · cases a with
        | pyNone => exact absurd rfl ha.2
        | plain => exact .inr ⟨ht, .inl ⟨c, hc, .inl ha⟩⟩
        | typed e => exact .inl ⟨c, e, hc, ha, ht⟩
      · exact .inr ⟨ht, .inl ⟨c, hc, .inr ⟨hn, hd⟩⟩⟩
    · rintro (⟨c, e, hc, ha, ht⟩ | ⟨rfl, hu⟩)
      · exact ⟨e, ⟨_, mem_attrFound.2 ⟨c, hc, .inl ⟨_, rfl, ha⟩⟩, rfl⟩, ht⟩
      · rcases hu with ⟨c, hc, ha | ⟨hn, hd⟩⟩ | ⟨c, e, hc, ha, ht⟩
        · exact ⟨_, ⟨_, mem_attrFound.2 ⟨c, hc, .inl ⟨_, rfl, ha⟩⟩, rfl⟩, rfl⟩
        · exact ⟨_, ⟨_, mem_attrFound.2 ⟨c, hc, .inr ⟨rfl, hn, hd⟩⟩, rfl⟩, rfl⟩
        · exact ⟨e, ⟨_, mem_attrFound.2 ⟨c, hc, .inl ⟨_, rfl, ha⟩⟩, rfl⟩, ht⟩
  refine typesOf_knows ?_ ?_
  · rw [key]
    constructor
    · rintro (h | ⟨_, h⟩)
      · exact .inr h
      · exact h
    · exact fun h => .inr ⟨rfl, h⟩
  · intro hn t
    rw [key]
    constructor
    · rintro (h | ⟨_, h⟩)
      · exact h
      · exact absurd h hn
    · exact .inl

theorem mem_itemFound {ts : List PTy} {e : Entry} : e ∈ ts.flatMap (itemFound W) ↔ ∃ c, .ty c ∈ ts ∧
    (W.coll c = some e ∨ (W.coll c = none ∧ (∃ a, W.dict c "__getitem__" = some a) ∧ e = .one .any)) := by
  rw [List.mem_flatMap]
  constructor
  · rintro ⟨t, ht, hx⟩
    cases t with
    | any => cases hx
    | ty c =>
      refine ⟨c, ht, ?_⟩
      simp only [itemFound] at hx
      cases hg : W.coll c with
      | some a => rw [hg] at hx; simp only [List.mem_singleton] at hx; rw [hx]; exact .inl rfl
      | none =>
        rw [hg] at hx
        simp only at hx
        split at hx
        · rename_i hd
          simp only [List.mem_singleton] at hx
          exact .inr ⟨rfl, Option.isSome_iff_exists.1 hd, hx⟩
        · cases hx
  · rintro ⟨c, ht, h | ⟨hc, hd, rfl⟩⟩
    · exact ⟨_, ht, by simp [itemFound, h]⟩
    · exact ⟨_, ht, by simp [itemFound, hc, Option.isSome_iff_exists.2 hd]⟩

theorem itemFound_empty {ts : List PTy} : (ts.flatMap (itemFound W)).isEmpty = false ↔ SomeItems W ts := by
  rw [← Bool.not_eq_true, List.isEmpty_iff, ← ne_eq, List.ne_nil_iff_exists_cons]
  constructor
  · rintro ⟨x, l, hl⟩
    obtain ⟨c, h1, h2⟩ := mem_itemFound.1 (show x ∈ ts.flatMap (itemFound W) by rw [hl]; exact List.mem_cons_self)
    rcases h2 with h | ⟨_, h, _⟩
    · exact ⟨c, h1, .inl ⟨_, h⟩⟩
    · exact ⟨c, h1, .inr h⟩
  · rintro ⟨c, h1, h2⟩
    have : ∃ x, x ∈ ts.flatMap (itemFound W) := by
      cases hc : W.coll c with
      | some e => exact ⟨e, mem_itemFound.2 ⟨c, h1, .inl hc⟩⟩
      | none =>
        rcases h2 with ⟨e, h2⟩ | h2
        · rw [hc] at h2; cases h2
        · exact ⟨_, mem_itemFound.2 ⟨c, h1, .inr ⟨hc, h2, rfl⟩⟩⟩
    obtain ⟨x, hx⟩ := this
    exact List.exists_cons_of_ne_nil (List.ne_nil_of_mem hx)

theorem itemTypes_knows (ts : List PTy) : Knows (UntypedItems W ts) (ItemAs W ts) (itemTypes W ts) := by
  have key : ∀ t, t ∈ itertypes (ts.flatMap (itemFound W)) ↔ ItemAs W ts t ∨ (t = .any ∧ UntypedItems W ts) := by
    intro t
    rw [C59_all]
    constructor
    · rintro ⟨e, he, ht⟩
      obtain ⟨c, hc, h | ⟨h1, h2, rfl⟩⟩ := mem_itemFound.1 he
      · exact .inl ⟨c, e, hc, h, ht⟩
      · exact .inr ⟨ht, .inl ⟨c, hc, h1, h2⟩⟩
    · rintro (⟨c, e, hc, h, ht⟩ | ⟨rfl, ⟨c, hc, h1, h2⟩ | ⟨c, e, hc, h, ht⟩⟩)
      · exact ⟨e, mem_itemFound.2 ⟨c, hc, .inl h⟩, ht⟩
      · exact ⟨_, mem_itemFound.2 ⟨c, hc, .inr ⟨h1, h2, rfl⟩⟩, rfl⟩
      · exact ⟨e, mem_itemFound.2 ⟨c, hc, .inl h⟩, ht⟩
  refine typesOf_knows ?_ ?_
  · rw [key]
    constructor
    · rintro (h | ⟨_, h⟩)
      · exact .inr h
      · exact h
    · exact fun h => .inr ⟨rfl, h⟩
  · intro hn t
    rw [key]
    constructor
    · rintro (h | ⟨_, h⟩)
      · exact h
      · exact absurd h hn
    · exact .inl

/-! ## C58 -/

/-- The types after an operation, without the caches. -/
def next (W : World) : Types → Op → Except EErr Types
  | .any, _ => .ok .any
  | .tuple ts, .attr nm => if (ts.flatMap (attrFound W nm)).isEmpty then .error .noSuchAttribute else .ok (attrTypes W ts nm)
  | .tuple ts, .item => if (ts.flatMap (itemFound W)).isEmpty then .error .notSubscriptable else .ok (itemTypes W ts)
  | .tuple ts, .slice => .ok (.tuple ts)
  | .tuple ts, .call => if ts.any (callable W) then .ok .any else .error .notCallable

/-- The caches do not matter. -/
theorem run_next (hg : Good W h) {t : Types} (hi : IsFor h i t) (op : Op) :
    (∀ e, run W h i op = .error e ↔ next W t op = .error e) ∧
    (∀ j h', run W h i op = .ok (j, h') → ∃ t', next W t op = .ok t' ∧ IsFor h' j t') := by
  obtain ⟨o, ho, rfl⟩ := hi
  cases ht : o.types with
  | any =>
    have : run W h i op = .ok (i, h) := by
      cases op <;> simp [run, access, subscript, call, ho, ht]
    rw [this]
    refine ⟨fun e => by simp [next], ?_⟩
    rintro j h' ⟨⟩
    exact ⟨.any, rfl, o, ho, ht⟩
  | tuple ts =>
    cases op with
    | attr nm =>
      cases hem : (ts.flatMap (attrFound W nm)).isEmpty with
      | true =>
        have hno : alookup o.attrs nm = none := by
          cases hl : alookup o.attrs nm with
          | none => rfl
          | some j => have := (hg.attrs i o ts nm j ho ht hl).1; rw [hem] at this; cases this
        simp [run, access, ho, ht, hno, hem, next]
      | false =>
        refine ⟨?_, ?_⟩
        · intro e
          simp only [run, access, ho, ht, hem, next, Bool.false_eq_true, if_false]
          cases alookup o.attrs nm <;> simp
        · intro j h' hr
          obtain ⟨_, _, ⟨h1, _, _⟩ | ⟨us, h1, _, h3⟩⟩ := access_good hg hr
          · cases isFor_unique h1 ⟨o, ho, ht⟩
          · cases isFor_unique h1 ⟨o, ho, ht⟩
            exact ⟨_, by simp [next, hem], h3⟩
    | item =>
      cases hem : (ts.flatMap (itemFound W)).isEmpty with
      | true =>
        have hno : o.member = none := by
          cases hl : o.member with
          | none => rfl
          | some j => have := (hg.member i o ts j ho ht hl).1; rw [hem] at this; cases this
        simp [run, subscript, ho, ht, hno, hem, next]
      | false =>
        refine ⟨?_, ?_⟩
        · intro e
          simp only [run, subscript, ho, ht, hem, next, Bool.false_eq_true, if_false]
          cases o.member <;> simp
        · intro j h' hr
          obtain ⟨_, _, ⟨h1, _, _⟩ | ⟨hb, _⟩ | ⟨us, _, h1, _, h3⟩⟩ := subscript_good hg hr
          · cases isFor_unique h1 ⟨o, ho, ht⟩
          · cases hb
          · cases isFor_unique h1 ⟨o, ho, ht⟩
            exact ⟨_, by simp [next, hem], h3⟩
    | slice =>
      have : run W h i .slice = .ok (i, h) := by simp [run, subscript, ho, ht]
      rw [this]
      refine ⟨fun e => by simp [next], ?_⟩
      rintro j h' ⟨⟩
      exact ⟨_, rfl, o, ho, ht⟩
    | call =>
      refine ⟨?_, ?_⟩
      · intro e
        simp only [run, call, ho, ht, next]
        split <;> simp
      · intro j h' hr
        obtain ⟨_, _, h3, ⟨h1, _, _⟩ | ⟨us, h1, h2⟩⟩ := call_good hg hr
        · cases isFor_unique h1 ⟨o, ho, ht⟩
        · cases isFor_unique h1 ⟨o, ho, ht⟩
          exact ⟨.any, by simp only [next, h2, if_true], h3⟩

theorem run_ok (hg : Good W h) {t t' : Types} (hi : IsFor h i t) {op : Op} (hn : next W t op = .ok t') :
    ∃ j h', run W h i op = .ok (j, h') ∧ IsFor h' j t' := by
  obtain ⟨h1, h2⟩ := run_next hg hi op
  cases hr : run W h i op with
  | error e => rw [(h1 e).1 hr] at hn; cases hn
  | ok r =>
    obtain ⟨t'', h3, h4⟩ := h2 r.1 r.2 hr
    rw [hn] at h3
    cases h3
    exact ⟨r.1, r.2, rfl, h4⟩

/-- C58, attributes: unless all the classes lack the attribute, the result is the placeholder for the declared types. -/
theorem C58_attr (hr : Reached W h) {ts : List PTy} (hi : IsFor h i (.tuple ts)) (nm : String) :
    (¬ SomeHas W ts nm → access W h i nm = .error .noSuchAttribute) ∧
    (SomeHas W ts nm → ∃ j h' t, access W h i nm = .ok (j, h') ∧ IsFor h' j t ∧
      Knows (Untyped W ts nm) (DeclaredAs W ts nm) t) := by
  rw [← attrFound_empty]
  constructor
  · intro hem
    exact ((run_next (reached_good hr) hi (.attr nm)).1 .noSuchAttribute).2 (by
      simp only [Bool.not_eq_false] at hem; simp [next, hem])
  · intro hem
    obtain ⟨j, h', h1, h2⟩ := run_ok (reached_good hr) hi (op := .attr nm) (t' := attrTypes W ts nm) (by simp [next, hem])
    exact ⟨j, h', _, h1, h2, attrTypes_knows ts nm⟩

/-- C58, items: unless none of the classes has items, the result is the placeholder for the item types. -/
theorem C58_item (hr : Reached W h) {ts : List PTy} (hi : IsFor h i (.tuple ts)) :
    (¬ SomeItems W ts → subscript W h i false = .error .notSubscriptable) ∧
    (SomeItems W ts → ∃ j h' t, subscript W h i false = .ok (j, h') ∧ IsFor h' j t ∧
      Knows (UntypedItems W ts) (ItemAs W ts) t) := by
  rw [← itemFound_empty]
  constructor
  · intro hem
    exact ((run_next (reached_good hr) hi .item).1 .notSubscriptable).2 (by
      simp only [Bool.not_eq_false] at hem; simp [next, hem])
  · intro hem
    obtain ⟨j, h', h1, h2⟩ := run_ok (reached_good hr) hi (op := .item) (t' := itemTypes W ts) (by simp [next, hem])
    exact ⟨j, h', _, h1, h2, itemTypes_knows ts⟩

/-- C58, calls: the result is the placeholder for any type, if one of the classes has a `__call__`. -/
theorem C58_call (hr : Reached W h) {ts : List PTy} (hi : IsFor h i (.tuple ts)) :
    (¬ SomeCall W ts → call W h i = .error .notCallable) ∧
    (SomeCall W ts → ∃ j h', call W h i = .ok (j, h') ∧ IsFor h' j .any) := by
  have hc : ts.any (callable W) = true ↔ SomeCall W ts := by
    rw [List.any_eq_true]
    constructor
    · rintro ⟨t, ht, h⟩
      cases t with
      | any => cases h
      | ty c =>
        simp only [callable] at h
        cases hd : W.dict c "__call__" with
        | none => rw [hd] at h; cases h
        | some a => exact ⟨c, a, ht, hd, by rintro rfl; rw [hd] at h; cases h⟩
    · rintro ⟨c, a, ht, hd, ha⟩
      refine ⟨_, ht, ?_⟩
      simp only [callable, hd]
      cases a with
      | pyNone => exact absurd rfl ha
      | plain => rfl
      | typed e => rfl
  rw [← hc]
  constructor
  · intro hem
    exact ((run_next (reached_good hr) hi .call).1 .notCallable).2 (by simp only [next, if_neg hem])
  · intro hem
    exact run_ok (reached_good hr) hi (op := .call) (t' := .any) (by simp only [next, if_pos hem])

/-- C58, slices: the placeholder itself. -/
theorem C58_slice {t : Types} (hi : IsFor h i t) : subscript W h i true = .ok (i, h) := by
  obtain ⟨o, ho, rfl⟩ := hi
  cases ht : o.types <;> simp [subscript, ho, ht]

/-- C58: the placeholder for any type takes every chain of operations, and stays what it is. -/
theorem C58_any (hi : IsFor h i .any) (ops : List Op) : chain W h i ops = .ok (i, h) := by
  obtain ⟨o, ho, ht⟩ := hi
  induction ops with
  | nil => rfl
  | cons op ops ih =>
    have : run W h i op = .ok (i, h) := by
      cases op <;> simp [run, access, subscript, call, ho, ht]
    simp only [chain, this, ih]

theorem chain_reached (hr : Reached W h) {t : Types} (hi : IsFor h i t) (ops : List Op) :
    ∀ h' j, chain W h i ops = .ok (j, h') → Reached W h' ∧ Later h h' ∧ ∃ t, IsFor h' j t := by
  induction ops generalizing h i t with
  | nil => intro h' j hc; cases hc; exact ⟨hr, .rfl, t, hi⟩
  | cons op ops ih =>
    intro h' j hc
    unfold chain at hc
    split at hc
    · cases hc
    · rename_i k h'' hk
      obtain ⟨_, hl, t', ht'⟩ := run_good (reached_good hr) hk
      obtain ⟨h1, h2, h3⟩ := ih (.run hr hk) ht' h' j hc
      exact ⟨h1, hl.trans h2, h3⟩

/-- C58: whatever chain of operations does not raise, the result is a placeholder, and false. -/
theorem C58_chain (hr : Reached W h) {t : Types} (hi : IsFor h i t) {ops : List Op} (hc : chain W h i ops = .ok (j, h')) :
    Reached W h' ∧ ∃ o, h'.objs[j]? = some o ∧ truth o = false := by
  obtain ⟨h1, _, t, o, ho, _⟩ := chain_reached hr hi ops h' j hc
  exact ⟨h1, o, ho, rfl⟩

/-- C58: a placeholder is for the same types for ever. -/
theorem C58_kept (hr : Reached W h) {t t' : Types} {k : Nat} (hi : IsFor h i t) (hk : IsFor h k t') {ops : List Op}
    (hc : chain W h i ops = .ok (j, h')) : IsFor h' k t' := (chain_reached hr hi ops h' j hc).2.1 k t' hk

/-- C58: at any time there is one placeholder for each tuple of types, and `placeholder` returns it. -/
theorem C58_single (hr : Reached W h) {t : Types} (hi : IsFor h i t) (hj : IsFor h j t) : i = j := by
  have h1 := (reached_good hr).objs t i hi
  rw [(reached_good hr).objs t j hj] at h1
  exact (Option.some.inj h1).symm

theorem C58_placeholder (hr : Reached W h) {ts : List PTy} (hi : IsFor h i (typesOf ts)) : placeholder h ts = (i, h) := by
  unfold placeholder
  rw [(reached_good hr).objs _ i hi]

theorem chain_next (hg : Reached W h) {h₂ : Heap} (hg₂ : Reached W h₂) : ∀ (ops : List Op) {i i₂ : Nat} {t : Types},
    IsFor h i t → IsFor h₂ i₂ t → (∀ e, chain W h i ops = .error e → chain W h₂ i₂ ops = .error e) ∧
    ∀ j h', chain W h i ops = .ok (j, h') → ∃ j₂ h₂' t', chain W h₂ i₂ ops = .ok (j₂, h₂') ∧ IsFor h' j t' ∧ IsFor h₂' j₂ t' := by
  intro ops
  induction ops generalizing h h₂ with
  | nil =>
    intro i i₂ t hi hi₂
    refine ⟨fun e he => (by cases he), ?_⟩
    rintro j h' ⟨⟩
    exact ⟨i₂, h₂, t, rfl, hi, hi₂⟩
  | cons op ops ih =>
    intro i i₂ t hi hi₂
    obtain ⟨n1, n2⟩ := run_next (reached_good hg) hi op
    obtain ⟨m1, m2⟩ := run_next (reached_good hg₂) hi₂ op
    cases hr : run W h i op with
    | error e =>
      have : run W h₂ i₂ op = .error e := (m1 e).2 ((n1 e).1 hr)
      simp [chain, hr, this]
    | ok r =>
      obtain ⟨t', ht', hf⟩ := n2 r.1 r.2 hr
      obtain ⟨j₂, h₂', hr₂, hf₂⟩ := run_ok (reached_good hg₂) hi₂ ht'
      have := ih (.run hg hr) (.run hg₂ hr₂) hf hf₂
      simpa only [chain, hr, hr₂] using this

/-- C58: what an operation does depends on the types only, not on what has been done before with these or other
placeholders. -/
theorem C58_history (hr : Reached W h) {h₂ : Heap} (hr₂ : Reached W h₂) {i₂ : Nat} {t : Types} (hi : IsFor h i t)
    (hi₂ : IsFor h₂ i₂ t) (ops : List Op) :
    (∀ e, chain W h i ops = .error e → chain W h₂ i₂ ops = .error e) ∧
    ∀ j h', chain W h i ops = .ok (j, h') → ∃ j₂ h₂' t', chain W h₂ i₂ ops = .ok (j₂, h₂') ∧ IsFor h' j t' ∧ IsFor h₂' j₂ t' :=
  chain_next hr hr₂ ops hi hi₂

/-- C58: assignments raise. -/
theorem C58_assign {nm : String} (h : nm ∉ ["_typetuple", "_attrs", "_member_type"]) :
    setattr nm = .error .badAssignment ∧ setitem = .error .badAssignment := by
  simp only [List.mem_cons, List.not_mem_nil, or_false, not_or] at h
  simp [setattr, setitem, h]

/-- C58: the attribute `foo0` is the value of `foo`, or the placeholder for the declared types, if `foo` is not set. -/
theorem C58_aux {α : Type} (hr : Reached W h) (vt : Option Entry) (get : Except Exc α) :
    (∀ a, get = .ok a → auxGet h vt get = .ok (.value a, h)) ∧
    (∀ e, e.isAttribute = true → get = .error e → ∃ i h', auxGet h vt get = .ok (.empty i, h') ∧ Reached W h' ∧
      IsFor h' i (match vt with
        | none => .any
        | some (.one t) => typesOf [t]
        | some (.many ts) => typesOf ts)) ∧
    (∀ e, e.isAttribute = false → get = .error e → auxGet h vt get = .error e) := by
  refine ⟨?_, ?_, ?_⟩
  · rintro a rfl; rfl
  · rintro e he rfl
    refine ⟨(placeholder h (auxTypes vt)).1, (placeholder h (auxTypes vt)).2, by simp only [auxGet, he, if_true], .placeholder hr, ?_⟩
    have := (placeholder_good (reached_good hr) (auxTypes vt)).2.1
    rcases vt with _ | t | ts
    · exact this
    · exact this
    · exact this
  · rintro e he rfl
    simp [auxGet, he]

/-! An example: posts with an author, who is a person or a robot, comments and a subscriptable attribute. -/

def exDict : String → String → Option Attr
  | "Post", "author" => some (.typed (.many [.ty "Person", .ty "Robot"]))
  | "Post", "comments" => some (.typed (.one (.ty "Comments")))
  | "Post", "title" => some .plain
  | "Post", "nothing" => some .pyNone
  | "Person", "name" => some (.typed (.one (.ty "str")))
  | "Robot", "name" => some (.typed (.one (.ty "int")))
  | "Robot", "__getattr__" => some .plain
  | "dict", "__getitem__" => some .plain
  | "Func", "__call__" => some .plain
  | _, _ => none

def exMro : String → List String
  | "Special" => ["Special", "Post"]
  | "Dict" => ["Dict", "dict"]
  | "Func2" => ["Func2", "Func"]
  | "Robot2" => ["Robot2", "Robot"]
  | c => [c]

def exColl : String → Option Entry
  | "Comments" => some (.one (.ty "Post"))
  | _ => none

def exW : World := ⟨exMro, exDict, exColl⟩

def exH : Heap := (placeholder {} [.ty "Special"]).2

theorem exReached : Reached exW exH := .placeholder .init

theorem exFor : IsFor exH 0 (.tuple [.ty "Special"]) := ⟨_, rfl, by decide⟩

/-- The types at the end of a chain. -/
def typesAt (r : Except EErr (Nat × Heap)) : Except EErr (Option Types) :=
  match r with
  | .error e => .error e
  | .ok (i, h) => .ok ((h.objs[i]?).map (·.types))

-- p.author.name, p.comments[:2][0].author, p.title.what.ever(), p.author.age, and chains that raise
example : typesAt (chain exW exH 0 [.attr "author", .attr "name"]) = .ok (some (.tuple [.ty "str", .ty "int"])) ∧
    typesAt (chain exW exH 0 [.attr "comments", .slice, .item, .attr "author"]) =
      .ok (some (.tuple [.ty "Person", .ty "Robot"])) ∧
    typesAt (chain exW exH 0 [.attr "title", .attr "what", .attr "ever", .call]) = .ok (some .any) ∧
    typesAt (chain exW exH 0 [.attr "author", .attr "age"]) = .ok (some .any) ∧
    typesAt (chain exW exH 0 [.attr "nothing"]) = .error .noSuchAttribute ∧
    typesAt (chain exW exH 0 [.item]) = .error .notSubscriptable ∧
    typesAt (chain exW exH 0 [.call]) = .error .notCallable := by decide +kernel

example : SomeHas exW [.ty "Special"] "author" :=
  ⟨"Special", List.mem_singleton.2 rfl, .inl ⟨_, ⟨1, "Post", rfl, rfl, fun j hj b hb => by
    obtain rfl : j = 0 := by omega
    cases hb; rfl⟩, by simp⟩⟩

/-! ## The errors -/

/-- C69: an operation raises exactly if none of the types supports it, as the messages of the exceptions
say. -/
def C69_statement : Prop := ∀ (W : World) (h : Heap) (i : Nat) (ts : List PTy) (op : Op), Reached W h →
  IsFor h i (.tuple ts) → ((∃ e, run W h i op = .error e) ↔ ¬ Supports W ts op)

/-- It is false of the code: a `__getitem__` that is inherited is not seen … -/
theorem C69_violated : ¬ C69_statement := by
  intro h
  have := (h exW (placeholder {} [.ty "Dict"]).2 0 [.ty "Dict"] .item (.placeholder .init) ⟨_, rfl, by decide⟩).1
    ⟨.notSubscriptable, by with_unfolding_all rfl⟩
  exact this ⟨"Dict", .one .any, List.mem_singleton.2 rfl, .inr ⟨.plain, ⟨1, "dict", rfl, rfl, fun j hj b hb => by
    obtain rfl : j = 0 := by omega
    cases hb; rfl⟩, by simp⟩⟩

/-- … nor is a `__call__` … -/
theorem C69_call_violated : ∃ e, call exW (placeholder {} [.ty "Func2"]).2 0 = .error e ∧
    Supports exW [.ty "Func2"] .call :=
  ⟨.notCallable, by with_unfolding_all rfl, "Func2", .plain, List.mem_singleton.2 rfl, ⟨1, "Func", rfl, rfl, fun j hj b hb => by
    obtain rfl : j = 0 := by omega
    cases hb; rfl⟩, by simp⟩

/-- … or a `__getattr__` … -/
theorem C69_getattr_violated : ∃ e, access exW (placeholder {} [.ty "Robot2"]).2 0 "age" = .error e ∧
    Supports exW [.ty "Robot2"] (.attr "age") :=
  ⟨.noSuchAttribute, by with_unfolding_all rfl, "Robot2", .plain, List.mem_singleton.2 rfl, .inr ⟨⟨1, "Robot", rfl, rfl,
    fun j hj b hb => by
      obtain rfl : j = 0 := by omega
      cases hb; rfl⟩, by simp⟩⟩

/-- … and slices of anything go through. -/
theorem C69_slice_violated : subscript exW exH 0 true = .ok (0, exH) ∧ ¬ Supports exW [.ty "Special"] .slice := by
  refine ⟨C58_slice exFor, ?_⟩
  rintro ⟨c, a, hc, h⟩
  simp only [List.mem_singleton, PTy.ty.injEq] at hc
  subst hc
  rcases h with h | ⟨a, ⟨i, d, h1, h2, _⟩, _⟩
  · cases h
  · match i, h1 with
    | 0, h1 => cases h1; cases h2
    | 1, h1 => cases h1; cases h2

/-- No class inherits the three methods, or makes them `None`. -/
def OwnMethods (W : World) (ts : List PTy) : Prop :=
  ∀ c, .ty c ∈ ts → ∀ nm ∈ ["__getattr__", "__getitem__", "__call__"], (∀ a, HasAttr W c nm a → W.dict c nm = some a) ∧
    W.dict c nm ≠ some .pyNone

theorem own_has {c nm : String} {a : Attr} (hm : (W.mro c)[0]? = some c) (h : W.dict c nm = some a) (ha : a ≠ .pyNone) :
    HasAttr W c nm a := ⟨⟨0, c, hm, h, fun j hj => by omega⟩, ha⟩

/-- C69, except for slices, if no class inherits `__getattr__`, `__getitem__` or `__call__`. -/
theorem C69_partial (hr : Reached W h) {ts : List PTy} (hi : IsFor h i (.tuple ts)) (ho : OwnMethods W ts)
    (hm : ∀ c, (W.mro c)[0]? = some c) {op : Op} (hop : op ≠ .slice) :
    (∃ e, run W h i op = .error e) ↔ ¬ Supports W ts op := by
  cases op with
  | slice => exact absurd rfl hop
  | attr nm =>
    obtain ⟨h1, h2⟩ := C58_attr hr hi nm
    have key : SomeHas W ts nm ↔ Supports W ts (.attr nm) := by
      constructor
      · rintro ⟨c, hc, ⟨a, ha⟩ | ⟨a, ha⟩⟩
        · exact ⟨c, a, hc, .inl ha⟩
        · refine ⟨c, a, hc, .inr (own_has (hm c) ha ?_)⟩
          rintro rfl
          exact (ho c hc _ (by simp)).2 ha
      · rintro ⟨c, a, hc, ha | ha⟩
        · exact ⟨c, hc, .inl ⟨a, ha⟩⟩
        · exact ⟨c, hc, .inr ⟨a, (ho c hc _ (by simp)).1 a ha⟩⟩
    rw [← key]
    constructor
    · rintro ⟨e, he⟩ hs
      obtain ⟨j, h', t, hok, _⟩ := h2 hs
      have he : access W h i nm = .error e := he
      rw [hok] at he; cases he
    · exact fun hs => ⟨_, h1 hs⟩
  | item =>
    obtain ⟨h1, h2⟩ := C58_item hr hi
    have key : SomeItems W ts ↔ Supports W ts .item := by
      constructor
      · rintro ⟨c, hc, ⟨e, he⟩ | ⟨a, ha⟩⟩
        · exact ⟨c, e, hc, .inl he⟩
        · refine ⟨c, .one .any, hc, .inr ⟨a, own_has (hm c) ha ?_⟩⟩
          rintro rfl
          exact (ho c hc _ (by simp)).2 ha
      · rintro ⟨c, e, hc, he | ⟨a, ha⟩⟩
        · exact ⟨c, hc, .inl ⟨e, he⟩⟩
        · exact ⟨c, hc, .inr ⟨a, (ho c hc _ (by simp)).1 a ha⟩⟩
    rw [← key]
    constructor
    · rintro ⟨e, he⟩ hs
      obtain ⟨j, h', t, hok, _⟩ := h2 hs
      have he : subscript W h i false = .error e := he
      rw [hok] at he; cases he
    · exact fun hs => ⟨_, h1 hs⟩
  | call =>
    obtain ⟨h1, h2⟩ := C58_call hr hi
    have key : SomeCall W ts ↔ Supports W ts .call := by
      constructor
      · rintro ⟨c, a, hc, h1, h2⟩; exact ⟨c, a, hc, own_has (hm c) h1 h2⟩
      · rintro ⟨c, a, hc, ha⟩; exact ⟨c, a, hc, (ho c hc _ (by simp)).1 a ha, ha.2⟩
    rw [← key]
    constructor
    · rintro ⟨e, he⟩ hs
      obtain ⟨j, h', hok, _⟩ := h2 hs
      have he : call W h i = .error e := he
      rw [hok] at he; cases he
    · exact fun hs => ⟨_, h1 hs⟩

end Normalize.Empty
