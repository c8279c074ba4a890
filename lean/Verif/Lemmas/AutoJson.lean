import Verif.Spec.AutoJson
import Verif.Lemmas.Access

/-!
# Lemmas about `AutoJsonRecord`
-/

namespace Normalize.AutoJson

open Spec

theorem Doc.ind {P : Doc → Prop} (null : P .null) (bool : ∀ b, P (.bool b)) (int : ∀ i, P (.int i)) (num : ∀ n, P (.num n))
    (str : ∀ s, P (.str s)) (arr : ∀ xs, (∀ x ∈ xs, P x) → P (.arr xs)) (obj : ∀ es, (∀ e ∈ es, P e.2) → P (.obj es)) : ∀ d, P d := by
  have key : ∀ n d, sizeOf d ≤ n → P d := by
    intro n
    induction n with
    | zero => intro d h; cases d <;> simp at h
    | succ n ih =>
      intro d h
      cases d with
      | null => exact null
      | bool b => exact bool b
      | int i => exact int i
      | num k => exact num k
      | str s => exact str s
      | arr xs =>
        refine arr xs (fun x hx => ih x ?_)
        have := List.sizeOf_lt_of_mem hx
        simp at h
        omega
      | obj es =>
        refine obj es (fun e he => ih e.2 ?_)
        have := List.sizeOf_lt_of_mem he
        have : sizeOf e.2 < sizeOf e := by cases e; simp; omega
        simp at h
        omega
  exact fun d => key _ d (Nat.le_refl _)

variable {C : Conv} {parse : String → Except AErr Obj}

theorem upEach_eq (es : List (String × Doc)) : upEach C parse es = es.map (fun e => (e.1, upgrade C parse e.2)) := by
  induction es with
  | nil => simp [upEach]
  | cons e es ih => obtain ⟨k, d⟩ := e; simp [upEach, ih]

theorem plainOuts_eq (xs : List Doc) : plainOuts xs = xs.map plainOut := by
  induction xs with
  | nil => simp [plainOuts]
  | cons x xs ih => simp [plainOuts, ih]

theorem plainOutEach_eq (es : List (String × Doc)) : plainOutEach es = es.map (fun e => (e.1, plainOut e.2)) := by
  induction es with
  | nil => simp [plainOutEach]
  | cons e es ih => obtain ⟨k, d⟩ := e; simp [plainOutEach, ih]

theorem outEach_eq (us : List (String × Obj)) : outEach C us = us.map (fun e => (e.1, toJson C e.2)) := by
  induction us with
  | nil => simp [outEach]
  | cons e es ih => obtain ⟨k, d⟩ := e; simp [outEach, ih]

theorem outItems_eq (xs : List Obj) : outItems C xs = xs.map (jsonData C) := by
  induction xs with
  | nil => simp [outItems]
  | cons x xs ih => simp [outItems, ih]

/-! ## Lookups -/

theorem alookup_mem {α β : Type} [DecidableEq α] {l : List (α × β)} {k : α} {v : β} (h : alookup l k = some v) : (k, v) ∈ l := by
  induction l with
  | nil => cases h
  | cons e l ih =>
    obtain ⟨k', v'⟩ := e
    simp only [alookup] at h
    split at h
    · rename_i hk
      cases h
      cases hk
      exact List.mem_cons_self
    · exact List.mem_cons_of_mem _ (ih h)

theorem alookup_of_mem {α β : Type} [DecidableEq α] {l : List (α × β)} {k : α} {v : β} (hn : (l.map (·.1)).Nodup) (h : (k, v) ∈ l) :
    alookup l k = some v := by
  induction l with
  | nil => cases h
  | cons e l ih =>
    obtain ⟨k', v'⟩ := e
    simp only [List.map_cons, List.nodup_cons] at hn
    simp only [alookup]
    rcases List.mem_cons.1 h with h | h
    · cases h
      simp
    · rw [if_neg, ih hn.2 h]
      rintro rfl
      exact hn.1 (List.mem_map.2 ⟨_, h, rfl⟩)

theorem alookup_isSome {α β : Type} [DecidableEq α] {l : List (α × β)} {k : α} : (alookup l k).isSome ↔ k ∈ l.map (·.1) := by
  induction l with
  | nil => simp [alookup]
  | cons e l ih =>
    obtain ⟨k', v'⟩ := e
    simp only [alookup]
    split
    · rename_i hk
      cases hk
      simp
    · rename_i hk
      rw [ih]
      simp only [List.map_cons, List.mem_cons]
      constructor
      · exact .inr
      · rintro (h | h)
        · exact absurd h.symm hk
        · exact h

/-! ## The comprehension -/

theorem collect_ok {l : List (String × Except AErr Obj)} : ∀ {acc : List (String × Obj)} (f : String → Obj), (∀ e ∈ l, e.2 = .ok (f e.1)) →
    (∀ e ∈ l, ∀ e' ∈ l, C.keyIn e.1 = C.keyIn e'.1 → e.1 = e'.1) →
    ∃ us, collect C l acc = .ok us ∧ (∀ e ∈ l, alookup us (C.keyIn e.1) = some (f e.1)) ∧
      (∀ a, (∀ e ∈ l, C.keyIn e.1 ≠ a) → alookup us a = alookup acc a) := by
  induction l with
  | nil => intro acc f _ _; exact ⟨acc, rfl, by simp, by simp⟩
  | cons e l ih =>
    intro acc f hf hi
    obtain ⟨k, r⟩ := e
    have hr := hf _ List.mem_cons_self
    simp only at hr
    subst hr
    obtain ⟨us, h1, h2, h3⟩ := ih (acc := aset acc (C.keyIn k) (f k)) f (fun e he => hf e (List.mem_cons_of_mem _ he))
      (fun e he e' he' => hi e (List.mem_cons_of_mem _ he) e' (List.mem_cons_of_mem _ he'))
    refine ⟨us, by simp only [collect]; exact h1, ?_, ?_⟩
    · intro e he
      rcases List.mem_cons.1 he with rfl | he
      · by_cases hk : ∃ e ∈ l, C.keyIn e.1 = C.keyIn k
        · obtain ⟨e, he, hk⟩ := hk
          have := hi e (List.mem_cons_of_mem _ he) _ List.mem_cons_self hk
          have h4 := h2 e he
          simp only at this
          rw [this] at h4
          exact h4
        · have := h3 (C.keyIn k) (fun e he hh => hk ⟨e, he, hh⟩)
          simp only
          rw [this, alookup_aset]
          simp
      · exact h2 e he
    · intro a ha
      rw [h3 a (fun e he => ha e (List.mem_cons_of_mem _ he)), alookup_aset, if_neg]
      intro h
      exact ha _ List.mem_cons_self h

/-! ## Parts -/

theorem once_here {es : List (String × Doc)} (h : KeysOnce (.obj es)) : (es.map (·.1)).Nodup := h es ⟨[], rfl⟩

theorem once_step {d x : Doc} {s : Step} (h : KeysOnce d) (hs : stepDoc d s = some x) : KeysOnce x := by
  rintro es ⟨p, hp⟩
  exact h es ⟨s :: p, by simp [docAt, hs, hp]⟩

theorem once_key {es : List (String × Doc)} {k : String} {x : Doc} (h : KeysOnce (.obj es)) (hk : alookup es k = some x) : KeysOnce x :=
  once_step h (s := .key k) hk

theorem once_item {xs : List Doc} {i : Nat} {x : Doc} (h : KeysOnce (.arr xs)) (hk : xs[i]? = some x) : KeysOnce x :=
  once_step h (s := .idx i) hk

theorem recordIn_key {es es' : List (String × Doc)} {k : String} {x : Doc} (hk : alookup es k = some x) (h : RecordIn es' x) :
    RecordIn es' (.obj es) := by
  obtain ⟨p, hp⟩ := h
  exact ⟨_, .key hk hp⟩

theorem recordIn_item {es' : List (String × Doc)} {xs : List Doc} {x z : Doc} {i : Nat} (hk : (x :: xs)[i]? = some z) (hx : shape x = .obj)
    (h : RecordIn es' z) : RecordIn es' (.arr (x :: xs)) := by
  obtain ⟨p, hp⟩ := h
  exact ⟨_, .item hk hx hp⟩

theorem recordIn_here (es : List (String × Doc)) : RecordIn es (.obj es) := ⟨[], .root _⟩

theorem pure_key {es : List (String × Doc)} {k : String} {x : Doc} (h : ListsPure (.obj es)) (hk : alookup es k = some x) : ListsPure x :=
  fun _ y ys hp hy => h _ y ys (.key hk hp) hy

theorem pure_item {xs : List Doc} {x z : Doc} {i : Nat} (h : ListsPure (.arr (x :: xs))) (hk : (x :: xs)[i]? = some z) (hx : shape x = .obj) :
    ListsPure z :=
  fun _ y ys hp hy => h _ y ys (.item hk hx hp) hy

/-- What reading needs. -/
structure Fine (C : Conv) (d : Doc) : Prop where
  once : KeysOnce d
  apart : KeysApart C d
  pure : ListsPure d

theorem Fine.key {es : List (String × Doc)} {k : String} {x : Doc} (h : Fine C (.obj es)) (hk : alookup es k = some x) : Fine C x :=
  ⟨once_key h.once hk, fun es' he => h.apart es' (recordIn_key hk he), pure_key h.pure hk⟩

theorem Fine.item {xs : List Doc} {x z : Doc} {i : Nat} (h : Fine C (.arr (x :: xs))) (hk : (x :: xs)[i]? = some z) (hx : shape x = .obj) : Fine C z :=
  ⟨once_item h.once hk, fun es' he => h.apart es' (recordIn_item hk hx he), pure_item h.pure hk hx⟩

theorem shape_obj {d : Doc} (h : shape d = .obj) : ∃ es, d = .obj es := by
  cases d <;> first | exact ⟨_, rfl⟩ | cases h

theorem startsWithObj_iff {xs : List Doc} : startsWithObj xs = true ↔ ∃ x ys, xs = x :: ys ∧ shape x = .obj := by
  constructor
  · intro h
    match xs, h with
    | .obj es :: ys, _ => exact ⟨_, _, rfl, rfl⟩
  · rintro ⟨x, ys, rfl, hx⟩
    obtain ⟨es, rfl⟩ := shape_obj hx
    rfl

/-- The record that is made of a JSON object. -/
theorem record_ok (ho : GoodOrder C) {es : List (String × Doc)} (hn : (es.map (·.1)).Nodup)
    (hi : ∀ k ∈ es.map (·.1), ∀ k' ∈ es.map (·.1), C.keyIn k = C.keyIn k' → k = k')
    (hu : ∀ k x, alookup es k = some x → ∃ v, upgrade C parse x = .ok v) :
    ∃ us, record C (upEach C parse es) = .ok (.auto us) ∧
      (∀ k x, alookup es k = some x → ∃ v, upgrade C parse x = .ok v ∧ alookup us (C.keyIn k) = some v) ∧
      (∀ a, (alookup us a).isSome ↔ ∃ k ∈ es.map (·.1), C.keyIn k = a) := by
  have hp := ho (upEach C parse es)
  have hm : ∀ e, e ∈ C.ord (upEach C parse es) ↔ ∃ x, alookup es e.1 = some x ∧ e.2 = upgrade C parse x := by
    intro e
    rw [hp.mem_iff, upEach_eq, List.mem_map]
    constructor
    · rintro ⟨y, hy, rfl⟩
      exact ⟨y.2, alookup_of_mem hn hy, rfl⟩
    · rintro ⟨x, hx, he⟩
      exact ⟨(e.1, x), alookup_mem hx, by cases e; simp_all⟩
  have hf : ∃ f : String → Obj, ∀ k x, alookup es k = some x → upgrade C parse x = .ok (f k) := by
    refine ⟨fun k => match alookup es k with | none => .plain .null | some x => match upgrade C parse x with | .ok v => v | .error _ => .plain .null, ?_⟩
    intro k x hx
    obtain ⟨v, hv⟩ := hu k x hx
    simp only [hx, hv]
  obtain ⟨f, hf⟩ := hf
  have hkey : ∀ e ∈ C.ord (upEach C parse es), e.1 ∈ es.map (·.1) := by
    intro e he
    obtain ⟨x, hx, _⟩ := (hm e).1 he
    exact alookup_isSome.1 (by simp [hx])
  obtain ⟨us, h1, h2, h3⟩ := collect_ok (C := C) (l := C.ord (upEach C parse es)) (acc := []) f
    (by
      intro e he
      obtain ⟨x, hx, he⟩ := (hm e).1 he
      rw [he, hf _ _ hx])
    (fun e he e' he' => hi _ (hkey e he) _ (hkey e' he'))
  refine ⟨us, by simp [record, h1], ?_, ?_⟩
  · intro k x hx
    refine ⟨f k, hf k x hx, ?_⟩
    exact h2 (k, upgrade C parse x) ((hm _).2 ⟨x, hx, rfl⟩)
  · intro a
    constructor
    · intro ha
      by_cases hex : ∃ k ∈ es.map (·.1), C.keyIn k = a
      · exact hex
      · rw [h3 a (fun e he hh => hex ⟨_, hkey e he, hh⟩)] at ha
        simp [alookup] at ha
    · rintro ⟨k, hk, rfl⟩
      obtain ⟨x, hx⟩ := Option.isSome_iff_exists.1 (alookup_isSome.2 hk)
      rw [h2 (k, upgrade C parse x) ((hm _).2 ⟨x, hx, rfl⟩)]
      rfl

/-- The records that are made of a list of JSON objects. -/
theorem items_ok {xs : List Doc} (h : ∀ x ∈ xs, ∃ v, item C parse x = .ok v) :
    ∃ ys, items C parse xs = .ok ys ∧ ys.length = xs.length ∧ ∀ i : Nat, ∀ x, xs[i]? = some x → ∃ y, ys[i]? = some y ∧ item C parse x = .ok y := by
  induction xs with
  | nil => exact ⟨[], by simp [items], rfl, by simp⟩
  | cons x xs ih =>
    obtain ⟨v, hv⟩ := h x List.mem_cons_self
    obtain ⟨ys, h1, h2, h3⟩ := ih (fun y hy => h y (List.mem_cons_of_mem _ hy))
    refine ⟨v :: ys, by simp [items, hv, h1], by simp [h2], ?_⟩
    intro i z hz
    cases i with
    | zero =>
      simp at hz
      subst hz
      exact ⟨v, rfl, hv⟩
    | succ i =>
      simp at hz
      simpa using h3 i z hz

theorem objAt_plain (d : Doc) (p : List Step) : objAt C (.plain d) p = (docAt d p).map .plain := by
  induction p generalizing d with
  | nil => rfl
  | cons s p ih =>
    simp only [objAt, docAt, stepObj]
    cases stepDoc d s with
    | none => rfl
    | some x => exact ih x

/-- What reading makes of a document. -/
structure Made (C : Conv) (d : Doc) (v : Obj) : Prop where
  stands : (KeysFree C d) → ∀ p x, docAt d p = some x → ∃ y, objAt C v p = some y ∧ Stands C y x
  records : (KeysFree C d) → ∀ p es, ReachedAt d p (.obj es) → ∃ us, objAt C v p = some (.auto us)

theorem made_plain {d : Doc} (h : ∀ p es, ¬ ReachedAt d p (.obj es)) : Made C d (.plain d) :=
  ⟨fun _ p x hx => ⟨.plain x, by simp [objAt_plain, hx], .plain x⟩, fun _ p es hp => absurd hp (h p es)⟩

theorem made_auto {es : List (String × Doc)} {us : List (String × Obj)}
    (h1 : ∀ k x, alookup es k = some x → ∃ v, Made C x v ∧ alookup us (C.keyIn k) = some v)
    (h2 : ∀ a, (alookup us a).isSome ↔ ∃ k ∈ es.map (·.1), C.keyIn k = a) : Made C (.obj es) (.auto us) := by
  constructor
  · intro hfree p x hx
    cases p with
    | nil =>
      simp only [docAt] at hx
      cases hx
      exact ⟨_, rfl, .auto h2⟩
    | cons s p =>
      cases s with
      | idx i => simp [docAt, stepDoc] at hx
      | key k =>
        simp only [docAt, stepDoc] at hx
        cases hk : alookup es k with
        | none => simp [hk] at hx
        | some z =>
          simp only [hk] at hx
          obtain ⟨v, hv, hl⟩ := h1 k z hk
          have hc := hfree es (recordIn_here es) k (alookup_isSome.1 (by simp [hk]))
          simp only [objAt, stepObj, hc, Bool.false_eq_true, if_false, hl]
          exact hv.stands (fun es' he => hfree es' (recordIn_key hk he)) p x hx
  · intro hfree p es' hp
    cases hp with
    | root => exact ⟨us, rfl⟩
    | key hk hp =>
      rename_i k x p
      obtain ⟨v, hv, hl⟩ := h1 k x hk
      have hc := hfree es (recordIn_here es) k (alookup_isSome.1 (by simp [hk]))
      simp only [objAt, stepObj, hc, Bool.false_eq_true, if_false, hl]
      exact hv.records (fun es' he => hfree es' (recordIn_key hk he)) p es' hp

theorem made_coll {xs : List Doc} {x : Doc} {ys : List Obj} (hx : shape x = .obj) (hl : ys.length = (x :: xs).length)
    (h : ∀ i : Nat, ∀ z, (x :: xs)[i]? = some z → ∃ y, ys[i]? = some y ∧ Made C z y) : Made C (.arr (x :: xs)) (.coll ys) := by
  constructor
  · intro hfree p w hw
    cases p with
    | nil =>
      simp only [docAt] at hw
      cases hw
      exact ⟨_, rfl, .coll hl⟩
    | cons s p =>
      cases s with
      | key k => simp [docAt, stepDoc] at hw
      | idx i =>
        simp only [docAt, stepDoc] at hw
        cases hk : (x :: xs)[i]? with
        | none => simp only [hk] at hw; cases hw
        | some z =>
          simp only [hk] at hw
          obtain ⟨y, hy, hm⟩ := h i z hk
          simp only [objAt, stepObj, hy]
          exact hm.stands (fun es' he => hfree es' (recordIn_item hk hx he)) p w hw
  · intro hfree p es hp
    cases hp with
    | item hk hx' hp =>
      rename_i z i p
      obtain ⟨y, hy, hm⟩ := h i z hk
      simp only [objAt, stepObj, hy]
      exact hm.records (fun es' he => hfree es' (recordIn_item hk hx he)) p es hp

/-- Reading a document in which all is fine. -/
theorem upgrade_made (ho : GoodOrder C) (d : Doc) : Fine C d →
    ∃ v, upgrade C parse d = .ok v ∧ Made C d v ∧ (shape d = .obj → item C parse d = .ok v ∧ ∃ us, v = .auto us) := by
  induction d using Doc.ind with
  | null => exact fun _ => ⟨_, by simp [upgrade], made_plain (by rintro p es ⟨⟩), by simp [shape]⟩
  | bool b => exact fun _ => ⟨_, by simp [upgrade], made_plain (by rintro p es ⟨⟩), by simp [shape]⟩
  | int b => exact fun _ => ⟨_, by simp [upgrade], made_plain (by rintro p es ⟨⟩), by simp [shape]⟩
  | num b => exact fun _ => ⟨_, by simp [upgrade], made_plain (by rintro p es ⟨⟩), by simp [shape]⟩
  | str b => exact fun _ => ⟨_, by simp [upgrade], made_plain (by rintro p es ⟨⟩), by simp [shape]⟩
  | arr xs ih =>
    intro hf
    by_cases hs : startsWithObj xs = true
    · obtain ⟨x, ys, rfl, hx⟩ := startsWithObj_iff.1 hs
      have hall : ∀ i : Nat, ∀ z, (x :: ys)[i]? = some z → shape z = .obj := by
        intro i z hz
        rcases List.mem_cons.1 (List.mem_of_getElem? hz) with rfl | hm
        · exact hx
        · exact hf.pure [] x ys (.root _) hx z hm
      have hev : ∀ i : Nat, ∀ z, (x :: ys)[i]? = some z → ∃ v, item C parse z = .ok v ∧ Made C z v := by
        intro i z hz
        obtain ⟨v, _, hm, h3⟩ := ih z (List.mem_of_getElem? hz) (hf.item hz hx)
        exact ⟨v, (h3 (hall i z hz)).1, hm⟩
      obtain ⟨vs, h1, h2, h3⟩ := items_ok (C := C) (parse := parse) (xs := x :: ys) (by
        intro z hz
        obtain ⟨i, hi⟩ := List.mem_iff_getElem?.1 hz
        obtain ⟨v, hv, _⟩ := hev i z hi
        exact ⟨v, hv⟩)
      refine ⟨.coll vs, by simp [upgrade, hs, h1], made_coll hx h2 ?_, by simp [shape]⟩
      intro i z hz
      obtain ⟨y, hy, hi⟩ := h3 i z hz
      obtain ⟨v, hv, hm⟩ := hev i z hz
      rw [hi] at hv
      cases hv
      exact ⟨y, hy, hm⟩
    · refine ⟨.plain (.arr xs), by simp [upgrade, hs], made_plain ?_, by simp [shape]⟩
      intro p es hp
      cases hp with
      | item _ hx _ => exact hs (startsWithObj_iff.2 ⟨_, _, rfl, hx⟩)
  | obj es ih =>
    intro hf
    have hev : ∀ k x, alookup es k = some x → ∃ v, upgrade C parse x = .ok v ∧ Made C x v := by
      intro k x hx
      obtain ⟨v, h1, h2, _⟩ := ih (k, x) (alookup_mem hx) (hf.key hx)
      exact ⟨v, h1, h2⟩
    obtain ⟨us, h1, h2, h3⟩ := record_ok (parse := parse) ho (once_here hf.once) (hf.apart es (recordIn_here es)) (fun k x hx => by
      obtain ⟨v, hv, _⟩ := hev k x hx
      exact ⟨v, hv⟩)
    refine ⟨.auto us, by simp [upgrade, h1], made_auto ?_ h3, fun _ => ⟨by simp [item, h1], us, rfl⟩⟩
    intro k x hx
    obtain ⟨v, hv, hl⟩ := h2 k x hx
    obtain ⟨w, hw, hm⟩ := hev k x hx
    rw [hv] at hw
    cases hw
    exact ⟨v, hm, hl⟩

/-! ## Output -/

theorem sameDoc_refl (d : Doc) : SameDoc d d := fun _ => rfl

theorem sameDoc_obj {es es' : List (String × Doc)}
    (h : ∀ k, (alookup es k = none ∧ alookup es' k = none) ∨ ∃ x x', alookup es k = some x ∧ alookup es' k = some x' ∧ SameDoc x x') :
    SameDoc (.obj es) (.obj es') := by
  intro p
  cases p with
  | nil => rfl
  | cons s p =>
    cases s with
    | idx i => rfl
    | key k =>
      simp only [docAt, stepDoc]
      rcases h k with ⟨h1, h2⟩ | ⟨x, x', h1, h2, h3⟩
      · rw [h1, h2]
      · rw [h1, h2]
        exact h3 p

theorem sameDoc_arr {xs xs' : List Doc} (hl : xs.length = xs'.length)
    (h : ∀ i : Nat, ∀ x x', xs[i]? = some x → xs'[i]? = some x' → SameDoc x x') : SameDoc (.arr xs) (.arr xs') := by
  intro p
  cases p with
  | nil => simp [docAt, shape, hl]
  | cons s p =>
    cases s with
    | key k => rfl
    | idx i =>
      simp only [docAt, stepDoc]
      by_cases hi : i < xs.length
      · have h1 : xs[i]? = some xs[i] := List.getElem?_eq_getElem hi
        have h2 : xs'[i]? = some (xs'[i]'(hl ▸ hi)) := List.getElem?_eq_getElem (hl ▸ hi)
        rw [h1, h2]
        exact h i _ _ h1 h2 p
      · have h1 : xs[i]? = none := List.getElem?_eq_none (by omega)
        have h2 : xs'[i]? = none := List.getElem?_eq_none (by omega)
        rw [h1, h2]

theorem partOf_here (d : Doc) : Within d d := ⟨[], rfl⟩

theorem partOf_step {x d d' : Doc} {s : Step} (hs : stepDoc d s = some d') (h : Within x d') : Within x d := by
  obtain ⟨p, hp⟩ := h
  exact ⟨s :: p, by simp [docAt, hs, hp]⟩

theorem ints_step {d x : Doc} {s : Step} (h : IntsSmall d) (hs : stepDoc d s = some x) : IntsSmall x :=
  fun i hi => h i (partOf_step hs hi)

/-- Documents are written as they are if their integers are small. -/
theorem plainOut_eq (d : Doc) : KeysOnce d → IntsSmall d → plainOut d = d := by
  induction d using Doc.ind with
  | null => intros; rfl
  | bool b => intros; rfl
  | num n => intros; rfl
  | str s => intros; rfl
  | int i =>
    intro _ h
    have := h i (partOf_here _)
    simp only [plainOut]
    rw [if_neg (by omega)]
  | arr xs ih =>
    intro ho hi
    simp only [plainOut, plainOuts_eq, Doc.arr.injEq]
    conv => rhs; rw [← List.map_id xs]
    apply List.map_congr_left
    intro x hx
    obtain ⟨i, hxi⟩ := List.mem_iff_getElem?.1 hx
    exact ih x hx (once_item ho hxi) (ints_step (s := .idx i) hi hxi)
  | obj es ih =>
    intro ho hi
    simp only [plainOut, plainOutEach_eq, Doc.obj.injEq]
    conv => rhs; rw [← List.map_id es]
    apply List.map_congr_left
    intro e he
    have hk : alookup es e.1 = some e.2 := alookup_of_mem (once_here ho) he
    have := ih e he (once_key ho hk) (ints_step (s := .key e.1) hi hk)
    cases e
    simp_all

theorem addKeys_lookup : ∀ {l jd : List (String × Doc)}, (l.map (fun e => C.keyOut e.1)).Nodup →
    (∀ e ∈ l, alookup jd (C.keyOut e.1) = none) → (∀ e ∈ l, alookup (addKeys C l jd) (C.keyOut e.1) = some e.2) ∧
    ∀ k, (∀ e ∈ l, C.keyOut e.1 ≠ k) → alookup (addKeys C l jd) k = alookup jd k := by
  intro l
  induction l with
  | nil => intro jd _ _; simp [addKeys]
  | cons e l ih =>
    intro jd hi hj
    obtain ⟨k, d⟩ := e
    have h0 := hj _ List.mem_cons_self
    simp only at h0
    simp only [List.map_cons, List.nodup_cons, List.mem_map, not_exists, not_and] at hi
    simp only [addKeys, h0, Option.isSome_none, Bool.false_eq_true, if_false]
    obtain ⟨h1, h2⟩ := ih (jd := aset jd (C.keyOut k) d) hi.2 (by
      intro e he
      rw [alookup_aset, if_neg (fun h => hi.1 e he h.symm)]
      exact hj e (List.mem_cons_of_mem _ he))
    constructor
    · intro e he
      rcases List.mem_cons.1 he with rfl | he
      · rw [h2 _ hi.1, alookup_aset]
        simp
      · exact h1 e he
    · intro q hq
      rw [h2 q (fun e he => hq e (List.mem_cons_of_mem _ he)), alookup_aset, if_neg (hq _ List.mem_cons_self)]

theorem aset_keys {α β : Type} [DecidableEq α] {l : List (α × β)} {k : α} {v : β} (h : (l.map (·.1)).Nodup) : ((aset l k v).map (·.1)).Nodup := by
  induction l with
  | nil => simp [aset]
  | cons e l ih =>
    obtain ⟨k', v'⟩ := e
    simp only [List.map_cons, List.nodup_cons] at h
    simp only [aset]
    split
    · rename_i hk
      cases hk
      simpa using h
    · rename_i hk
      simp only [List.map_cons, List.nodup_cons]
      refine ⟨?_, ih h.2⟩
      rw [← alookup_isSome, alookup_aset, if_neg (fun h => hk h.symm), alookup_isSome]
      exact h.1

theorem collect_nodup {l : List (String × Except AErr Obj)} : ∀ {acc us : List (String × Obj)}, collect C l acc = .ok us → (acc.map (·.1)).Nodup →
    (us.map (·.1)).Nodup := by
  induction l with
  | nil => intro acc us h hn; cases h; exact hn
  | cons e l ih =>
    intro acc us h hn
    obtain ⟨k, r⟩ := e
    cases r with
    | error e => cases h
    | ok v => exact ih h (aset_keys hn)

theorem record_nodup {rs : List (String × Except AErr Obj)} {us : List (String × Obj)} (h : record C rs = .ok (.auto us)) : (us.map (·.1)).Nodup := by
  unfold record at h
  split at h
  · cases h
  · rename_i us' hc
    cases h
    exact collect_nodup hc (by simp)

/-- A record made of these entries is written with the same keys. -/
theorem jsonData_same {es : List (String × Doc)} {us : List (String × Obj)} (hn : (us.map (·.1)).Nodup)
    (hb : ∀ k ∈ es.map (·.1), C.keyOut (C.keyIn k) = k)
    (h1 : ∀ k x, alookup es k = some x → ∃ v, alookup us (C.keyIn k) = some v ∧ SameDoc (toJson C v) x)
    (h2 : ∀ a, (alookup us a).isSome ↔ ∃ k ∈ es.map (·.1), C.keyIn k = a) : SameDoc (jsonData C (.auto us)) (.obj es) := by
  simp only [jsonData, outEach_eq]
  have hkey : ∀ e ∈ us, C.keyIn (C.keyOut e.1) = e.1 ∧ C.keyOut e.1 ∈ es.map (·.1) := by
    intro e he
    obtain ⟨k, hk, hke⟩ := (h2 e.1).1 (alookup_isSome.2 (List.mem_map.2 ⟨e, he, rfl⟩))
    rw [← hke, hb k hk]
    exact ⟨rfl, hk⟩
  have hnd : ((us.map (fun e => (e.1, toJson C e.2))).map (fun e => C.keyOut e.1)).Nodup := by
    rw [List.map_map]
    have : (us.map (fun e => C.keyOut e.1)) = (us.map (·.1)).map C.keyOut := by simp
    show (us.map (fun e => C.keyOut e.1)).Nodup
    rw [this]
    refine List.Nodup.map_on ?_ hn
    intro x hx y hy hxy
    obtain ⟨ex, hex, rfl⟩ := List.mem_map.1 hx
    obtain ⟨ey, hey, rfl⟩ := List.mem_map.1 hy
    rw [← (hkey ex hex).1, ← (hkey ey hey).1, hxy]
  obtain ⟨ha, hbb⟩ := addKeys_lookup (C := C) (jd := []) hnd (by simp [alookup])
  apply sameDoc_obj
  intro k
  cases hk : alookup es k with
  | none =>
    left
    refine ⟨?_, rfl⟩
    rw [hbb k]
    · rfl
    · intro e he hke
      obtain ⟨e', he', rfl⟩ := List.mem_map.1 he
      have := (hkey e' he').2
      simp only at hke
      rw [hke, ← alookup_isSome, hk] at this
      cases this
  | some x =>
    right
    obtain ⟨v, hv, hs⟩ := h1 k x hk
    refine ⟨toJson C v, x, ?_, rfl, hs⟩
    have := ha (C.keyIn k, toJson C v) (List.mem_map.2 ⟨_, alookup_mem hv, rfl⟩)
    simp only at this
    rwa [hb k (alookup_isSome.1 (by simp [hk]))] at this

/-- What writing needs. -/
structure Kind (C : Conv) (d : Doc) : Prop where
  back : KeysBack C d
  flat : NoNested d
  small : IntsSmall d

theorem Kind.key {es : List (String × Doc)} {k : String} {x : Doc} (h : Kind C (.obj es)) (hk : alookup es k = some x) : Kind C x :=
  ⟨fun es' he => h.back es' (recordIn_key hk he), fun es' k' es'' he => h.flat es' k' es'' (recordIn_key hk he), ints_step (s := .key k) h.small hk⟩

theorem Kind.item {xs : List Doc} {x z : Doc} {i : Nat} (h : Kind C (.arr (x :: xs))) (hk : (x :: xs)[i]? = some z) (hx : shape x = .obj) : Kind C z :=
  ⟨fun es' he => h.back es' (recordIn_item hk hx he), fun es' k' es'' he => h.flat es' k' es'' (recordIn_item hk hx he),
    ints_step (s := .idx i) h.small hk⟩

theorem upgrade_plain {d : Doc} {v : Obj} (hs : shape d ≠ .obj) (ha : ∀ xs, d = .arr xs → startsWithObj xs = false) (h : upgrade C parse d = .ok v) :
    v = .plain d := by
  cases d with
  | obj es => exact absurd rfl hs
  | arr xs =>
    simp only [upgrade, ha xs rfl, Bool.false_eq_true, if_false] at h
    cases h
    rfl
  | null => simp only [upgrade] at h; cases h; rfl
  | bool b => simp only [upgrade] at h; cases h; rfl
  | int b => simp only [upgrade] at h; cases h; rfl
  | num b => simp only [upgrade] at h; cases h; rfl
  | str b => simp only [upgrade] at h; cases h; rfl

/-- Writing what was read. -/
theorem upgrade_out (ho : GoodOrder C) (d : Doc) : Fine C d → Kind C d → ∀ v, upgrade C parse d = .ok v →
    (shape d = .obj → SameDoc (jsonData C v) d) ∧ ((∀ e es, d ≠ .obj (e :: es)) → SameDoc (toJson C v) d) := by
  induction d using Doc.ind with
  | null => intro hf hk v hv; cases upgrade_plain (by simp [shape]) (by simp) hv; exact ⟨by simp [shape], fun _ => sameDoc_refl _⟩
  | bool b => intro hf hk v hv; cases upgrade_plain (by simp [shape]) (by simp) hv; exact ⟨by simp [shape], fun _ => sameDoc_refl _⟩
  | num b => intro hf hk v hv; cases upgrade_plain (by simp [shape]) (by simp) hv; exact ⟨by simp [shape], fun _ => sameDoc_refl _⟩
  | str b => intro hf hk v hv; cases upgrade_plain (by simp [shape]) (by simp) hv; exact ⟨by simp [shape], fun _ => sameDoc_refl _⟩
  | int b =>
    intro hf hk v hv
    cases upgrade_plain (by simp [shape]) (by simp) hv
    refine ⟨by simp [shape], fun _ => ?_⟩
    simp only [toJson, plainOut_eq _ hf.once hk.small]
    exact sameDoc_refl _
  | arr xs ih =>
    intro hf hk v hv
    refine ⟨by simp [shape], fun _ => ?_⟩
    by_cases hs : startsWithObj xs = true
    · obtain ⟨x, ys, rfl, hx⟩ := startsWithObj_iff.1 hs
      have hall : ∀ i : Nat, ∀ z, (x :: ys)[i]? = some z → shape z = .obj := by
        intro i z hz
        rcases List.mem_cons.1 (List.mem_of_getElem? hz) with rfl | hm
        · exact hx
        · exact hf.pure [] x ys (.root _) hx z hm
      obtain ⟨vs, h1, h2, h3⟩ := items_ok (C := C) (parse := parse) (xs := x :: ys) (by
        intro z hz
        obtain ⟨i, hi⟩ := List.mem_iff_getElem?.1 hz
        obtain ⟨v, _, _, hh⟩ := upgrade_made (parse := parse) ho z (hf.item hi hx)
        exact ⟨v, (hh (hall i z hi)).1⟩)
      simp only [upgrade, hs, h1, if_true] at hv
      cases hv
      simp only [toJson, outItems_eq]
      apply sameDoc_arr (by simp [h2])
      intro i w z hw hz
      obtain ⟨y, hy, hit⟩ := h3 i z hz
      rw [List.getElem?_map, hy] at hw
      cases hw
      obtain ⟨v, hv, _, hh⟩ := upgrade_made (parse := parse) ho z (hf.item hz hx)
      have hv' := (hh (hall i z hz)).1
      rw [hit] at hv'
      cases hv'
      exact (ih z (List.mem_of_getElem? hz) (hf.item hz hx) (hk.item hz hx) y hv).1 (hall i z hz)
    · cases upgrade_plain (by simp [shape]) (by intro xs' h; cases h; simpa using hs) hv
      simp only [toJson, plainOut_eq _ hf.once hk.small]
      exact sameDoc_refl _
  | obj es ih =>
    intro hf hk v hv
    obtain ⟨us, h1, h2, h3⟩ := record_ok (parse := parse) ho (once_here hf.once) (hf.apart es (recordIn_here es)) (fun k x hx => by
      obtain ⟨v, hv, _⟩ := upgrade_made (parse := parse) ho x (hf.key hx)
      exact ⟨v, hv⟩)
    simp only [upgrade, h1] at hv
    cases hv
    constructor
    · intro _
      refine jsonData_same (record_nodup h1) (hk.back es (recordIn_here es)) ?_ h3
      intro k x hx
      obtain ⟨v, hv, hl⟩ := h2 k x hx
      refine ⟨v, hl, (ih (k, x) (alookup_mem hx) (hf.key hx) (hk.key hx) v hv).2 ?_⟩
      rintro e es' rfl
      cases hk.flat es k _ (recordIn_here es) hx
    · intro hne
      cases es with
      | nil => exact sameDoc_refl _
      | cons e es => exact absurd rfl (hne e es)

end Normalize.AutoJson
