import Verif.Lemmas.AutoJson
import Verif.Props.JsonKeys

/-!
# C76–C78: `AutoJsonRecord`
-/

namespace Normalize.AutoJson

open Spec

variable {C : Conv}

/-- C76: any JSON object can be read, and all its parts are there: keys as attributes, items of lists by their index. -/
def C76_statement : Prop := ∀ (C : Conv) (es : List (String × Doc)) (n : Nat), GoodOrder C → KeysOnce (.obj es) → KeysApart C (.obj es) →
  KeysFree C (.obj es) → ∃ v, read C n (.obj es) = .ok v ∧ ∀ p x, docAt (.obj es) p = some x → ∃ y, objAt C v p = some y ∧ Stands C y x

/-- C76 if lists that start with a JSON object have nothing else. -/
theorem C76_partial (ho : GoodOrder C) {es : List (String × Doc)} (h1 : KeysOnce (.obj es)) (h2 : KeysApart C (.obj es)) (h3 : KeysFree C (.obj es))
    (h4 : ListsPure (.obj es)) (n : Nat) :
    ∃ v, read C n (.obj es) = .ok v ∧ ∀ p x, docAt (.obj es) p = some x → ∃ y, objAt C v p = some y ∧ Stands C y x := by
  obtain ⟨v, _, hm, h⟩ := upgrade_made (parse := parse C n) ho (.obj es) ⟨h1, h2, h4⟩
  exact ⟨v, (h rfl).1, hm.stands h3⟩

/-- C76: JSON objects become records, at any depth, also in lists that start with one. -/
theorem C76_records_partial (ho : GoodOrder C) {es : List (String × Doc)} (h1 : KeysOnce (.obj es)) (h2 : KeysApart C (.obj es)) (h3 : KeysFree C (.obj es))
    (h4 : ListsPure (.obj es)) (n : Nat) {p : List Step} {es' : List (String × Doc)} (hp : ReachedAt (.obj es) p (.obj es')) :
    ∃ v us, read C n (.obj es) = .ok v ∧ objAt C v p = some (.auto us) := by
  obtain ⟨v, _, hm, h⟩ := upgrade_made (parse := parse C n) ho (.obj es) ⟨h1, h2, h4⟩
  obtain ⟨us, hu⟩ := hm.records h3 p es' hp
  exact ⟨v, us, (h rfl).1, hu⟩

/-! ## Lists of records with something else in them -/

theorem collect_all {l : List (String × Except AErr Obj)} : ∀ {acc us : List (String × Obj)}, collect C l acc = .ok us → ∀ e ∈ l, ∃ v, e.2 = .ok v := by
  induction l with
  | nil => simp
  | cons e l ih =>
    intro acc us h e' he'
    obtain ⟨k, r⟩ := e
    simp only [collect] at h
    split at h
    · cases h
    · rename_i v
      rcases List.mem_cons.1 he' with rfl | he'
      · exact ⟨v, rfl⟩
      · exact ih h e' he'

theorem record_all (ho : GoodOrder C) {pr : String → Except AErr Obj} {es : List (String × Doc)} {v : Obj} (h : record C (upEach C pr es) = .ok v) :
    ∀ k x, alookup es k = some x → ∃ w, upgrade C pr x = .ok w := by
  intro k x hx
  unfold record at h
  split at h
  · cases h
  · rename_i us hc
    obtain ⟨w, hw⟩ := collect_all hc (k, upgrade C pr x) ((ho _).mem_iff.2 (by
      rw [upEach_eq]
      exact List.mem_map.2 ⟨_, alookup_mem hx, rfl⟩))
    exact ⟨w, hw⟩

theorem items_all {pr : String → Except AErr Obj} {xs : List Doc} : ∀ {ys : List Obj}, items C pr xs = .ok ys → ∀ x ∈ xs, ∃ v, item C pr x = .ok v := by
  induction xs with
  | nil => simp
  | cons x xs ih =>
    intro ys h z hz
    simp only [items] at h
    split at h
    · cases h
    · rename_i v hv
      split at h
      · cases h
      · rename_i vs hvs
        rcases List.mem_cons.1 hz with rfl | hz
        · exact ⟨v, hv⟩
        · exact ih hvs z hz

/-- What is read of a part, if the whole can be read. -/
theorem reached_read (ho : GoodOrder C) {pr : String → Except AErr Obj} {d y : Doc} {p : List Step} (hr : ReachedAt d p y) :
    KeysOnce d → ∀ v, (upgrade C pr d = .ok v ∨ item C pr d = .ok v) → ∃ z, (upgrade C pr y = .ok z ∨ item C pr y = .ok z) ∧
      (KeysApart C d → KeysFree C d → objAt C v p = some z) := by
  induction hr with
  | root d => exact fun _ v hv => ⟨v, hv, fun _ _ => rfl⟩
  | key hk hr' ih =>
    rename_i es k x y p
    intro ho1 v hv
    have hrec : record C (upEach C pr es) = .ok v := by simpa [upgrade, item] using hv
    have hall := record_all ho hrec
    obtain ⟨w, hw⟩ := hall k x hk
    obtain ⟨z, hz, hp⟩ := ih (once_key ho1 hk) w (.inl hw)
    refine ⟨z, hz, fun ha hf => ?_⟩
    obtain ⟨us, h1, h2, _⟩ := record_ok (parse := pr) ho (once_here ho1) (ha es (recordIn_here es)) hall
    rw [h1] at hrec
    cases hrec
    obtain ⟨w', hw', hl⟩ := h2 k x hk
    rw [hw] at hw'
    cases hw'
    simp only [objAt, stepObj, hf es (recordIn_here es) k (alookup_isSome.1 (by simp [hk])), Bool.false_eq_true, if_false, hl]
    exact hp (fun es' he => ha es' (recordIn_key hk he)) (fun es' he => hf es' (recordIn_key hk he))
  | item hk hx hr' ih =>
    rename_i x z y xs i p
    intro ho1 v hv
    have hst : startsWithObj (x :: xs) = true := startsWithObj_iff.2 ⟨x, xs, rfl, hx⟩
    simp only [upgrade, hst, if_true, item, reduceCtorEq, or_false] at hv
    split at hv
    · cases hv
    · rename_i vs hvs
      cases hv
      obtain ⟨ys, h1, _, h3⟩ := items_ok (items_all hvs)
      rw [hvs] at h1
      cases h1
      obtain ⟨w, hw, hi⟩ := h3 i z hk
      obtain ⟨u, hu, hp⟩ := ih (once_item ho1 hk) w (.inr hi)
      refine ⟨u, hu, fun ha hf => ?_⟩
      simp only [objAt, stepObj, hw]
      exact hp (fun es' he => ha es' (recordIn_item hk hx he)) (fun es' he => hf es' (recordIn_item hk hx he))

/-- C76: the other lists make the whole document unreadable: those that start with a JSON object and have a number, a
boolean or a list somewhere. -/
theorem C76_refused (ho : GoodOrder C) {es : List (String × Doc)} (h1 : KeysOnce (.obj es)) (n : Nat) {p : List Step} {x y : Doc} {xs : List Doc}
    (hp : ReachedAt (.obj es) p (.arr (x :: xs))) (hx : shape x = .obj) (hy : y ∈ xs) (hn : shape y ≠ .obj ∧ shape y ≠ .null ∧ ∀ s, shape y ≠ .str s) :
    ∃ e, read C n (.obj es) = .error e := by
  cases hr : read C n (.obj es) with
  | error e => exact ⟨e, rfl⟩
  | ok v =>
    obtain ⟨z, hz, _⟩ := reached_read (pr := parse C n) ho hp h1 v (.inr hr)
    have hst : startsWithObj (x :: xs) = true := startsWithObj_iff.2 ⟨x, xs, rfl, hx⟩
    simp only [upgrade, hst, if_true, item, reduceCtorEq, or_false] at hz
    split at hz
    · cases hz
    · rename_i vs hvs
      obtain ⟨w, hw⟩ := items_all hvs y (List.mem_cons_of_mem _ hy)
      obtain ⟨hn1, hn2, hn3⟩ := hn
      cases y <;> simp_all [item, shape]

/-- C76: `null` in such a list becomes an empty record, and text what is parsed of it. -/
theorem C76_other_items (ho : GoodOrder C) {es : List (String × Doc)} (h1 : KeysOnce (.obj es)) (h2 : KeysApart C (.obj es)) (h3 : KeysFree C (.obj es))
    {n : Nat} {v : Obj} (hr : read C n (.obj es) = .ok v) {p : List Step} {x : Doc} {xs : List Doc} {i : Nat}
    (hp : ReachedAt (.obj es) p (.arr (x :: xs))) (hx : shape x = .obj) :
    (xs[i]? = some .null → objAt C v (p ++ [.idx (i + 1)]) = some (.auto [])) ∧
    (∀ s, xs[i]? = some (.str s) → ∃ y, parse C n s = .ok y ∧ objAt C v (p ++ [.idx (i + 1)]) = some y) := by
  have hadd : ∀ {d : Doc} {q : List Step} {y : Doc} (z : Doc), ReachedAt d q y → y = .arr (x :: xs) → xs[i]? = some z → ReachedAt d (q ++ [.idx (i + 1)]) z := by
    intro d q y z hq hy hz
    induction hq with
    | root d => subst hy; exact .item (by simpa using hz) hx (.root _)
    | key hk _ ih => exact .key hk (ih hy)
    | item hk hx' _ ih => exact .item hk hx' (ih hy)
  obtain ⟨c, hc, hat⟩ := reached_read (pr := parse C n) ho hp h1 v (.inr hr)
  have hst : startsWithObj (x :: xs) = true := startsWithObj_iff.2 ⟨x, xs, rfl, hx⟩
  simp only [upgrade, hst, if_true, item, reduceCtorEq, or_false] at hc
  split at hc
  · cases hc
  · rename_i vs hvs
    cases hc
    obtain ⟨ys, g1, _, g3⟩ := items_ok (items_all hvs)
    rw [hvs] at g1
    cases g1
    have happ : ∀ (w : Obj) (q : List Step), objAt C w q = some (.coll vs) → objAt C w (q ++ [.idx (i + 1)]) = vs[i + 1]? := by
      intro w q
      induction q generalizing w with
      | nil =>
        intro hw
        simp only [objAt] at hw
        cases hw
        simp only [List.nil_append, objAt, stepObj]
        cases vs[i + 1]? <;> rfl
      | cons s q ih =>
        intro hw
        simp only [List.cons_append, objAt] at hw ⊢
        split at hw
        · cases hw
        · exact ih _ hw
    rw [happ v p (hat h2 h3)]
    constructor
    · intro hi
      obtain ⟨y, hy, hi⟩ := g3 (i + 1) .null (by simpa using hi)
      simp only [item] at hi
      cases hi
      exact hy
    · intro s hi
      obtain ⟨y, hy, hi⟩ := g3 (i + 1) (.str s) (by simpa using hi)
      simp only [item] at hi
      exact ⟨y, hi, hy⟩

/-! ## Declared properties -/

theorem aerase_keys {α β : Type} [DecidableEq α] {l : List (α × β)} {k : α} (h : (l.map (·.1)).Nodup) : ((aerase l k).map (·.1)).Nodup := by
  refine h.sublist (List.Sublist.map _ ?_)
  clear h
  induction l with
  | nil => simp [aerase]
  | cons e l ih =>
    simp only [aerase]
    split
    · exact ih.cons _
    · exact ih.cons_cons _

open Classical in
theorem takeProps_spec (es : List (String × Doc)) : ∀ (ps : List (String × Option String)) (slots rest : List (String × Doc)),
    (ps.map (·.1)).Nodup → (rest.map (·.1)).Nodup →
    (∀ p j d, (p, some j) ∈ ps → alookup es j = some d → alookup (takeProps ps es slots rest).1 p = some d) ∧
    (∀ p, (∀ j, (p, some j) ∈ ps → alookup es j = none) → alookup (takeProps ps es slots rest).1 p = alookup slots p) ∧
    (∀ k, alookup (takeProps ps es slots rest).2 k = if (∃ p, (p, some k) ∈ ps) ∧ (alookup es k).isSome then none else alookup rest k) ∧
    ((takeProps ps es slots rest).2.map (·.1)).Nodup := by
  intro ps
  induction ps with
  | nil => intro slots rest _ hr; simp [takeProps, hr]
  | cons e ps ih =>
    intro slots rest hn hr
    obtain ⟨p, o⟩ := e
    simp only [List.map_cons, List.nodup_cons] at hn
    cases o with
    | none =>
      obtain ⟨h1, h2, h3, h4⟩ := ih slots rest hn.2 hr
      simp only [takeProps]
      refine ⟨?_, ?_, ?_, h4⟩
      · intro q j d hq; simp at hq; exact h1 q j d hq
      · intro q hq; exact h2 q (fun j hj => hq j (List.mem_cons_of_mem _ hj))
      · intro k; rw [h3 k]; simp
    | some j =>
      simp only [takeProps]
      cases hj : alookup es j with
      | none =>
        obtain ⟨h1, h2, h3, h4⟩ := ih slots rest hn.2 hr
        refine ⟨?_, ?_, ?_, h4⟩
        · intro q j' d hq hd
          rcases List.mem_cons.1 hq with h | h
          · cases h; rw [hj] at hd; cases hd
          · exact h1 q j' d h hd
        · intro q hq; exact h2 q (fun j hj => hq j (List.mem_cons_of_mem _ hj))
        · intro k
          rw [h3 k]
          by_cases hk : k = j
          · subst hk; simp [hj]
          · simp [hk]
      | some d0 =>
        obtain ⟨h1, h2, h3, h4⟩ := ih (aset slots p d0) (aerase rest j) hn.2 (aerase_keys hr)
        refine ⟨?_, ?_, ?_, h4⟩
        · intro q j' d hq hd
          rcases List.mem_cons.1 hq with h | h
          · cases h
            rw [hj] at hd
            cases hd
            simp only
            rw [h2 p (fun j' hj' => absurd (List.mem_map.2 ⟨_, hj', rfl⟩) hn.1), alookup_aset]
            simp
          · exact h1 q j' d h hd
        · intro q hq
          simp only
          rw [h2 q (fun j hj => hq j (List.mem_cons_of_mem _ hj)), alookup_aset, if_neg]
          rintro rfl
          have := hq j List.mem_cons_self
          rw [hj] at this
          cases this
        · intro k
          simp only
          rw [h3 k, alookup_aerase]
          by_cases hk : k = j
          · subst hk; simp [hj]
          · simp [hk, Ne.symm hk]

/-- The properties of a subclass: each name once. -/
def PropsOnce (props : List (String × Option String)) : Prop := (props.map (·.1)).Nodup

/-- C76 for a class with declared properties: these have what is under their JSON names, and the other keys are
attributes. -/
theorem C76_declared_partial (ho : GoodOrder C) {es : List (String × Doc)} {props : List (String × Option String)} (hp : PropsOnce props)
    (h1 : KeysOnce (.obj es)) (h2 : KeysApart C (.obj es)) (h4 : ListsPure (.obj es)) (n : Nat) :
    ∃ r, readSub C n props es = .ok r ∧
      (∀ p j x, alookup props p = some (some j) → alookup es j = some x → getAttr C props r p = .ok (.doc x)) ∧
      (∀ k x, alookup es k = some x → (∀ p, alookup props p ≠ some (some k)) → alookup props (C.keyIn k) = none → C.clsAttr (C.keyIn k) = false →
        KeysFree C x → ∃ v, getAttr C props r (C.keyIn k) = .ok (.val v) ∧ ∀ q y, docAt x q = some y → ∃ z, objAt C v q = some z ∧ Stands C z y) ∧
      (∀ a, (alookup r.unknown a).isSome ↔ ∃ k ∈ es.map (·.1), (∀ p, alookup props p ≠ some (some k)) ∧ C.keyIn k = a) := by
  have hf : Fine C (.obj es) := ⟨h1, h2, h4⟩
  obtain ⟨a1, a2, a3, a4⟩ := takeProps_spec es props [] es hp (once_here h1)
  have hsub : ∀ k x, alookup (takeProps props es [] es).2 k = some x → alookup es k = some x := by
    intro k x hx
    rw [a3 k] at hx
    split at hx
    · cases hx
    · exact hx
  have hkeys : ∀ k ∈ (takeProps props es [] es).2.map (·.1), k ∈ es.map (·.1) := by
    intro k hk
    obtain ⟨x, hx⟩ := Option.isSome_iff_exists.1 (alookup_isSome.2 hk)
    exact alookup_isSome.1 (by simp [hsub k x hx])
  obtain ⟨us, b1, b2, b3⟩ := record_ok (parse := parse C n) ho a4
    (fun k hk k' hk' => h2 es (recordIn_here es) k (hkeys k hk) k' (hkeys k' hk')) (fun k x hx => by
      obtain ⟨v, hv, _⟩ := upgrade_made (parse := parse C n) ho x (hf.key (hsub k x hx))
      exact ⟨v, hv⟩)
  have hc : collect C (C.ord (upEach C (parse C n) (takeProps props es [] es).2)) [] = .ok us := by
    unfold record at b1
    split at b1
    · cases b1
    · rename_i us' hc
      cases b1
      exact hc
  refine ⟨⟨(takeProps props es [] es).1, us⟩, by simp [readSub, hc], ?_, ?_, ?_⟩
  · intro p j x hj hx
    have := a1 p j x (alookup_mem hj) hx
    simp [getAttr, hj, this]
  · intro k x hx hk hpn hcn hfree
    have hrest : alookup (takeProps props es [] es).2 k = some x := by
      rw [a3 k, if_neg, hx]
      rintro ⟨⟨p, hpm⟩, _⟩
      exact hk p (alookup_of_mem hp hpm)
    obtain ⟨v, hv, hl⟩ := b2 k x hrest
    obtain ⟨w, hw, hm, _⟩ := upgrade_made (parse := parse C n) ho x (hf.key hx)
    rw [hv] at hw
    cases hw
    exact ⟨v, by simp [getAttr, hpn, hcn, hl], hm.stands hfree⟩
  · intro a
    simp only
    rw [b3 a]
    constructor
    · rintro ⟨k, hk, rfl⟩
      refine ⟨k, hkeys k hk, ?_, rfl⟩
      intro p hpk
      have := alookup_isSome.2 hk
      rw [a3 k, if_pos ⟨⟨p, alookup_mem hpk⟩, alookup_isSome.2 (hkeys k hk)⟩] at this
      cases this
    · rintro ⟨k, hk, hno, rfl⟩
      refine ⟨k, ?_, rfl⟩
      rw [← alookup_isSome, a3 k, if_neg, alookup_isSome]
      · exact hk
      · rintro ⟨⟨p, hpm⟩, _⟩
        exact hno p (alookup_of_mem hp hpm)

/-! ## Assignments -/

/-- C77: what is assigned to an attribute is read back, and a deleted attribute is gone. -/
def C77_statement : Prop := ∀ (C : Conv) (props : List (String × Option String)) (safe : String → Bool) (r : Rec) (a : String), C.clsAttr a = false →
  alookup props a = none → (∀ v, ∃ r', setAttr props safe r a v = (.ok (), r') ∧ getAttr C props r' a = .ok (.val v)) ∧
  ((∃ v, getAttr C props r a = .ok (.val v)) → ∃ r', delAttr r a = (.ok (), r') ∧ getAttr C props r' a = .error .attributeError)

/-- No assignment has an effect, and the only ones that do not raise are to keys that are there. -/
theorem C77_no_effect (props : List (String × Option String)) (safe : String → Bool) (r : Rec) (a : String) (v : Obj) :
    (setAttr props safe r a v).2 = r ∧ ((setAttr props safe r a v).1 = .ok () ↔ alookup props a = none ∧ (alookup r.unknown a).isSome) := by
  unfold setAttr
  cases hp : alookup props a with
  | some o => simp only [Option.isSome_some, if_true]; split <;> simp
  | none =>
    cases hu : alookup r.unknown a with
    | none => simp
    | some w => simp

/-- No deletion has an effect. -/
theorem C77_never_deletes (r : Rec) (a : String) : (delAttr r a).2 = r ∧ (delAttr r a).1 = .error .typeError := ⟨rfl, rfl⟩

/-- A name that is neither declared nor in the document raises `KeyError`, so `hasattr` raises, too. -/
theorem C77_missing (props : List (String × Option String)) (r : Rec) (a : String) (hp : alookup props a = none) (hc : C.clsAttr a = false)
    (hu : alookup r.unknown a = none) : getAttr C props r a = .error .keyError := by
  simp [getAttr, hp, hc, hu]

/-! ## Writing -/

/-- C78: writing a record gives the document it was read from. -/
def C78_statement : Prop := ∀ (C : Conv) (es : List (String × Doc)) (n : Nat), GoodOrder C → KeysOnce (.obj es) → KeysApart C (.obj es) →
  KeysBack C (.obj es) → IntsSmall (.obj es) → ListsPure (.obj es) → ∃ v, read C n (.obj es) = .ok v ∧ SameDoc (jsonData C v) (.obj es)

/-- C78 if no JSON object is the value of a key in another. -/
theorem C78_partial (ho : GoodOrder C) {es : List (String × Doc)} (h1 : KeysOnce (.obj es)) (h2 : KeysApart C (.obj es))
    (h3 : KeysBack C (.obj es)) (h4 : IntsSmall (.obj es)) (h5 : ListsPure (.obj es)) (h6 : NoNested (.obj es)) (n : Nat) :
    ∃ v, read C n (.obj es) = .ok v ∧ SameDoc (jsonData C v) (.obj es) := by
  obtain ⟨v, hu, _, h⟩ := upgrade_made (parse := parse C n) ho (.obj es) ⟨h1, h2, h5⟩
  exact ⟨v, (h rfl).1, (upgrade_out ho (.obj es) ⟨h1, h2, h5⟩ ⟨h3, h6, h4⟩ v hu).1 rfl⟩

/-- JSON objects in JSON objects are always lost: an empty one is written instead. -/
theorem C78_lost (ho : GoodOrder C) {es : List (String × Doc)} (h1 : KeysOnce (.obj es)) (h2 : KeysApart C (.obj es))
    (h3 : KeysBack C (.obj es)) (h5 : ListsPure (.obj es)) (n : Nat) {k : String} {es' : List (String × Doc)} (hk : alookup es k = some (.obj es')) :
    ∃ v, read C n (.obj es) = .ok v ∧ docAt (jsonData C v) [.key k] = some (.obj []) := by
  have hf : Fine C (.obj es) := ⟨h1, h2, h5⟩
  obtain ⟨us, b1, b2, b3⟩ := record_ok (parse := parse C n) ho (once_here h1) (h2 es (recordIn_here es)) (fun k x hx => by
    obtain ⟨v, hv, _⟩ := upgrade_made (parse := parse C n) ho x (hf.key hx)
    exact ⟨v, hv⟩)
  refine ⟨.auto us, by simp [read, item, b1], ?_⟩
  obtain ⟨v, hv, hl⟩ := b2 k _ hk
  obtain ⟨w, hw, _, hh⟩ := upgrade_made (parse := parse C n) ho _ (hf.key hk)
  rw [hv] at hw
  cases hw
  obtain ⟨_, vs, rfl⟩ := hh rfl
  have hb := h3 es (recordIn_here es)
  have hkey : ∀ e ∈ us, C.keyIn (C.keyOut e.1) = e.1 := by
    intro e he
    obtain ⟨k, hk, hke⟩ := (b3 e.1).1 (alookup_isSome.2 (List.mem_map.2 ⟨e, he, rfl⟩))
    rw [← hke, hb k hk]
  have hnd : ((us.map (fun e => (e.1, toJson C e.2))).map (fun e => C.keyOut e.1)).Nodup := by
    rw [List.map_map]
    show (us.map (fun e => C.keyOut e.1)).Nodup
    have : (us.map (fun e => C.keyOut e.1)) = (us.map (·.1)).map C.keyOut := by simp
    rw [this]
    refine List.Nodup.map_on ?_ (record_nodup b1)
    intro x hx y hy hxy
    obtain ⟨ex, hex, rfl⟩ := List.mem_map.1 hx
    obtain ⟨ey, hey, rfl⟩ := List.mem_map.1 hy
    rw [← hkey ex hex, ← hkey ey hey, hxy]
  have := (addKeys_lookup (C := C) (jd := []) hnd (by simp [alookup])).1 (C.keyIn k, toJson C (.auto vs)) (List.mem_map.2 ⟨_, alookup_mem hl, rfl⟩)
  simp only [hb k (alookup_isSome.1 (by simp [hk])), toJson] at this
  simp only [jsonData, outEach_eq, docAt, stepDoc, this]

/-- JSON names of the properties of a subclass: each once. -/
def NamesOnce (props : List (String × Option String)) : Prop := ∀ p p' j, (p, some j) ∈ props → (p', some j) ∈ props → p = p'

theorem outSlots_spec (slots : List (String × Doc)) : ∀ (ps : List (String × Option String)) (jd : List (String × Doc)),
    (∀ p p' j, (p, some j) ∈ ps → (p', some j) ∈ ps → p = p') →
    (∀ p j x, (p, some j) ∈ ps → alookup slots p = some x → alookup (outSlots ps slots jd) j = some (plainOut x)) ∧
    (∀ j, (∀ p, (p, some j) ∈ ps → alookup slots p = none) → alookup (outSlots ps slots jd) j = alookup jd j) := by
  intro ps
  induction ps with
  | nil => intro jd _; simp [outSlots]
  | cons e ps ih =>
    intro jd hn
    obtain ⟨p, o⟩ := e
    have hn' : ∀ p p' j, (p, some j) ∈ ps → (p', some j) ∈ ps → p = p' :=
      fun p p' j h h' => hn p p' j (List.mem_cons_of_mem _ h) (List.mem_cons_of_mem _ h')
    cases o with
    | none =>
      obtain ⟨h1, h2⟩ := ih jd hn'
      simp only [outSlots]
      refine ⟨?_, ?_⟩
      · intro q j x hq; simp at hq; exact h1 q j x hq
      · intro j hj; exact h2 j (fun p hp => hj p (List.mem_cons_of_mem _ hp))
    | some j0 =>
      simp only [outSlots]
      cases hs : alookup slots p with
      | none =>
        obtain ⟨h1, h2⟩ := ih jd hn'
        refine ⟨?_, ?_⟩
        · intro q j x hq hx
          rcases List.mem_cons.1 hq with h | h
          · cases h; rw [hs] at hx; cases hx
          · exact h1 q j x h hx
        · intro j hj; exact h2 j (fun p hp => hj p (List.mem_cons_of_mem _ hp))
      | some d =>
        obtain ⟨h1, h2⟩ := ih (aset jd j0 (plainOut d)) hn'
        refine ⟨?_, ?_⟩
        · intro q j x hq hx
          by_cases hin : (q, some j) ∈ ps
          · exact h1 q j x hin hx
          · rcases List.mem_cons.1 hq with h | h
            · cases h
              rw [hs] at hx
              cases hx
              simp only
              rw [h2 j0, alookup_aset]
              · simp
              · intro p' hp'
                have := hn p p' j0 hq (List.mem_cons_of_mem _ hp')
                subst this
                exact absurd hp' hin
            · exact absurd h hin
        · intro j hj
          simp only
          rw [h2 j (fun p hp => hj p (List.mem_cons_of_mem _ hp)), alookup_aset, if_neg]
          rintro rfl
          have := hj p List.mem_cons_self
          rw [hs] at this
          cases this

/-- C78 for a class with declared properties, under the same condition on the keys that are not theirs. -/
theorem C78_declared_partial (ho : GoodOrder C) {es : List (String × Doc)} {props : List (String × Option String)} (hp : PropsOnce props)
    (hj : NamesOnce props) (h1 : KeysOnce (.obj es)) (h2 : KeysApart C (.obj es)) (h3 : KeysBack C (.obj es)) (h4 : IntsSmall (.obj es))
    (h5 : ListsPure (.obj es)) (h6 : NoNested (.obj es)) (n : Nat) :
    ∃ r, readSub C n props es = .ok r ∧ SameDoc (recData C props r) (.obj es) := by
  have hf : Fine C (.obj es) := ⟨h1, h2, h5⟩
  have hkd : Kind C (.obj es) := ⟨h3, h6, h4⟩
  obtain ⟨a1, a2, a3, a4⟩ := takeProps_spec es props [] es hp (once_here h1)
  have hsub : ∀ k x, alookup (takeProps props es [] es).2 k = some x → alookup es k = some x := by
    intro k x hx
    rw [a3 k] at hx
    split at hx
    · cases hx
    · exact hx
  have hkeys : ∀ k ∈ (takeProps props es [] es).2.map (·.1), k ∈ es.map (·.1) := by
    intro k hk
    obtain ⟨x, hx⟩ := Option.isSome_iff_exists.1 (alookup_isSome.2 hk)
    exact alookup_isSome.1 (by simp [hsub k x hx])
  obtain ⟨us, b1, b2, b3⟩ := record_ok (parse := parse C n) ho a4
    (fun k hk k' hk' => h2 es (recordIn_here es) k (hkeys k hk) k' (hkeys k' hk')) (fun k x hx => by
      obtain ⟨v, hv, _⟩ := upgrade_made (parse := parse C n) ho x (hf.key (hsub k x hx))
      exact ⟨v, hv⟩)
  have hc : collect C (C.ord (upEach C (parse C n) (takeProps props es [] es).2)) [] = .ok us := by
    unfold record at b1
    split at b1
    · cases b1
    · rename_i us' hc
      cases b1
      exact hc
  refine ⟨⟨(takeProps props es [] es).1, us⟩, by simp [readSub, hc], ?_⟩
  simp only [recData, outEach_eq]
  have hb := h3 es (recordIn_here es)
  obtain ⟨c1, c2⟩ := outSlots_spec (takeProps props es [] es).1 props [] hj
  have hkey : ∀ e ∈ us, ∃ k ∈ (takeProps props es [] es).2.map (·.1), C.keyIn k = e.1 ∧ C.keyOut e.1 = k := by
    intro e he
    obtain ⟨k, hk, hke⟩ := (b3 e.1).1 (alookup_isSome.2 (List.mem_map.2 ⟨e, he, rfl⟩))
    exact ⟨k, hk, hke, by rw [← hke, hb k (hkeys k hk)]⟩
  have hnd : ((us.map (fun e => (e.1, toJson C e.2))).map (fun e => C.keyOut e.1)).Nodup := by
    rw [List.map_map]
    show (us.map (fun e => C.keyOut e.1)).Nodup
    have : (us.map (fun e => C.keyOut e.1)) = (us.map (·.1)).map C.keyOut := by simp
    rw [this]
    refine List.Nodup.map_on ?_ (record_nodup b1)
    intro x hx y hy hxy
    obtain ⟨ex, hex, rfl⟩ := List.mem_map.1 hx
    obtain ⟨ey, hey, rfl⟩ := List.mem_map.1 hy
    obtain ⟨k, _, hk1, hk2⟩ := hkey ex hex
    obtain ⟨k', _, hk1', hk2'⟩ := hkey ey hey
    rw [← hk1, ← hk1', ← hk2, ← hk2', hxy]
  -- the slots are under other keys than the rest
  have hfree : ∀ k ∈ (takeProps props es [] es).2.map (·.1), alookup (outSlots props (takeProps props es [] es).1 []) k = none := by
    intro k hk
    rw [c2 k]
    · rfl
    · intro p hpm
      have hs := alookup_isSome.2 hk
      rw [a3 k, if_pos ⟨⟨p, hpm⟩, alookup_isSome.2 (hkeys k hk)⟩] at hs
      cases hs
  obtain ⟨d1, d2⟩ := addKeys_lookup (C := C) (jd := outSlots props (takeProps props es [] es).1 []) hnd (by
    intro e he
    obtain ⟨e', he', rfl⟩ := List.mem_map.1 he
    obtain ⟨k, hk, _, hk2⟩ := hkey e' he'
    simp only [hk2]
    exact hfree k hk)
  have hother : ∀ k, k ∉ (takeProps props es [] es).2.map (·.1) → ∀ e ∈ us.map (fun e => (e.1, toJson C e.2)), C.keyOut e.1 ≠ k := by
    intro k hk e he hke
    obtain ⟨e', he', rfl⟩ := List.mem_map.1 he
    obtain ⟨k', hk', _, hk2⟩ := hkey e' he'
    simp only at hke
    rw [hk2] at hke
    exact hk (hke ▸ hk')
  apply sameDoc_obj
  intro k
  cases hk : alookup es k with
  | none =>
    left
    refine ⟨?_, rfl⟩
    have hnk : k ∉ (takeProps props es [] es).2.map (·.1) := by
      intro hm
      have := alookup_isSome.2 (hkeys k hm)
      rw [hk] at this
      cases this
    rw [d2 k (hother k hnk), c2 k]
    · rfl
    · intro p hpm
      rw [a2 p]
      · rfl
      · intro j hjm
        rw [Option.some.inj (Option.some.inj ((alookup_of_mem hp hjm).symm.trans (alookup_of_mem hp hpm))), hk]
  | some x =>
    right
    by_cases hcl : ∃ p, (p, some k) ∈ props
    · obtain ⟨p, hpm⟩ := hcl
      have hnk : k ∉ (takeProps props es [] es).2.map (·.1) := by
        rw [← alookup_isSome, a3 k, if_pos ⟨⟨p, hpm⟩, by simp [hk]⟩]
        simp
      refine ⟨plainOut x, x, ?_, rfl, ?_⟩
      · rw [d2 k (hother k hnk)]
        exact c1 p k x hpm (a1 p k x hpm hk)
      · rw [plainOut_eq x (hf.key hk).once (hkd.key hk).small]
        exact sameDoc_refl _
    · have hrest : alookup (takeProps props es [] es).2 k = some x := by
        rw [a3 k, if_neg (fun h => hcl h.1), hk]
      obtain ⟨v, hv, hl⟩ := b2 k x hrest
      refine ⟨toJson C v, x, ?_, rfl, (upgrade_out ho x (hf.key hk) (hkd.key hk) v hv).2 ?_⟩
      · have := d1 (C.keyIn k, toJson C v) (List.mem_map.2 ⟨_, alookup_mem hl, rfl⟩)
        simp only at this
        rwa [hb k (alookup_isSome.1 (by simp [hk]))] at this
      · rintro e es' rfl
        cases h6 es k _ (recordIn_here es) hk

theorem addKeys_keeps {k : String} {d : Doc} : ∀ {l jd : List (String × Doc)}, alookup jd k = some d → alookup (addKeys C l jd) k = some d := by
  intro l
  induction l with
  | nil => exact fun h => h
  | cons e l ih =>
    intro jd h
    obtain ⟨a, x⟩ := e
    simp only [addKeys]
    split
    · exact ih h
    · rename_i hn
      refine ih ?_
      rw [alookup_aset, if_neg]
      · exact h
      · rintro rfl
        rw [h] at hn
        exact hn rfl

/-- C78: whatever else is in a record, a declared property that is set is written under its own key. -/
theorem C78_declared_wins {props : List (String × Option String)} (hj : NamesOnce props) (r : Rec) {p j : String} {x : Doc}
    (hp : (p, some j) ∈ props) (hx : alookup r.slots p = some x) : docAt (recData C props r) [.key j] = some (plainOut x) := by
  simp only [recData, docAt, stepDoc]
  rw [addKeys_keeps ((outSlots_spec r.slots props [] hj).1 p j x hp hx)]

/-! ## The two classes -/

/-- `AutoJsonRecord`: the conversion of keys. -/
def autoConv (digit : Char → Bool) (C : Conv) : Conv := { C with keyIn := Json.Auto.convIn digit, keyOut := Json.Auto.convOut digit }

/-- `NCAutoJsonRecord`: keys are kept. -/
def ncConv (C : Conv) : Conv := { C with keyIn := id, keyOut := id }

/-- For `AutoJsonRecord`, keys are apart and come back if none has a lower-case letter or digit, an underscore and a
lower-case letter in a row. -/
theorem C78_keys {digit : Char → Bool} (hd : Digits digit) {d : Doc} (h : ∀ es, RecordIn es d → ∀ k ∈ es.map (·.1), ¬ HasJoint digit k.toList) :
    KeysApart (autoConv digit C) d ∧ KeysBack (autoConv digit C) d :=
  ⟨fun es he k hk k' hk' hh => Json.Auto.C51_no_clash hd k k' (h es he k hk) (h es he k' hk') hh,
    fun es he k hk => Json.Auto.C51_round_trip hd k (h es he k hk)⟩

/-- For `NCAutoJsonRecord`, always. -/
theorem C78_nc_keys (d : Doc) : KeysApart (ncConv C) d ∧ KeysBack (ncConv C) d := ⟨fun _ _ _ _ _ _ hh => hh, fun _ _ _ _ => rfl⟩

/-! ## Examples -/

mutual
/-- All parts of a document. -/
def parts : Doc → List Doc
  | .arr xs => .arr xs :: partsL xs
  | .obj es => .obj es :: partsE es
  | .null => [.null]
  | .bool b => [.bool b]
  | .int i => [.int i]
  | .num n => [.num n]
  | .str s => [.str s]

def partsL : List Doc → List Doc
  | [] => []
  | d :: r => parts d ++ partsL r

def partsE : List (String × Doc) → List Doc
  | [] => []
  | (_, d) :: r => parts d ++ partsE r
end

theorem parts_self (d : Doc) : d ∈ parts d := by cases d <;> simp [parts]

theorem mem_partsL {xs : List Doc} {x y : Doc} (hx : x ∈ xs) (hy : y ∈ parts x) : y ∈ partsL xs := by
  induction xs with
  | nil => cases hx
  | cons z xs ih =>
    simp only [partsL, List.mem_append]
    rcases List.mem_cons.1 hx with rfl | hx
    · exact .inl hy
    · exact .inr (ih hx)

theorem mem_partsE {es : List (String × Doc)} {e : String × Doc} {y : Doc} (hx : e ∈ es) (hy : y ∈ parts e.2) : y ∈ partsE es := by
  induction es with
  | nil => cases hx
  | cons z es ih =>
    obtain ⟨k, z⟩ := z
    simp only [partsE, List.mem_append]
    rcases List.mem_cons.1 hx with rfl | hx
    · exact .inl hy
    · exact .inr (ih hx)

theorem parts_step {d x y : Doc} {s : Step} (hs : stepDoc d s = some x) (hy : y ∈ parts x) : y ∈ parts d := by
  cases d <;> cases s <;> simp only [stepDoc] at hs <;> try cases hs
  · simp only [parts, List.mem_cons]
    exact .inr (mem_partsL (List.mem_of_getElem? hs) hy)
  · simp only [parts, List.mem_cons]
    exact .inr (mem_partsE (alookup_mem hs) hy)

theorem partOf_parts {d x : Doc} (h : Within x d) : x ∈ parts d := by
  obtain ⟨p, hp⟩ := h
  induction p generalizing d with
  | nil => simp only [docAt] at hp; cases hp; exact parts_self _
  | cons s p ih =>
    simp only [docAt] at hp
    cases hs : stepDoc d s with
    | none => simp [hs] at hp
    | some z => simp only [hs] at hp; exact parts_step hs (ih hp)

theorem reachedAt_docAt {d x : Doc} {p : List Step} (h : ReachedAt d p x) : docAt d p = some x := by
  induction h with
  | root d => rfl
  | key hk _ ih => simp [docAt, stepDoc, hk, ih]
  | item hk _ _ ih => simp only [docAt, stepDoc, hk, ih]

theorem reachedAt_parts {d x : Doc} {p : List Step} (h : ReachedAt d p x) : x ∈ parts d := partOf_parts ⟨p, reachedAt_docAt h⟩

theorem recordIn_parts {d : Doc} {es : List (String × Doc)} (h : RecordIn es d) : .obj es ∈ parts d := by
  obtain ⟨p, hp⟩ := h
  exact reachedAt_parts hp

def exC : Conv := autoConv Json.Auto.ascii { keyIn := id, keyOut := id, loads := fun _ => .error .badText, ord := List.reverse, clsAttr := fun a => a == "json_data" }

theorem exC_order : GoodOrder exC := fun l => List.reverse_perm l

-- {"userName": "ann", "tags": ["a", [{"b": 1}]], "logIns": [{"ipAddr": "::1"}, {"ipAddr": null, "upFor": 3}]}
def exDoc : List (String × Doc) :=
  [("userName", .str "ann"), ("tags", .arr [.str "a", .arr [.obj [("b", .int 1)]]]),
   ("logIns", .arr [.obj [("ipAddr", .str "::1")], .obj [("ipAddr", .null), ("upFor", .int 3)]])]

theorem exDoc_parts : parts (.obj exDoc) =
    [.obj exDoc, .str "ann", .arr [.str "a", .arr [.obj [("b", .int 1)]]], .str "a", .arr [.obj [("b", .int 1)]], .obj [("b", .int 1)], .int 1,
     .arr [.obj [("ipAddr", .str "::1")], .obj [("ipAddr", .null), ("upFor", .int 3)]],
     .obj [("ipAddr", .str "::1")], .str "::1", .obj [("ipAddr", .null), ("upFor", .int 3)], .null, .int 3] := by
  simp [parts, partsL, partsE, exDoc]

theorem exDoc_records {es : List (String × Doc)} (h : .obj es ∈ parts (.obj exDoc)) :
    es = exDoc ∨ es = [("b", .int 1)] ∨ es = [("ipAddr", .str "::1")] ∨ es = [("ipAddr", .null), ("upFor", .int 3)] := by
  rw [exDoc_parts] at h
  simpa using h

theorem exDoc_once : KeysOnce (.obj exDoc) := by
  intro es h
  rcases exDoc_records (partOf_parts h) with rfl | rfl | rfl | rfl <;> decide

theorem exDoc_apart : KeysApart exC (.obj exDoc) := by
  intro es h
  rcases exDoc_records (recordIn_parts h) with rfl | rfl | rfl | rfl <;> decide +kernel

theorem exDoc_free : KeysFree exC (.obj exDoc) := by
  intro es h
  rcases exDoc_records (recordIn_parts h) with rfl | rfl | rfl | rfl <;> decide +kernel

theorem exDoc_back : KeysBack exC (.obj exDoc) := by
  intro es h
  rcases exDoc_records (recordIn_parts h) with rfl | rfl | rfl | rfl <;> decide +kernel

theorem exDoc_pure : ListsPure (.obj exDoc) := by
  intro p x xs h hx
  have := reachedAt_parts h
  rw [exDoc_parts] at this
  simp at this
  rcases this with ⟨rfl, rfl⟩ | ⟨rfl, rfl⟩ | ⟨rfl, rfl⟩
  · cases hx
  · simp
  · simp [shape]

theorem exDoc_small : IntsSmall (.obj exDoc) := by
  intro i h
  have := partOf_parts h
  rw [exDoc_parts] at this
  simp at this
  rcases this with rfl | rfl <;> decide

theorem exDoc_flat : NoNested (.obj exDoc) := by
  intro es k es' h hk
  have := alookup_mem hk
  rcases exDoc_records (recordIn_parts h) with rfl | rfl | rfl | rfl <;> simp [exDoc] at this

example : ∃ v, read exC 0 (.obj exDoc) = .ok v ∧ ∃ y, objAt exC v [.key "logIns", .idx 1, .key "upFor"] = some y ∧ Stands exC y (.int 3) := by
  obtain ⟨v, h1, h2⟩ := C76_partial exC_order exDoc_once exDoc_apart exDoc_free exDoc_pure 0
  exact ⟨v, h1, h2 _ _ rfl⟩

example : ∃ v us, read exC 0 (.obj exDoc) = .ok v ∧ objAt exC v [.key "logIns", .idx 1] = some (.auto us) :=
  C76_records_partial exC_order exDoc_once exDoc_apart exDoc_free exDoc_pure 0 (.key (x := .arr _) rfl (.item rfl rfl (.root _)))

example : ∃ v, read exC 0 (.obj exDoc) = .ok v ∧ SameDoc (jsonData exC v) (.obj exDoc) :=
  C78_partial exC_order exDoc_once exDoc_apart exDoc_back exDoc_small exDoc_pure exDoc_flat 0

example : ∃ r, readSub exC 0 [("user", some "userName")] exDoc = .ok r ∧ SameDoc (recData exC [("user", some "userName")] r) (.obj exDoc) :=
  C78_declared_partial exC_order (by simp [PropsOnce]) (by simp [NamesOnce]) exDoc_once exDoc_apart exDoc_back exDoc_small exDoc_pure exDoc_flat 0

-- a key that is converted back to the declared one
example : docAt (recData exC [("user", some "userName")] ⟨[("user", .int 1)], [("user_name", .plain (.int 2))]⟩) [.key "userName"] = some (.int 1) :=
  C78_declared_wins (by simp [NamesOnce]) _ (p := "user") (x := .int 1) (by simp) rfl

-- a class with user = Property(json_name="userName")
example : ∃ r, readSub exC 0 [("user", some "userName")] exDoc = .ok r ∧ getAttr exC [("user", some "userName")] r "user" = .ok (.doc (.str "ann")) ∧
    ∃ v, getAttr exC [("user", some "userName")] r "log_ins" = .ok (.val v) := by
  obtain ⟨r, h1, h2, h3, _⟩ := C76_declared_partial (props := [("user", some "userName")]) exC_order (by simp [PropsOnce]) exDoc_once exDoc_apart exDoc_pure 0
  obtain ⟨v, h4, _⟩ := h3 "logIns" _ rfl (by intro p; simp only [alookup]; split <;> simp) (by decide +kernel) (by decide +kernel)
    (fun es he => exDoc_free es (recordIn_key (k := "logIns") rfl he))
  refine ⟨r, h1, h2 "user" "userName" _ rfl rfl, v, ?_⟩
  have : exC.keyIn "logIns" = "log_ins" := by decide +kernel
  rw [this] at h4
  exact h4

/-! ## What goes wrong -/

-- {"a": [{}, 5]}
def exMixed : List (String × Doc) := [("a", .arr [.obj [], .int 5])]

theorem exMixed_records {es : List (String × Doc)} (h : .obj es ∈ parts (.obj exMixed)) : es = exMixed ∨ es = [] := by
  have : parts (.obj exMixed) = [.obj exMixed, .arr [.obj [], .int 5], .obj [], .int 5] := by simp [parts, partsL, partsE, exMixed]
  rw [this] at h
  simpa using h

def exNull : List (String × Doc) := [("a", .arr [.obj [], .null])]

theorem exNull_records {es : List (String × Doc)} (h : .obj es ∈ parts (.obj exNull)) : es = exNull ∨ es = [] := by
  have : parts (.obj exNull) = [.obj exNull, .arr [.obj [], .null], .obj [], .null] := by simp [parts, partsE, partsL, exNull]
  rw [this] at h
  simpa using h

example {v : Obj} (hr : read exC 3 (.obj exNull) = .ok v) : objAt exC v [.key "a", .idx 1] = some (.auto []) := by
  have h1 : KeysOnce (.obj exNull) := by intro es h; rcases exNull_records (partOf_parts h) with rfl | rfl <;> simp [exNull]
  have h2 : KeysApart exC (.obj exNull) := by intro es h; rcases exNull_records (recordIn_parts h) with rfl | rfl <;> decide +kernel
  have h3 : KeysFree exC (.obj exNull) := by intro es h; rcases exNull_records (recordIn_parts h) with rfl | rfl <;> decide +kernel
  exact (C76_other_items exC_order h1 h2 h3 hr (p := [.key "a"]) (x := .obj []) (xs := [.null]) (i := 0)
    (.key (k := "a") (x := .arr [.obj [], .null]) (by simp [exNull, alookup]) (.root _)) rfl).1 rfl

example : ∃ v, read exC 3 (.obj exNull) = .ok v := ⟨_, by with_unfolding_all rfl⟩

/-- C76 is false of the code: `{"a": [{}, 5]}` cannot be read. -/
theorem exMixed_once : KeysOnce (.obj exMixed) := by
  intro es h
  rcases exMixed_records (partOf_parts h) with rfl | rfl <;> simp [exMixed]

example : ∃ e, read exC 3 (.obj exMixed) = .error e :=
  C76_refused exC_order exMixed_once 3 (p := [.key "a"]) (x := .obj []) (y := .int 5) (xs := [.int 5])
    (.key (k := "a") (x := .arr [.obj [], .int 5]) (by simp [exMixed, alookup]) (.root _)) rfl (by simp) (by simp [shape])

theorem C76_violated : ¬ C76_statement := by
  intro h
  obtain ⟨v, hv, _⟩ := h exC exMixed 0 exC_order
    (by intro es h; rcases exMixed_records (partOf_parts h) with rfl | rfl <;> decide)
    (by intro es h; rcases exMixed_records (recordIn_parts h) with rfl | rfl <;> decide +kernel)
    (by intro es h; rcases exMixed_records (recordIn_parts h) with rfl | rfl <;> decide +kernel)
  simp [read, item, exMixed, upEach, upgrade, startsWithObj, items, record, exC, autoConv, collect] at hv

/-- C77 is false of the code: an assignment to a new attribute raises. -/
theorem C77_violated : ¬ C77_statement := by
  intro h
  obtain ⟨r', h1, _⟩ := (h exC [] (fun _ => false) ⟨[], []⟩ "x" (by decide +kernel) rfl).1 (.plain .null)
  cases h1

/-- C77 is false also of attributes that are there: the old value stays. -/
theorem C77_violated_silently : ∃ (r r' : Rec) (v : Obj), setAttr [] (fun _ => false) r "x" v = (.ok (), r') ∧
    getAttr exC [] r' "x" = .ok (.val (.plain (.int 1))) ∧ v = .plain (.int 2) :=
  ⟨⟨[], [("x", .plain (.int 1))]⟩, _, _, rfl, by simp [getAttr, alookup, exC, autoConv], rfl⟩

-- {"a": {"b": 1}}
def exNested : List (String × Doc) := [("a", .obj [("b", .int 1)])]

theorem exNested_parts : parts (.obj exNested) = [.obj exNested, .obj [("b", .int 1)], .int 1] := by simp [parts, partsE, exNested]

theorem exNested_records {es : List (String × Doc)} (h : .obj es ∈ parts (.obj exNested)) : es = exNested ∨ es = [("b", .int 1)] := by
  rw [exNested_parts] at h
  simpa using h

/-- C78 is false of the code: `{"a": {"b": 1}}` is written as `{"a": {}}`. -/
theorem C78_violated : ¬ C78_statement := by
  intro h
  have h1 : KeysOnce (.obj exNested) := by intro es h; rcases exNested_records (partOf_parts h) with rfl | rfl <;> decide
  have h2 : KeysApart exC (.obj exNested) := by intro es h; rcases exNested_records (recordIn_parts h) with rfl | rfl <;> decide +kernel
  have h3 : KeysBack exC (.obj exNested) := by intro es h; rcases exNested_records (recordIn_parts h) with rfl | rfl <;> decide +kernel
  have h5 : ListsPure (.obj exNested) := by
    intro p x xs h
    have := reachedAt_parts h
    rw [exNested_parts] at this
    simp at this
  obtain ⟨v, hv, hs⟩ := h exC exNested 0 exC_order h1 h2 h3
    (by
      intro i h
      have := partOf_parts h
      rw [exNested_parts] at this
      simp at this
      subst this
      decide) h5
  obtain ⟨v', hv', hl⟩ := C78_lost exC_order h1 h2 h3 h5 0 (k := "a") (es' := [("b", .int 1)]) rfl
  rw [hv] at hv'
  cases hv'
  have := hs [.key "a", .key "b"]
  have hd : docAt (jsonData exC v) [.key "a", .key "b"] = none := by
    simp only [docAt] at hl ⊢
    cases hst : stepDoc (jsonData exC v) (.key "a") with
    | none => rfl
    | some z =>
      simp only [hst] at hl
      cases hl
      rfl
  rw [hd] at this
  simp [docAt, stepDoc, exNested, alookup] at this

end Normalize.AutoJson
