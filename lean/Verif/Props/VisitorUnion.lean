import Verif.Props.VisitorGrok

/-!
# C122: properties with several types
-/

namespace Normalize.Visit
open Ident (IProp Ty ItemTy CollKind)
open Json (Setup Mk clsOf instOf)
open Spec (Leaf Chosen HasChosen Kept IsOf IsGrok IsTypeError)

variable {J : Setup} {o : Opts} {H : Hooks} {rev : Leaf} {sel : Option (List FS)} {ord : List MArg → List MArg}

theorem isType_iff {e : VErr} : e.isType = true ↔ IsTypeError e := by
  constructor
  · intro h
    cases e with
    | raw e =>
      simp only [VErr.isType, Bool.or_eq_true, decide_eq_true_eq] at h
      rcases h with rfl | h
      · exact .plain
      · exact .coercion h
    | json fs e => exact .json
    | prop fs e => cases h
    | grokRecord fs => cases h
    | grokColl fs => cases h
    | tooSimple fs => cases h
  · intro h
    cases h with
    | plain => rfl
    | coercion h => simp [VErr.isType, h]
    | json => rfl

/-- The classes before raise a `TypeError`. -/
theorem tryTypes_skip {go : Go} {x : Slot} {path : FS} {post : List Ty} : ∀ (pre : List Ty) (m : Val),
    (∀ t ∈ pre, ∃ e, go x t path = .error e ∧ IsTypeError e) →
    tryTypes J go x path (pre ++ post) m = tryTypes J go x path post m
  | [], _, _ => rfl
  | t :: pre, m, h => by
    obtain ⟨e, he, ht⟩ := h t List.mem_cons_self
    simp only [List.cons_append, tryTypes, he, isType_iff.2 ht, if_true]
    exact tryTypes_skip pre m (fun t' ht' => h t' (List.mem_cons_of_mem _ ht'))

/-- A record with one slot given. -/
theorem mapRecord_one {go : Go} {p : IProp} {w : Val} {path : FS} (he : o.emptySlots = false) :
    ∀ (ps : List IProp), (ps.map (·.name)).Nodup →
      (p ∉ ps → (∀ q ∈ ps, q.name ≠ p.name) →
        mapRecord J H o go (readKey [(.str p.name, w)]) ps path = .ok []) ∧
      (p ∈ ps → ∀ r, mapSlot J H o go (readKey [(.str p.name, w)]) path p = .ok (r, path) →
        mapRecord J H o go (readKey [(.str p.name, w)]) ps path = .ok (addKept p r []))
  | [], _ => ⟨fun _ _ => rfl, fun h => by cases h⟩
  | q :: ps, hnd => by
    have hnd' := List.nodup_cons.1 hnd
    obtain ⟨ih1, ih2⟩ := mapRecord_one he ps hnd'.2
    have skip : q.name ≠ p.name → mapSlot J H o go (readKey [(.str p.name, w)]) path q = .ok (none, path) := by
      intro hq
      unfold mapSlot
      split
      · rfl
      · have : readKey [(.str p.name, w)] q = .error .keyError := by
          simp only [readKey, alookup, Comp.str.injEq, beq_iff_eq, Ne.symm hq, if_false]
        simp [fetch, this, Exc.isKey, wanted, he, pop_push]
    constructor
    · intro hp hq
      unfold mapRecord
      rw [skip (hq q List.mem_cons_self)]
      simp only
      rw [ih1 (fun h => hp (List.mem_cons_of_mem _ h)) (fun q' hq' => hq q' (List.mem_cons_of_mem _ hq'))]
      rfl
    · intro hp r hr
      unfold mapRecord
      by_cases hqp : q.name = p.name
      · have hqe : q = p := by
          rcases List.mem_cons.1 hp with h | h
          · exact h.symm
          · exact absurd (List.mem_map.2 ⟨p, h, hqp.symm⟩) hnd'.1
        subst hqe
        rw [hr]
        simp only
        have hnot : ∀ q' ∈ ps, q'.name ≠ q.name := fun q' hq' h => hnd'.1 (List.mem_map.2 ⟨q', hq', h⟩)
        rw [ih1 (fun h => hnot q h rfl) hnot]
      · rw [skip hqp]
        simp only
        have hp' : p ∈ ps := by
          rcases List.mem_cons.1 hp with h | h
          · subst h; exact absurd rfl hqp
          · exact h
        rw [ih2 hp' r hr]
        rfl

/-- `cast` of a record with one slot. -/
theorem cast_one (hord : Mfs.OrdOK ord) (hf : FilterIs ord o sel) (he : o.emptySlots = false) {m n : Nat} {c : String}
    {p : IProp} {w v r : Val} (hc : (J.S.cls c).coll = none) (hnd : ((J.S.cls c).props.map (·.name)).Nodup)
    (hp : p ∈ (J.S.cls c).props) (hch : Chosen o sel [] p) (hk : Kept o v)
    (hv : mapProp J (castHooks J (Json.make J m) o rev) (map J (castHooks J (Json.make J m) o rev) o n) (.val w) p
      [.str p.name] = .ok v)
    (hr : Json.initRecord J (Json.make J m) c [(p.name, v)] = .ok r) :
    cast J m (n + 1) o rev (.cls c) (.dict [(.str p.name, w)]) = .ok r := by
  have hb := (any_chosen (J := J) hord hf (path := []) (c := c)).2 ⟨p, hp, hch⟩
  have hkeep : keep o v = some v := keep_iff.2 ⟨hk, rfl⟩
  have hs : mapSlot J (castHooks J (Json.make J m) o rev) o (map J (castHooks J (Json.make J m) o rev) o n)
      (readKey [(.str p.name, w)]) [] p = .ok (some v, []) := by
    have h1 : fetch (readKey [(.str p.name, w)]) (push [] (.str p.name)) p = .ok (.val w) := by
      simp [fetch, readKey, alookup]
    simp only [mapSlot, (chosen_iff hord hf [] p).2 hch, h1, wanted, pop_push, if_true, Bool.false_eq_true, if_false]
    rw [show push [] (Comp.str p.name) = [.str p.name] from rfl, hv]
    simp only [hkeep]
  have hm := (mapRecord_one (J := J) (p := p) (w := w) he (J.S.cls c).props hnd).2 hp _ hs
  have hg : grok J o (.val (.dict [(.str p.name, w)])) (.cls c) [] = .ok (.parts (some (readKey [(.str p.name, w)])) none) := by
    simp only [grok, hb, isMapping, hc, grokGet]
    rfl
  simp only [cast, map]
  rw [show (castHooks J (Json.make J m) o rev).unpack = grok J o from rfl, hg]
  simp only [collected, propsOf, hm]
  simp only [castHooks, produce, hc, kwargs, named, addKept, List.map_cons, List.map_nil, hr]
  rfl

theorem union_prop {go : Go} {p : IProp} {x : Slot} {path : FS} (h2 : 2 ≤ p.types.length) :
    mapProp J H go x p path = mapUnion J H go x p path := by
  unfold mapProp
  split
  · rename_i h; simp [h] at h2
  · rename_i h; simp [h] at h2
  · rename_i h; simp [h] at h2
  · rfl

theorem no_match {p : IProp} {w : Val} (hno : ∀ d, .cls d ∈ p.types → ¬ IsOf J (.val w) d) :
    (p.types.filter (fun t => isCls t && isMatch J (.val w) t)).isEmpty = true := by
  rw [List.isEmpty_iff, List.filter_eq_nil_iff]
  intro t ht h
  cases t with
  | other n => cases h
  | cls d => exact hno d ht ⟨w, rfl, by simpa [isCls, isMatch] using h⟩

/-- C122: if the property `p` has several types, then the value in the data is cast to the first class that takes it. -/
def C122_statement : Prop :=
  ∀ (J : Setup) (o : Opts) (rev : Leaf) (sel : Option (List FS)) (ord : List MArg → List MArg), Mfs.OrdOK ord →
    FilterIs ord o sel → o.emptySlots = false →
    ∀ (m n : Nat) (c d : String) (p : IProp) (pre post : List Ty) (w v r : Val),
    (J.S.cls c).coll = none → ((J.S.cls c).props.map (·.name)).Nodup → p ∈ (J.S.cls c).props → Chosen o sel [] p →
    p.types = pre ++ .cls d :: post → 2 ≤ p.types.length → (∀ e, .cls e ∈ p.types → ¬ IsOf J (.val w) e) →
    (∀ e, .cls e ∈ pre → ∃ x, map J (castHooks J (Json.make J m) o rev) o n (.val w) (.cls e) [.str p.name] = .error x ∧
      (IsTypeError x ∨ IsGrok x)) →
    map J (castHooks J (Json.make J m) o rev) o n (.val w) (.cls d) [.str p.name] = .ok v →
    Json.falsy J v = false → Kept o v → Json.initRecord J (Json.make J m) c [(p.name, v)] = .ok r →
    cast J m (n + 1) o rev (.cls c) (.dict [(.str p.name, w)]) = .ok r

/-- C122 if the classes before raise a `TypeError`. -/
theorem C122_partial (hord : Mfs.OrdOK ord) (hf : FilterIs ord o sel) (he : o.emptySlots = false) (m n : Nat)
    (c d : String) (p : IProp) (pre post : List Ty) (w v r : Val)
    (hc : (J.S.cls c).coll = none) (hnd : ((J.S.cls c).props.map (·.name)).Nodup) (hp : p ∈ (J.S.cls c).props)
    (hch : Chosen o sel [] p) (ht : p.types = pre ++ .cls d :: post) (h2 : 2 ≤ p.types.length)
    (hno : ∀ e, .cls e ∈ p.types → ¬ IsOf J (.val w) e)
    (hpre : ∀ e, .cls e ∈ pre →
      ∃ x, map J (castHooks J (Json.make J m) o rev) o n (.val w) (.cls e) [.str p.name] = .error x ∧ IsTypeError x)
    (hok : map J (castHooks J (Json.make J m) o rev) o n (.val w) (.cls d) [.str p.name] = .ok v)
    (hv : Json.falsy J v = false) (hk : Kept o v) (hr : Json.initRecord J (Json.make J m) c [(p.name, v)] = .ok r) :
    cast J m (n + 1) o rev (.cls c) (.dict [(.str p.name, w)]) = .ok r := by
  refine cast_one hord hf he hc hnd hp hch hk ?_ hr
  rw [union_prop h2, mapUnion, no_match hno, if_pos rfl]
  have h1 : p.types.filter isCls = pre.filter isCls ++ .cls d :: post.filter isCls := by
    rw [ht, List.filter_append]
    rfl
  rw [h1, tryTypes_skip]
  · simp [tryTypes, hok, hv]
  · intro t htm
    obtain ⟨htm, hcls⟩ := List.mem_filter.1 htm
    cases t with
    | other k => cases hcls
    | cls e => exact hpre e htm

/-- If all the classes raise a `TypeError`, then the value is the one that `reverse` makes of the data. -/
theorem C122_other (hord : Mfs.OrdOK ord) (hf : FilterIs ord o sel) (he : o.emptySlots = false)
    (hnone : J.S.falsy .none = true) (m n : Nat)
    (c : String) (p : IProp) (w v r : Val)
    (hc : (J.S.cls c).coll = none) (hnd : ((J.S.cls c).props.map (·.name)).Nodup) (hp : p ∈ (J.S.cls c).props)
    (hch : Chosen o sel [] p) (h2 : 2 ≤ p.types.length)
    (hno : ∀ e, .cls e ∈ p.types → ¬ IsOf J (.val w) e)
    (hall : ∀ e, .cls e ∈ p.types →
      ∃ x, map J (castHooks J (Json.make J m) o rev) o n (.val w) (.cls e) [.str p.name] = .error x ∧ IsTypeError x)
    (hv : rev (.val w) (some p) [.str p.name] = .ok v)
    (hk : Kept o v) (hr : Json.initRecord J (Json.make J m) c [(p.name, v)] = .ok r) :
    cast J m (n + 1) o rev (.cls c) (.dict [(.str p.name, w)]) = .ok r := by
  refine cast_one hord hf he hc hnd hp hch hk ?_ hr
  rw [union_prop h2, mapUnion, no_match hno, if_pos rfl]
  have h1 : p.types.filter isCls = p.types.filter isCls ++ [] := by simp
  rw [h1, tryTypes_skip]
  · have hn : Json.falsy J .none = true := hnone
    simp only [tryTypes, hn, if_true]
    exact hv
  · intro t htm
    obtain ⟨htm, hcls⟩ := List.mem_filter.1 htm
    cases t with
    | other k => cases hcls
    | cls e => exact hall e htm

/-! ## Records with several slots -/

theorem mapRecord_entry {go : Go} {get : IProp → Except Exc Val} {path : FS} {p : IProp} {v : Val} :
    ∀ {ps : List IProp} {l : List (IProp × Val)}, mapRecord J H o go get ps path = .ok l →
      (ps.map (·.name)).Nodup → p ∈ ps → mapSlot J H o go get path p = .ok (some v, path) →
      alookup (named l) p.name = some v
  | [], _, _, _, hp, _ => by cases hp
  | q :: ps, l, h, hnd, hp, hs => by
    have hnd' := List.nodup_cons.1 hnd
    unfold mapRecord at h
    split at h
    · cases h
    · rename_i r cue' hq
      have hc := mapSlot_cue hq
      subst hc
      split at h
      · cases h
      · rename_i l' hl
        cases h
        by_cases hqp : q.name = p.name
        · have hqe : q = p := by
            rcases List.mem_cons.1 hp with h | h
            · exact h.symm
            · exact absurd (List.mem_map.2 ⟨p, h, hqp.symm⟩) hnd'.1
          subst hqe
          rw [hq] at hs
          cases hs
          simp [addKept, named, alookup]
        · have hp' : p ∈ ps := by
            rcases List.mem_cons.1 hp with h | h
            · subst h; exact absurd rfl hqp
            · exact h
          have ih := mapRecord_entry hl hnd'.2 hp' hs
          cases r with
          | none => exact ih
          | some u =>
            have : alookup (named (addKept q (some u) l')) p.name = alookup (named l') p.name := by
              simp [addKept, named, alookup, hqp]
            rw [this]
            exact ih

theorem mapRecord_props {go : Go} {get : IProp → Except Exc Val} :
    ∀ {ps : List IProp} {path : FS} {l : List (IProp × Val)}, mapRecord J H o go get ps path = .ok l →
      ∀ x ∈ l, x.1 ∈ ps
  | [], _, _, h, x, hx => by cases h; cases hx
  | q :: ps, path, l, h, x, hx => by
    unfold mapRecord at h
    split at h
    · cases h
    · split at h
      · cases h
      · rename_i r _ _ _ l' hl
        cases h
        cases r with
        | none => exact List.mem_cons_of_mem _ (mapRecord_props hl x hx)
        | some u =>
          rcases List.mem_cons.1 hx with rfl | hx
          · exact List.mem_cons_self
          · exact List.mem_cons_of_mem _ (mapRecord_props hl x hx)

/-- A record that was cast with success: what its constructor was given. -/
theorem map_slots (hord : Mfs.OrdOK ord) (hf : FilterIs ord o sel) {mk : Mk} {n : Nat} {c : String}
    {p : IProp} {w v r : Val} {xs : List (Comp × Val)} {path : FS} (hc : (J.S.cls c).coll = none)
    (hnd : ((J.S.cls c).props.map (·.name)).Nodup)
    (hp : p ∈ (J.S.cls c).props) (hch : Chosen o sel path p) (hw : alookup xs (.str p.name) = some w) (hk : Kept o v)
    (hv : mapProp J (castHooks J mk o rev) (map J (castHooks J mk o rev) o n) (.val w) p
      (path ++ [.str p.name]) = .ok v)
    (h : map J (castHooks J mk o rev) o (n + 1) (.val (.dict xs)) (.cls c) path = .ok r) :
    ∃ kw : List (String × Val), Json.initRecord J mk c kw = .ok r ∧ alookup kw p.name = some v ∧
      ∀ x ∈ kw, ∃ q ∈ (J.S.cls c).props, q.name = x.1 := by
  have hb := (any_chosen (J := J) hord hf (path := path) (c := c)).2 ⟨p, hp, hch⟩
  have hg : grok J o (.val (.dict xs)) (.cls c) path = .ok (.parts (some (readKey xs)) none) := by
    simp [grok, hc, hb, isMapping, grokGet]
  have hkeep : keep o v = some v := keep_iff.2 ⟨hk, rfl⟩
  have hs : mapSlot J (castHooks J mk o rev) o (map J (castHooks J mk o rev) o n)
      (readKey xs) path p = .ok (some v, path) := by
    have h1 : fetch (readKey xs) (push path (.str p.name)) p = .ok (.val w) := by
      simp [fetch, readKey, hw]
    simp only [mapSlot, (chosen_iff hord hf path p).2 hch, h1, wanted, pop_push, if_true, Bool.false_eq_true, if_false]
    have h2 : mapProp J (castHooks J mk o rev) (map J (castHooks J mk o rev) o n) (.val w) p
        (push path (.str p.name)) = .ok v := hv
    rw [h2]
    simp only [hkeep]
  have hg' : (castHooks J mk o rev).unpack (.val (.dict xs)) (.cls c) path = .ok (.parts (some (readKey xs)) none) := hg
  unfold map at h
  simp only [hg', collected] at h
  split at h
  · cases h
  · rename_i mp hmp
    have hred : produce J mk (some mp) none (.cls c) path = .ok r := h
    simp only [produce, hc, kwargs, lift] at hred
    refine ⟨named mp, ?_, mapRecord_entry hmp hnd hp hs, ?_⟩
    · split at hred
      · rename_i y hy
        cases hred
        exact hy
      · cases hred
    · intro x hx
      obtain ⟨y, hy, rfl⟩ := List.mem_map.1 hx
      exact ⟨y.1, mapRecord_props hmp y hy, rfl⟩

/-- In data with any number of slots, and at any place in it: if the record is created, then it is created with the
property that has several types being what the first class that accepts the data makes of it, if the classes before it
raise a `TypeError`. -/
theorem C122_slots (hord : Mfs.OrdOK ord) (hf : FilterIs ord o sel) (m n : Nat) (path : FS)
    (c d : String) (p : IProp) (pre post : List Ty) (xs : List (Comp × Val)) (w v r : Val)
    (hc : (J.S.cls c).coll = none) (hnd : ((J.S.cls c).props.map (·.name)).Nodup) (hp : p ∈ (J.S.cls c).props)
    (hch : Chosen o sel path p) (hw : alookup xs (.str p.name) = some w)
    (ht : p.types = pre ++ .cls d :: post) (h2 : 2 ≤ p.types.length)
    (hno : ∀ e, .cls e ∈ p.types → ¬ IsOf J (.val w) e)
    (hpre : ∀ e, .cls e ∈ pre →
      ∃ x, map J (castHooks J (Json.make J m) o rev) o n (.val w) (.cls e) (path ++ [.str p.name]) = .error x ∧
        IsTypeError x)
    (hok : map J (castHooks J (Json.make J m) o rev) o n (.val w) (.cls d) (path ++ [.str p.name]) = .ok v)
    (hv : Json.falsy J v = false) (hk : Kept o v)
    (hr : map J (castHooks J (Json.make J m) o rev) o (n + 1) (.val (.dict xs)) (.cls c) path = .ok r) :
    ∃ kw : List (String × Val), Json.initRecord J (Json.make J m) c kw = .ok r ∧ alookup kw p.name = some v ∧
      ∀ x ∈ kw, ∃ q ∈ (J.S.cls c).props, q.name = x.1 := by
  refine map_slots hord hf hc hnd hp hch hw hk ?_ hr
  rw [union_prop h2, mapUnion, no_match hno, if_pos rfl]
  have h1 : p.types.filter isCls = pre.filter isCls ++ .cls d :: post.filter isCls := by
    rw [ht, List.filter_append]
    rfl
  rw [h1, tryTypes_skip]
  · simp [tryTypes, hok, hv]
  · intro t htm
    obtain ⟨htm, hcls⟩ := List.mem_filter.1 htm
    cases t with
    | other k => cases hcls
    | cls e => exact hpre e htm

/-- The same if all the classes raise a `TypeError`: the property is what `reverse` makes of the data. -/
theorem C122_slots_other (hord : Mfs.OrdOK ord) (hf : FilterIs ord o sel)
    (hnone : J.S.falsy .none = true) (m n : Nat) (path : FS)
    (c : String) (p : IProp) (xs : List (Comp × Val)) (w v r : Val)
    (hc : (J.S.cls c).coll = none) (hnd : ((J.S.cls c).props.map (·.name)).Nodup) (hp : p ∈ (J.S.cls c).props)
    (hch : Chosen o sel path p) (hw : alookup xs (.str p.name) = some w) (h2 : 2 ≤ p.types.length)
    (hno : ∀ e, .cls e ∈ p.types → ¬ IsOf J (.val w) e)
    (hall : ∀ e, .cls e ∈ p.types →
      ∃ x, map J (castHooks J (Json.make J m) o rev) o n (.val w) (.cls e) (path ++ [.str p.name]) = .error x ∧
        IsTypeError x)
    (hv : rev (.val w) (some p) (path ++ [.str p.name]) = .ok v) (hk : Kept o v)
    (hr : map J (castHooks J (Json.make J m) o rev) o (n + 1) (.val (.dict xs)) (.cls c) path = .ok r) :
    ∃ kw : List (String × Val), Json.initRecord J (Json.make J m) c kw = .ok r ∧ alookup kw p.name = some v ∧
      ∀ x ∈ kw, ∃ q ∈ (J.S.cls c).props, q.name = x.1 := by
  refine map_slots hord hf hc hnd hp hch hw hk ?_ hr
  rw [union_prop h2, mapUnion, no_match hno, if_pos rfl]
  have h1 : p.types.filter isCls = p.types.filter isCls ++ [] := by simp
  rw [h1, tryTypes_skip]
  · have hn : Json.falsy J .none = true := hnone
    simp only [tryTypes, hn, if_true]
    exact hv
  · intro t htm
    obtain ⟨htm, hcls⟩ := List.mem_filter.1 htm
    cases t with
    | other k => cases hcls
    | cls e => exact hall e htm

namespace Ex

/-- The owner of a pet is a person or a company; a box holds a person or a list of labels. -/
def petClasses : String → Ident.ICls
  | "Pet" => { props := [{ name := "owner", types := [.cls "Person", .cls "Company"] }] }
  | "Cat" => { props := [{ name := "age", types := [.other 0] },
      { name := "owner", types := [.cls "Person", .cls "Company"] }] }
  | "Person" => { props := [{ name := "name", types := [.other 0] }] }
  | "Company" => { props := [{ name := "label", types := [.other 1] }] }
  | "Box" => { props := [{ name := "content", types := [.cls "Person", .cls "Labels"] }] }
  | "Labels" => { coll := some (.list, .one (.other 1)) }
  | _ => {}

def petJ : Setup :=
  { S := Json.exSchema petClasses, info := fun _ _ => {}, isJson := fun _ => false
    isa := fun _ _ => true, make := fun _ v => .ok v, loads := fun _ => .error .valueCheck }

/-- `reverse` raises a `JsonConversionError` for the name of a person, and passes everything else. -/
def pickyRev : Leaf := fun x p path =>
  match p with
  | some q => if q.name = "name" then .error (.json path .valueCheck) else applyDefault x p path
  | none => applyDefault x p path

/-- `{"name": "x", "label": "y"}` -/
def both : Val := .dict [(.str "name", .str "x"), (.str "label", .str "y")]

end Ex

/-- The owner is a company, for it cannot be a person. -/
example : cast Ex.petJ 3 5 {} Ex.pickyRev (.cls "Pet") (.dict [(.str "owner", Ex.both)]) =
    .ok (.rcd "Pet" [("owner", .rcd "Company" [("label", .str "y")])]) :=
  C122_partial (sel := none) (ord := id) (fun _ _ => Iff.rfl) no_filter rfl 3 4 "Pet" "Company"
    { name := "owner", types := [.cls "Person", .cls "Company"] } [.cls "Person"] [] Ex.both
    (.rcd "Company" [("label", .str "y")]) _ (by decide +kernel) (by decide +kernel) (by decide +kernel)
    ⟨.inl rfl, by simp⟩ rfl (by decide) (fun e _ h => by obtain ⟨v, hv, h⟩ := h; cases hv; cases h)
    (fun e h => by
      simp only [List.mem_singleton, Ty.cls.injEq] at h
      subst h
      exact ⟨.json [.str "owner", .str "name"] .valueCheck, by decide +kernel, .json⟩)
    (by decide +kernel) (by decide +kernel) (by decide +kernel) (by decide +kernel)

/-- The same for a cat that also has an age. -/
example : ∃ kw : List (String × Val),
    Json.initRecord Ex.petJ (Json.make Ex.petJ 3) "Cat" kw =
      .ok (.rcd "Cat" [("age", .int 3), ("owner", .rcd "Company" [("label", .str "y")])]) ∧
    alookup kw "owner" = some (.rcd "Company" [("label", .str "y")]) ∧
    ∀ x ∈ kw, ∃ q ∈ (Ex.petJ.S.cls "Cat").props, q.name = x.1 :=
  C122_slots (rev := Ex.pickyRev) (o := {}) (sel := none) (ord := id) (fun _ _ => Iff.rfl) no_filter 3 4 [] "Cat"
    "Company"
    { name := "owner", types := [.cls "Person", .cls "Company"] } [.cls "Person"] []
    [(.str "owner", Ex.both), (.str "age", .int 3)] Ex.both
    (.rcd "Company" [("label", .str "y")]) _ (by decide +kernel) (by decide +kernel) (by decide +kernel)
    ⟨.inl rfl, by simp⟩ rfl rfl (by decide) (fun e _ h => by obtain ⟨v, hv, h⟩ := h; cases hv; cases h)
    (fun e h => by
      simp only [List.mem_singleton, Ty.cls.injEq] at h
      subst h
      exact ⟨.json [.str "owner", .str "name"] .valueCheck, by decide +kernel, .json⟩)
    (by decide +kernel) (by decide +kernel) (by decide +kernel) (by decide +kernel)

/-- A list cannot be a person, and that is no `TypeError`: nothing else is tried. -/
theorem C122_violated : ¬ C122_statement := by
  intro h
  have h1 := h Ex.petJ {} applyDefault none id (fun _ _ => Iff.rfl) no_filter rfl 3 4 "Box" "Labels"
    { name := "content", types := [.cls "Person", .cls "Labels"] } [.cls "Person"] [] (.list [.str "a"])
    (.lcoll "Labels" [.str "a"]) (.rcd "Box" [("content", .lcoll "Labels" [.str "a"])]) (by decide +kernel)
    (by decide +kernel) (by decide +kernel)
    ⟨.inl rfl, by simp⟩ rfl (by decide) (fun e _ h => by obtain ⟨v, hv, h⟩ := h; cases hv; cases h)
    (fun e h => by
      simp only [List.mem_singleton, Ty.cls.injEq] at h
      subst h
      exact ⟨.grokRecord [.str "content"], by decide +kernel, .inr ⟨_, .inl rfl⟩⟩)
    (by decide +kernel) (by decide +kernel) (by decide +kernel) (by decide +kernel)
  revert h1
  decide +kernel

end Normalize.Visit
