import Verif.Props.Visitor

/-!
# C55: the visitor knows where it is
-/

namespace Normalize.Visit
open Ident (IProp Ty ItemTy CollKind)
open Json (Setup Mk clsOf instOf)
open Spec (Leaf Chosen Kept NoSlot Holds Present Numbered MembersOf Emits Packs IsOf Shows ShowsSlot Visited Names Given)

variable {J : Setup} {o : Opts} {H H' : Hooks} {self : IProp → Val} {ap : Leaf}

/-- `R path x` says that `x` is what is to be found at `path`; it is kept by going into slots and items. -/
structure Tracks (J : Setup) (H : Hooks) (R : FS → Slot → Prop) : Prop where
  slot : ∀ {path x t get coll p}, R path x → H.unpack x t path = .ok (.parts (some get) coll) →
    (∀ v, get p = .ok v → R (path ++ [.str p.name]) (.val v)) ∧
    (∀ e, get p = .error e → R (path ++ [.str p.name]) (.miss e))
  item : ∀ {path x t props xs y}, R path x → H.unpack x t path = .ok (.parts props (some xs)) → y ∈ xs →
    R (path ++ [y.1]) (.val y.2)

/-- The two visitors do the same as long as the hooks are told the truth. -/
structure SameAt (R : FS → Slot → Prop) (H H' : Hooks) : Prop where
  unpack : ∀ {path x t}, R path x → H.unpack x t path = H'.unpack x t path
  apply : ∀ {path x}, R path x → H.apply x none path = H'.apply x none path
  applyProp : ∀ {path x p}, R path x → Names path p → H.apply x (some p) path = H'.apply x (some p) path
  collect : ∀ {path x l t}, R path x → H.collect l t path = H'.collect l t path
  reduce : ∀ {path x mp mc t}, R path x → H.reduce mp mc t path = H'.reduce mp mc t path

theorem tryTypes_congr {go go' : Go} {s : Slot} {cue : FS} (h : ∀ t, go s t cue = go' s t cue) :
    ∀ (ts : List Ty) (m : Val), tryTypes J go s cue ts m = tryTypes J go' s cue ts m
  | [], _ => rfl
  | t :: ts, m => by
    unfold tryTypes
    rw [h t]
    cases go' s t cue with
    | ok v => simp only; split <;> [exact tryTypes_congr h ts v; rfl]
    | error e => simp only; split <;> [exact tryTypes_congr h ts m; rfl]

theorem mapUnion_congr {R : FS → Slot → Prop} (hs : SameAt R H H') {go go' : Go}
    (ih : ∀ x t path, R path x → go x t path = go' x t path) {path : FS} {x : Slot} {p : IProp}
    (hR : R path x) (hn : Names path p) : mapUnion J H go x p path = mapUnion J H' go' x p path := by
  unfold mapUnion
  rw [tryTypes_congr (fun t => ih x t path hR), tryTypes_congr (fun t => ih x t path hR), hs.applyProp hR hn]

theorem mapProp_congr {R : FS → Slot → Prop} (hs : SameAt R H H') {go go' : Go}
    (ih : ∀ x t path, R path x → go x t path = go' x t path) {path : FS} {x : Slot} {p : IProp}
    (hR : R path x) (hn : Names path p) : mapProp J H go x p path = mapProp J H' go' x p path := by
  unfold mapProp
  rw [mapUnion_congr hs ih hR hn, hs.applyProp hR hn]
  match p.types with
  | [] =>
    cases x with
    | miss e => rfl
    | val v =>
      simp only
      cases clsOf v with
      | none => rfl
      | some c => exact ih _ _ _ hR
  | [.cls c] => exact ih _ _ _ hR
  | [.other n] => rfl
  | a :: _ :: _ => cases a <;> rfl

theorem mapRecord_congr {R : FS → Slot → Prop} (hs : SameAt R H H') {go go' : Go}
    (ih : ∀ x t path, R path x → go x t path = go' x t path) {path : FS} {get : IProp → Except Exc Val}
    (hg : ∀ p, (∀ v, get p = .ok v → R (path ++ [.str p.name]) (.val v)) ∧
      (∀ e, get p = .error e → R (path ++ [.str p.name]) (.miss e))) :
    ∀ ps, mapRecord J H o go get ps path = mapRecord J H' o go' get ps path
  | [] => rfl
  | p :: ps => by
    have h1 : mapSlot J H o go get path p = mapSlot J H' o go' get path p := by
      unfold mapSlot
      split
      · rfl
      · cases hf : fetch get (push path (.str p.name)) p with
        | error e => rfl
        | ok s =>
          have hR : R (push path (.str p.name)) s := by
            unfold fetch at hf
            cases hgp : get p with
            | ok v => rw [hgp] at hf; cases hf; exact (hg p).1 v hgp
            | error e =>
              rw [hgp] at hf
              simp only at hf
              split at hf
              · cases hf; exact (hg p).2 e hgp
              · rw [pop_push] at hf; cases hf
          have hp : mapProp J H go s p (push path (.str p.name)) = mapProp J H' go' s p (push path (.str p.name)) :=
            mapProp_congr hs ih hR (by simp [Names, push])
          simp only [hp]
    unfold mapRecord
    rw [h1]
    cases hm : mapSlot J H' o go' get path p with
    | error e => rfl
    | ok rc =>
      obtain ⟨r, cue'⟩ := rc
      have := mapSlot_cue hm
      subst this
      simp only
      rw [mapRecord_congr hs ih hg ps]

theorem mapColl_congr {R : FS → Slot → Prop} {go go' : Go}
    (ih : ∀ x t path, R path x → go x t path = go' x t path) {path : FS} {t : Ty} :
    ∀ xs : List (Comp × Val), (∀ y ∈ xs, R (path ++ [y.1]) (.val y.2)) →
      mapColl J o go t xs path = mapColl J o go' t xs path
  | [], _ => rfl
  | (k, v) :: xs, hxs => by
    unfold mapColl
    cases itemType J t with
    | error e => rfl
    | ok it =>
      simp only
      have := hxs (k, v) List.mem_cons_self
      rw [show push path k = path ++ [k] from rfl, ih _ _ _ this]
      cases go' (.val v) it (path ++ [k]) with
      | error e => rfl
      | ok m =>
        simp only
        rw [show pop (path ++ [k]) k = .ok path from pop_push path k]
        simp only
        rw [mapColl_congr ih xs (fun y hy => hxs y (List.mem_cons_of_mem _ hy))]

/-- If the hooks of two visitors do the same wherever `cue` is the path of the value they get, then so do the
visitors: no hook is ever called with another `cue`. -/
theorem map_congr {R : FS → Slot → Prop} (ht : Tracks J H R) (hs : SameAt R H H') : ∀ (n : Nat) (x : Slot) (t : Ty)
    (path : FS), R path x → map J H o n x t path = map J H' o n x t path
  | 0, _, _, _, _ => rfl
  | n + 1, x, t, path, hR => by
    have ih := map_congr ht hs n
    unfold map
    rw [← hs.unpack hR]
    cases hu : H.unpack x t path with
    | error e => rfl
    | ok u =>
      cases u with
      | stop v => rfl
      | parts props coll =>
        simp only
        have hc : collected J H o (map J H o n) coll t path = collected J H' o (map J H' o n) coll t path := by
          cases coll with
          | none => rfl
          | some xs =>
            simp only [collected]
            rw [mapColl_congr ih xs (fun y hy => ht.item hR hu hy)]
            cases mapColl J o (map J H' o n) t xs path with
            | error e => rfl
            | ok l => simp only [hs.collect hR]
        rw [hc]
        cases collected J H' o (map J H' o n) coll t path with
        | error e => rfl
        | ok mc =>
          simp only
          cases props with
          | none => cases mc <;> simp only [hs.apply hR, hs.reduce hR]
          | some get =>
            simp only
            rw [mapRecord_congr hs ih (fun p => ht.slot hR hu)]
            cases mapRecord J H' o (map J H' o n) get (propsOf J t) path with
            | error e => rfl
            | ok mp => simp only [hs.reduce hR]

theorem unpack_tracks {root : Val} (hu : ∀ x t path, H.unpack x t path = unpack J self x t path) :
    Tracks J H (Visited self root) := by
  constructor
  · intro path x t get coll p hR h
    rw [hu] at h
    have hget : get = readSlot self x := by
      unfold unpack at h
      split at h
      · cases h
      · split at h
        · cases h; rfl
        · split at h
          · cases h
          · cases h; rfl
    subst hget
    obtain ⟨h1, h2⟩ := readSlot_holds (self := self) x p
    refine ⟨fun v hv => .slot hR (h1 v hv), fun e he => ?_⟩
    obtain ⟨rfl, h3⟩ := h2 e he
    exact .slot hR h3
  · intro path x t props xs y hR h hy
    rw [hu] at h
    unfold unpack at h
    split at h
    · cases h
    · split at h
      · cases h
      · split at h
        · cases h
        · rename_i hm
          cases h
          exact .item hR (unpackColl_members hm) hy

/-- Own hooks besides the default `unpack`. -/
structure Custom where
  apply : Slot → Option IProp → FS → Except VErr Val
  collect : List (Comp × Val) → Ty → FS → Except VErr Val
  reduce : Option (List (IProp × Val)) → Option Val → Ty → FS → Except VErr Val

/-- All the hooks of `visit`. -/
def Custom.hooks (J : Setup) (self : IProp → Val) (C : Custom) : Hooks :=
  { unpack := unpack J self, apply := C.apply, collect := C.collect, reduce := C.reduce }

/-- The hooks agree when they are called with the path of the value as the `cue`, and with the property there. -/
structure AgreeAt (R : FS → Slot → Prop) (C C' : Custom) : Prop where
  apply : ∀ path x, R path x → C.apply x none path = C'.apply x none path
  applyProp : ∀ path x p, R path x → Names path p → C.apply x (some p) path = C'.apply x (some p) path
  collect : ∀ path x l t, R path x → C.collect l t path = C'.collect l t path
  reduce : ∀ path x mp mc t, R path x → C.reduce mp mc t path = C'.reduce mp mc t path

/-- C55 for `visit`: hooks are only called with the path of the value as the `cue`, counting from the root. -/
theorem C55_visit {C C' : Custom} {v : Val} {t : Ty} (h : AgreeAt (Visited self v) C C') (n : Nat) :
    map J (C.hooks J self) o n (.val v) t [] = map J (C'.hooks J self) o n (.val v) t [] :=
  map_congr (H := C.hooks J self) (H' := C'.hooks J self) (R := Visited self v) (unpack_tracks (fun _ _ _ => rfl))
    ⟨fun _ => rfl, fun hR => h.apply _ _ hR, fun hR hn => h.applyProp _ _ _ hR hn, fun hR => h.collect _ _ _ _ hR,
      fun hR => h.reduce _ _ _ _ _ hR⟩ n _ _ _ .root

/-! ## The `cue` is restored -/

/-- No hook raises `AssertionError`. -/
structure Quiet (H : Hooks) : Prop where
  unpack : ∀ x t path, H.unpack x t path ≠ .error (.raw .assertionError)
  apply : ∀ x p path, H.apply x p path ≠ .error (.raw .assertionError)
  collect : ∀ l t path, H.collect l t path ≠ .error (.raw .assertionError)
  reduce : ∀ mp mc t path, H.reduce mp mc t path ≠ .error (.raw .assertionError)

theorem err_ne {α β : Type} {e : VErr} {x : Except VErr α} (hx : x ≠ .error (.raw .assertionError))
    (he : x = .error e) : (Except.error e : Except VErr β) ≠ .error (.raw .assertionError) := by
  subst he
  intro h
  cases h
  exact hx rfl

theorem tryTypes_quiet {go : Go} {s : Slot} {cue : FS} (h : ∀ t, go s t cue ≠ .error (.raw .assertionError)) :
    ∀ (ts : List Ty) (m : Val), tryTypes J go s cue ts m ≠ .error (.raw .assertionError)
  | [], _ => by simp [tryTypes]
  | t :: ts, m => by
    unfold tryTypes
    have := h t
    cases hg : go s t cue with
    | ok v => simp only; split <;> [exact tryTypes_quiet h ts v; simp]
    | error e =>
      rw [hg] at this
      simp only; split <;> [exact tryTypes_quiet h ts m; exact this]

theorem mapProp_quiet (hq : Quiet H) {go : Go} (ih : ∀ x t path, go x t path ≠ .error (.raw .assertionError))
    {path : FS} {x : Slot} {p : IProp} : mapProp J H go x p path ≠ .error (.raw .assertionError) := by
  have hu : mapUnion J H go x p path ≠ .error (.raw .assertionError) := by
    unfold mapUnion
    split
    · have := tryTypes_quiet (J := J) (fun t => ih x t path) (p.types.filter isCls) .none
      split
      · rename_i e he; exact err_ne this he
      · split <;> [exact hq.apply _ _ _; simp]
    · exact tryTypes_quiet (fun t => ih x t path) _ _
  unfold mapProp
  match p.types with
  | [] =>
    cases x with
    | miss e => exact hq.apply _ _ _
    | val v =>
      simp only
      cases clsOf v with
      | none => exact hq.apply _ _ _
      | some c => exact ih _ _ _
  | [.cls c] => exact ih _ _ _
  | [.other n] => exact hq.apply _ _ _
  | a :: _ :: _ => cases a <;> exact hu

theorem mapRecord_quiet (hq : Quiet H) {go : Go} (ih : ∀ x t path, go x t path ≠ .error (.raw .assertionError))
    {get : IProp → Except Exc Val} : ∀ (ps : List IProp) (path : FS),
    mapRecord J H o go get ps path ≠ .error (.raw .assertionError)
  | [], _ => by simp [mapRecord]
  | p :: ps, path => by
    have h1 : mapSlot J H o go get path p ≠ .error (.raw .assertionError) := by
      unfold mapSlot
      simp only [pop_push]
      split
      · simp
      · split
        · rename_i e he
          unfold fetch at he
          rw [pop_push] at he
          split at he
          · cases he
          · split at he
            · cases he
            · simp only at he; cases he; simp
        · split
          · have := mapProp_quiet (J := J) hq ih (path := push path (.str p.name)) (x := ‹Slot›) (p := p)
            split
            · rename_i e he; exact err_ne this he
            · simp
          · simp
    unfold mapRecord
    split
    · rename_i e he; exact err_ne h1 he
    · have := mapRecord_quiet hq ih (get := get) ps ‹FS›
      split
      · rename_i e he; exact err_ne this he
      · simp

theorem mapColl_quiet {go : Go} (ih : ∀ x t path, go x t path ≠ .error (.raw .assertionError)) {t : Ty} :
    ∀ (xs : List (Comp × Val)) (path : FS), mapColl J o go t xs path ≠ .error (.raw .assertionError)
  | [], _ => by simp [mapColl]
  | (k, v) :: xs, path => by
    unfold mapColl
    rw [pop_push]
    simp only
    split
    · rename_i e he
      unfold itemType at he
      split at he
      · split at he <;> cases he; simp
      · cases he; simp
    · split
      · rename_i e he; exact err_ne (ih _ _ _) he
      · have := mapColl_quiet ih (t := t) xs path
        split
        · rename_i e he; exact err_ne this he
        · simp

/-- C55, second part: the assertion in `pop` never fails, whatever the hooks do: an `AssertionError` comes from one of
them. -/
theorem C55_restored (hq : Quiet H) : ∀ (n : Nat) (x : Slot) (t : Ty) (path : FS),
    map J H o n x t path ≠ .error (.raw .assertionError)
  | 0, _, _, _ => by simp [map]
  | n + 1, x, t, path => by
    have ih := C55_restored hq n
    unfold map
    split
    · rename_i e he; exact err_ne (hq.unpack _ _ _) he
    · simp
    · rename_i props coll _
      have hc : collected J H o (map J H o n) coll t path ≠ .error (.raw .assertionError) := by
        cases coll with
        | none => simp [collected]
        | some xs =>
          have := mapColl_quiet (J := J) (o := o) ih (t := t) xs path
          simp only [collected]
          split
          · rename_i e he; exact err_ne this he
          · split
            · rename_i e he; exact err_ne (hq.collect _ _ _) he
            · simp
      split
      · rename_i e he; exact err_ne hc he
      · split
        · have hm := fun get => mapRecord_quiet (J := J) (o := o) hq ih (get := get) (propsOf J t) path
          split
          · rename_i e he; exact err_ne (hm _) he
          · exact hq.reduce _ _ _ _
        · exact hq.apply _ _ _
        · exact hq.reduce _ _ _ _

/-- C55, second part: after the visit of a slot the `cue` is what it was before. -/
theorem C55_slot {go : Go} {get : IProp → Except Exc Val} {cue cue' : FS} {p : IProp} {r : Option Val}
    (h : mapSlot J H o go get cue p = .ok (r, cue')) : cue' = cue := mapSlot_cue h

/-! ## `cast` -/

theorem listItems_mem {xs : List (Comp × Val)} {ys : List Val} (h : Json.listItems J (.dict xs) = .ok ys) {y : Val}
    (hy : y ∈ ys) : ∃ k, (k, y) ∈ xs := by
  unfold Json.listItems at h
  simp only at h
  split at h
  · cases h
    rw [List.mem_map] at hy
    obtain ⟨x, hx, rfl⟩ := hy
    rw [List.mem_insertionSort] at hx
    exact ⟨x.1, hx⟩
  · cases h

theorem collTuples_given {z : Bool} {root : Val} {path : FS} {k : CollKind} {v : Val} {xs : List (Comp × Val)}
    (hz : z = false → ∀ d, ¬ (k = .list ∧ v = .dict d))
    (h : collTuples J k v = .ok xs) {y : Comp × Val} (hy : y ∈ xs)
    (h1 : ∀ ys (i : Nat) w, v = .list ys → ys[i]? = some w → Given z root (path ++ [.int i]) (.val w))
    (h2 : ∀ ys k w, v = .dict ys → (k, w) ∈ ys → Given z root (path ++ [k]) (.val w))
    (h3 : ∀ ys k w, z = true → v = .dict ys → (k, w) ∈ ys → Given z root (path ++ [.int 0]) (.val w)) :
    Given z root (path ++ [y.1]) (.val y.2) := by
  have num : ∀ ys, v = .list ys → y ∈ Ident.enum ys → Given z root (path ++ [y.1]) (.val y.2) := by
    intro ys hv hy
    obtain ⟨i, hi⟩ := List.mem_iff_getElem?.1 hy
    rw [enum_numbered ys i] at hi
    cases hx : ys[i]? with
    | none => rw [hx] at hi; cases hi
    | some w => rw [hx] at hi; cases hi; exact h1 ys i w hv hx
  cases k <;> cases v <;> simp [collTuples] at h
  · subst h; exact num _ rfl hy
  · rename_i d
    split at h
    · cases h
    · rename_i ys hys
      cases h
      rw [List.mem_map] at hy
      obtain ⟨w, hw, rfl⟩ := hy
      obtain ⟨k, hk⟩ := listItems_mem hys hw
      cases z with
      | true => exact h3 d k w rfl rfl hk
      | false => exact absurd ⟨rfl, rfl⟩ (hz rfl d)
  · subst h; exact num _ rfl hy
  · subst h; exact h2 _ y.1 y.2 rfl hy

/-- Without list collections, or with the index 0 for the members of a dict. -/
theorem grok_tracks {root : Val} {z : Bool} (hz : z = false → ∀ c it, (J.S.cls c).coll ≠ some (.list, it))
    (hu : ∀ x t path, H.unpack x t path = grok J o x t path) : Tracks J H (Given z root) := by
  have hget : ∀ b v get, grokGet b v = some get → ∃ xs, v = .dict xs ∧ get = readKey xs := by
    intro b v get h
    cases b <;> cases v <;> simp [grokGet] at h
    exact ⟨_, rfl, h.symm⟩
  constructor
  · intro path x t get coll p hR h
    rw [hu] at h
    have : ∃ xs, x = .val (.dict xs) ∧ get = readKey xs := by
      unfold grok at h
      split at h
      · cases h
      · split at h
        · cases h
        · split at h <;> cases h
      · split at h
        · cases h
        · split at h
          · simp only [Except.ok.injEq, Unpacked.parts.injEq] at h
            obtain ⟨xs, rfl, hg⟩ := hget _ _ _ h.1
            exact ⟨xs, rfl, hg⟩
          · split at h
            · cases h
            · simp only [Except.ok.injEq, Unpacked.parts.injEq] at h
              obtain ⟨xs, rfl, hg⟩ := hget _ _ _ h.1
              exact ⟨xs, rfl, hg⟩
    obtain ⟨xs, rfl, rfl⟩ := this
    unfold readKey
    cases hk : alookup xs (.str p.name) with
    | some v => exact ⟨fun w hw => (by cases hw; exact .key hR hk), fun e he => (by cases he)⟩
    | none => exact ⟨fun w hw => (by cases hw), fun e he => (by cases he; exact .missing hR hk)⟩
  · intro path x t props xs y hR h hy
    rw [hu] at h
    unfold grok at h
    split at h
    · cases h
    · split at h
      · cases h
      · split at h <;> cases h
    · split at h
      · cases h
      · split at h
        · cases h
        · rename_i c v _ _ k it hk
          split at h
          · cases h
          · rename_i xs' hxs
            simp only [Except.ok.injEq, Unpacked.parts.injEq, Option.some.injEq] at h
            obtain ⟨_, rfl⟩ := h
            unfold grokColl at hxs
            split at hxs
            · have hz' : z = false → ∀ w d, ¬ (k = .list ∧ w = Val.dict d) := by
                intro h0 w d hd
                rw [hd.1] at hk
                exact hz h0 c it hk
              have self_case : ∀ w, w = v → collTuples J k w = .ok xs' →
                  Given z root (path ++ [y.1]) (.val y.2) := by
                rintro w rfl hw
                exact collTuples_given (fun h0 => hz' h0 w) hw hy
                  (fun ys i w' hv hi => by subst hv; exact .list hR hi)
                  (fun ys k' w' hv hm => by subst hv; exact .dict hR hm)
                  (fun ys k' w' h0 hv hm => by subst hv; exact .zero h0 hR hm)
              revert hxs
              unfold grokValues
              split
              · split
                · rename_i d u hu'
                  intro hxs
                  exact collTuples_given (fun h0 => hz' h0 u) hxs hy
                    (fun ys i w' hv hi => by subst hv; exact .valuesList hR hu' hi)
                    (fun ys k' w' hv hm => by subst hv; exact .values hR hu' hm)
                    (fun ys k' w' h0 hv hm => by subst hv; exact .valuesZero h0 hR hu' hm)
                · exact self_case _ rfl
              · exact self_case _ rfl
            · cases hxs

/-- All the hooks of `cast`. -/
def Custom.castHooks (J : Setup) (o : Opts) (C : Custom) : Hooks :=
  { unpack := grok J o, apply := C.apply, collect := C.collect, reduce := C.reduce }

/-- C55 for `cast`, where the path is counted in the data that is given. -/
def C55_cast_statement : Prop := ∀ (J : Setup) (o : Opts) (C C' : Custom) (v : Val) (t : Ty) (n : Nat),
  AgreeAt (Given false v) C C' →
  map J (C.castHooks J o) o n (.val v) t [] = map J (C'.castHooks J o) o n (.val v) t []

theorem cast_cue {C C' : Custom} {v : Val} {t : Ty} {z : Bool}
    (hz : z = false → ∀ c it, (J.S.cls c).coll ≠ some (.list, it)) (h : AgreeAt (Given z v) C C') (n : Nat) :
    map J (C.castHooks J o) o n (.val v) t [] = map J (C'.castHooks J o) o n (.val v) t [] :=
  map_congr (H := C.castHooks J o) (H' := C'.castHooks J o) (R := Given z v) (grok_tracks hz (fun _ _ _ => rfl))
    ⟨fun _ => rfl, fun hR => h.apply _ _ hR, fun hR hn => h.applyProp _ _ _ hR hn, fun hR => h.collect _ _ _ _ hR,
      fun hR => h.reduce _ _ _ _ _ hR⟩ n _ _ _ .root

/-- C55 for `cast`, except that all the members of a dict that is read into a `ListCollection` have the index 0. -/
theorem C55_cast_partial {C C' : Custom} {v : Val} {t : Ty} (h : AgreeAt (Given true v) C C') (n : Nat) :
    map J (C.castHooks J o) o n (.val v) t [] = map J (C'.castHooks J o) o n (.val v) t [] :=
  cast_cue (fun h => by cases h) h n

/-- C55 for `cast` if there is no `ListCollection`. -/
theorem C55_cast_nolist_partial {C C' : Custom} {v : Val} {t : Ty} (hl : ∀ c it, (J.S.cls c).coll ≠ some (.list, it))
    (h : AgreeAt (Given false v) C C') (n : Nat) :
    map J (C.castHooks J o) o n (.val v) t [] = map J (C'.castHooks J o) o n (.val v) t [] :=
  cast_cue (fun _ => hl) h n

theorem given_single {v : Val} {path : FS} {x : Slot} {k : Comp} (h : Given false v path x) (hp : path = [k]) :
    (∃ xs, v = .dict xs ∧ ((∃ nm, k = .str nm) ∨ (∃ w, (k, w) ∈ xs) ∨ alookup xs (.str "values") ≠ none)) ∨
      ∃ xs, v = .list xs := by
  have nil : ∀ {path : FS} {x : Slot}, Given false v path x → path = [] → x = .val v := by
    intro path x h hp
    cases h with
    | root => rfl
    | _ => simp at hp
  have last : ∀ {path : FS} {k' : Comp}, path ++ [k'] = [k] → path = [] ∧ k' = k := by
    intro path k' h
    have := List.append_inj' (s₁ := path) (s₂ := []) (t₁ := [k']) (t₂ := [k]) h rfl
    simpa using this
  cases h with
  | root => cases hp
  | key h1 h2 =>
    obtain ⟨rfl, rfl⟩ := last hp
    cases nil h1 rfl
    exact .inl ⟨_, rfl, .inl ⟨_, rfl⟩⟩
  | missing h1 h2 =>
    obtain ⟨rfl, rfl⟩ := last hp
    cases nil h1 rfl
    exact .inl ⟨_, rfl, .inl ⟨_, rfl⟩⟩
  | list h1 h2 =>
    obtain ⟨rfl, rfl⟩ := last hp
    cases nil h1 rfl
    exact .inr ⟨_, rfl⟩
  | dict h1 h2 =>
    obtain ⟨rfl, rfl⟩ := last hp
    cases nil h1 rfl
    exact .inl ⟨_, rfl, .inr (.inl ⟨_, h2⟩)⟩
  | values h1 h2 h3 =>
    obtain ⟨rfl, rfl⟩ := last hp
    cases nil h1 rfl
    exact .inl ⟨_, rfl, .inr (.inr (by rw [h2]; simp))⟩
  | valuesList h1 h2 h3 =>
    obtain ⟨rfl, rfl⟩ := last hp
    cases nil h1 rfl
    exact .inl ⟨_, rfl, .inr (.inr (by rw [h2]; simp))⟩
  | zero h => cases h
  | valuesZero h => cases h

namespace Ex

/-- A class `Tags`: a list of strings. -/
def tagsCls : String → Ident.ICls
  | "Tags" => { coll := some (.list, .one (.other 0)) }
  | _ => {}

def tagsJ : Setup :=
  { S := Json.exSchema tagsCls, info := fun _ _ => {}, isJson := fun _ => false, isa := fun _ _ => true
    make := fun _ v => .ok v, loads := fun _ => .error .valueCheck }

/-- Raises at the place `[0]`. -/
def atZero : Custom :=
  { apply := fun _ _ path => if path = [.int 0] then .error (.raw (.user 7)) else .ok (.int 1)
    collect := fun _ _ _ => .ok (.int 1), reduce := fun _ _ _ _ => .ok (.int 1) }

def never : Custom :=
  { apply := fun _ _ _ => .ok (.int 1), collect := fun _ _ _ => .ok (.int 1), reduce := fun _ _ _ _ => .ok (.int 1) }

/-- `{"a": "x", "b": "y"}` -/
def twoTags : Val := .dict [(.str "a", .str "x"), (.str "b", .str "y")]

theorem agree_dict : AgreeAt (Given false twoTags) atZero never := by
  have key : ∀ path x, Given false twoTags path x → path ≠ [.int 0] := by
    intro path x hg hp
    rcases given_single hg hp with ⟨xs, hv, h⟩ | ⟨xs, hv⟩
    · cases hv
      rcases h with ⟨nm, h⟩ | ⟨w, h⟩ | h
      · cases h
      · simp at h
      · exact h rfl
    · cases hv
  refine ⟨?_, ?_, fun _ _ _ _ _ => rfl, fun _ _ _ _ _ _ => rfl⟩
  · intro path x hg; simp [atZero, never, key path x hg]
  · intro path x p hg _; simp [atZero, never, key path x hg]

end Ex

/-- C55 is false of `cast`: the members of a dict that is read into a list are visited with the `cue` `[0]`, at which
there is nothing in the data. -/
theorem C55_cast_violated : ¬ C55_cast_statement := by
  intro h
  have := h Ex.tagsJ {} Ex.atZero Ex.never Ex.twoTags (.cls "Tags") 3 Ex.agree_dict
  revert this
  decide +kernel

end Normalize.Visit
