import Verif.Spec.CollExtra
import Verif.Props.Property
import Verif.Props.Coll
import Mathlib.Data.List.Forall2

/-!
# C103: properties of collections
-/

namespace Normalize.Props

open Normalize.CollExtra Normalize.Coll Normalize.Slots Normalize.Slots.Spec Normalize.Spec

variable {V D O R : Type} [DecidableEq V]

/-! ## Items and properties do not mix -/

/-- C103: whatever methods of the collection and attribute operations are called, in any order, the items and what the
methods return are those of the methods alone, and the properties and what they return are those of the attribute
operations alone. -/
theorem C103_separate (step : O → D → Except Exc R × D) (w : World V) (c : Cls V) (n : Nat) (ops : List (COp V O))
    (x x' : Obj V D) (outs : List (COut V R)) (h : crun step w c n ops x = some (outs, x')) :
    runMethods step (collCalls ops) x.items = (collOuts outs, x'.items) ∧
      runAttrs w c n (attrCalls ops) x.st = some (attrOuts outs, x'.st) := by
  induction ops generalizing x outs with
  | nil =>
    simp only [crun, Option.some.injEq, Prod.mk.injEq] at h
    obtain ⟨rfl, rfl⟩ := h
    exact ⟨rfl, rfl⟩
  | cons o ops ih =>
    simp only [crun] at h
    cases hs : cstep step w c n o x with
    | none => rw [hs] at h; cases h
    | some p =>
      obtain ⟨r, x1⟩ := p
      rw [hs] at h
      simp only at h
      cases hr : crun step w c n ops x1 with
      | none => rw [hr] at h; cases h
      | some q =>
        obtain ⟨rs, x2⟩ := q
        rw [hr] at h
        simp only [Option.some.injEq, Prod.mk.injEq] at h
        obtain ⟨rfl, rfl⟩ := h
        obtain ⟨h1, h2⟩ := ih x1 rs hr
        cases o with
        | coll o =>
          simp only [cstep, Option.some.injEq, Prod.mk.injEq] at hs
          obtain ⟨rfl, rfl⟩ := hs
          simp only [collCalls, attrCalls, collOuts, attrOuts, runMethods]
          simp only at h1 h2
          rw [h1]
          exact ⟨rfl, h2⟩
        | attr o =>
          simp only [cstep] at hs
          cases he : exec w c n x.st o with
          | none => rw [he] at hs; cases hs
          | some p =>
            obtain ⟨a, st'⟩ := p
            rw [he] at hs
            simp only [Option.some.injEq, Prod.mk.injEq] at hs
            obtain ⟨rfl, rfl⟩ := hs
            simp only [collCalls, attrCalls, collOuts, attrOuts, runAttrs]
            simp only at h1 h2
            rw [he]
            simp only
            rw [h2]
            exact ⟨h1, rfl⟩

/-- The methods of a list collection are those of C34. -/
theorem C103_list (C : CT V) (ops : List (LOp V)) (xs : List V) : runMethods (lstep C) ops xs = lrun C ops xs := by
  induction ops generalizing xs with
  | nil => rfl
  | cons o ops ih => simp only [runMethods, lrun, ih]

/-- The methods of a dict collection are those of C35. -/
theorem C103_dict {K : Type} [DecidableEq K] (C : CT V) (ops : List (DOp V K)) (d : List (K × V)) :
    runMethods (dstep C) ops d = drun C ops d := by
  induction ops generalizing d with
  | nil => rfl
  | cons o ops ih => simp only [runMethods, drun, ih]

/-- The constructor makes the items as without keyword arguments, and the properties as the constructor of a record
makes them of the keyword arguments; if either raises, so does it. -/
theorem C103_construct (w : World V) (c : Cls V) (n : Nat) (ord : List String → List String) (items : Except Exc D)
    (kw : List (String × V)) (x : Obj V D) :
    new w c n ord items kw = some (.ok x) ↔
      items = .ok x.items ∧ Slots.construct w c n ord [] kw = some (.ok (), x.st) := by
  obtain ⟨d, st⟩ := x
  cases items with
  | error e => simp [new]
  | ok d' =>
    simp only [new, withProps]
    cases h : Slots.construct w c n ord [] kw with
    | none => simp
    | some p =>
      obtain ⟨r, st'⟩ := p
      cases r with
      | error e => simp
      | ok u =>
        cases u
        simp [Obj.mk.injEq]

/-! ## Differences -/

/-- The diff of two collections is empty exactly if they have the same properties and the items do not differ. -/
theorem C103_diff {I : Type} (w : World V) (names : List String) (itemDiff : D → D → List I) (x y : Obj V D) :
    cdiff w names itemDiff x y = [] ↔ SameProps w names x y ∧ itemDiff x.items y.items = [] := by
  simp only [cdiff, List.append_eq_nil_iff, List.map_eq_nil_iff, List.filterMap_eq_nil_iff]
  rw [and_comm]
  refine and_congr ?_ Iff.rfl
  refine forall_congr' (fun nm => imp_congr Iff.rfl ?_)
  simp only [slotDiff]
  cases hx : x.st.slots nm with
  | none =>
    cases hy : y.st.slots nm with
    | none => simp
    | some b => simp
  | some a =>
    cases hy : y.st.slots nm with
    | none => simp
    | some b =>
      by_cases h : w.eq a b = true <;> simp [h]

/-- Every property that is set in one collection only, or differs, is in the diff, under its name. -/
theorem C103_diff_reports {I : Type} (w : World V) (names : List String) (itemDiff : D → D → List I) (x y : Obj V D)
    (nm : String) (hn : nm ∈ names) :
    (x.st.slots nm = none → y.st.slots nm ≠ none → Change.added nm ∈ cdiff w names itemDiff x y) ∧
    (x.st.slots nm ≠ none → y.st.slots nm = none → Change.removed nm ∈ cdiff w names itemDiff x y) ∧
    (∀ a b : V, x.st.slots nm = some a → y.st.slots nm = some b → w.eq a b = false →
      Change.modified nm ∈ cdiff w names itemDiff x y) := by
  have key : ∀ ch : Change I, slotDiff w x y nm = some ch → ch ∈ cdiff w names itemDiff x y := fun ch h =>
    List.mem_append_right _ (List.mem_filterMap.mpr ⟨nm, hn, h⟩)
  refine ⟨fun hx hy => key _ ?_, fun hx hy => key _ ?_, fun a b hx hy he => key _ ?_⟩
  · obtain ⟨b, hb⟩ := Option.ne_none_iff_exists'.mp hy
    simp only [slotDiff, hx, hb]
  · obtain ⟨a, ha⟩ := Option.ne_none_iff_exists'.mp hx
    simp only [slotDiff, ha, hy]
  · simp only [slotDiff, hx, hy, he, Bool.false_eq_true, if_false]

/-! ## What forgets the properties -/

/-- `==` tells collections with different properties apart. -/
def C103_eq_statement : Prop :=
  ∀ (C : CT Nat) (w : World Nat) (c : Cls Nat) (x y : Obj Nat (List Nat)),
    ceq C x y = true → SameProps w (propNames c) x y

/-- `+` keeps the properties of the left operand. -/
def C103_add_statement : Prop :=
  ∀ (C : CT Nat) (w : World Nat) (c : Cls Nat) (n : Nat) (x z : Obj Nat (List Nat)) (ys : List Nat),
    add C w c n id x ys = some (.ok z) → ∀ nm : String, nm ∈ propNames c → z.st.slots nm = x.st.slots nm

/-- JSON keeps the properties. -/
def C103_json_statement : Prop :=
  ∀ (C : CT Nat) (w : World Nat) (c : Cls Nat) (n : Nat) (x z : Obj Nat (List Nat)) (js : List Nat),
    toJson (J := Nat) .ok x = .ok js → fromJson C w c n id .ok js = some (.ok z) →
      ∀ nm : String, nm ∈ propNames c → z.st.slots nm = x.st.slots nm

/-- Pickling objects of classes that derive from `list_of(…)` keeps the properties. -/
def C103_pickle_statement : Prop :=
  ∀ (C : CT Nat) (w : World Nat) (c : Cls Nat) (n : Nat) (x z : Obj Nat (List Nat)),
    repickledGeneric C w n id (fun v => v) x = some (.ok z) →
      ∀ nm : String, nm ∈ propNames c → z.st.slots nm = x.st.slots nm

/-- A collection can be compared to a plain list of items of the right type. -/
def C103_compare_statement : Prop :=
  ∀ (C : CT Nat) (w : World Nat) (c : Cls Nat) (n : Nat) (x : Obj Nat (List Nat)) (ys : List Nat),
    (∀ y : Nat, y ∈ ys → C.inst y = true) → ∃ b : Bool, ceqPlain C w c n id x ys = some (.ok b)

/-- Numbers as items. -/
def exItems : CT Nat := ⟨fun _ => true, .ok, fun a b => a == b, fun _ => none, true⟩

/-- Numbers as values; 0 is `None`, 1 "<not set>". -/
def exWorldP : World Nat := ⟨0, 1, fun a b => a == b⟩

/-- A collection class with a property `page` that is not required. -/
def pageCls : Cls Nat := ⟨[("page", {})]⟩

/-- A collection class with a required property `page`. -/
def requiredCls : Cls Nat := ⟨[("page", { required := true })]⟩

/-- The items 7, 8 on a page. -/
def onPage (p : Nat) : Obj Nat (List Nat) := ⟨[7, 8], State.empty.put "page" p⟩

/-- It can be made with the constructor. -/
example (p : Nat) (hp : 1 < p) :
    ∃ x : Obj Nat (List Nat), newList exItems exWorldP pageCls 1 id [7, 8] [("page", p)] = some (.ok x) ∧
      x.items = [7, 8] ∧ x.st.slots "page" = some p := by
  refine ⟨onPage p, ?_, rfl, rfl⟩
  rw [newList, C103_construct]
  refine ⟨rfl, ?_⟩
  have h0 : p ≠ 0 := by omega
  have h1 : p ≠ 1 := by omega
  simp [Slots.construct, pageCls, Cls.eagerNames, PropDef.eager, Kind.isLazy, initAll, Cls.find, initProp, initValue,
    exWorldP, typeSafe, runCheck, h1, onPage]

theorem C103_eq_violated : ¬ C103_eq_statement := by
  intro h
  have := h exItems exWorldP pageCls (onPage 2) (onPage 3) rfl "page" (by simp [propNames, pageCls])
  simp [onPage, State.put, exWorldP] at this

/-- Two collections may be equal although their diff is not empty. -/
theorem C103_equal_but_differ :
    ceq exItems (onPage 2) (onPage 3) = true ∧
      ∀ (I : Type) (itemDiff : List Nat → List Nat → List I),
        cdiff exWorldP (propNames pageCls) itemDiff (onPage 2) (onPage 3) ≠ [] := by
  refine ⟨rfl, fun I d h => ?_⟩
  have := ((C103_diff _ _ _ _ _).mp h).1 "page" (by simp [propNames, pageCls])
  simp [onPage, State.put, exWorldP] at this

theorem pageCls_empty (n : Nat) : Slots.construct exWorldP pageCls n id [] [] = some (.ok (), State.empty) := by
  simp [Slots.construct, pageCls, Cls.eagerNames, PropDef.eager, Kind.isLazy, initAll]

theorem C103_add_violated : ¬ C103_add_statement := by
  intro h
  have := h exItems exWorldP pageCls 1 (onPage 2) ⟨[7, 8, 9], State.empty⟩ [9]
    (by rw [add, newList, C103_construct]; exact ⟨rfl, pageCls_empty 1⟩) "page" (by simp [propNames, pageCls])
  simp [onPage, State.put, State.empty] at this

theorem C103_json_violated : ¬ C103_json_statement := by
  intro h
  have := h exItems exWorldP pageCls 1 (onPage 2) ⟨[7, 8], State.empty⟩ [7, 8] rfl
    (by
      have : fromJson exItems exWorldP pageCls 1 id (J := Nat) .ok [7, 8] =
        newList exItems exWorldP pageCls 1 id [7, 8] [] := rfl
      rw [this, newList, C103_construct]; exact ⟨rfl, pageCls_empty 1⟩) "page" (by simp [propNames, pageCls])
  simp [onPage, State.put, State.empty] at this

theorem C103_pickle_violated : ¬ C103_pickle_statement := by
  intro h
  have := h exItems exWorldP pageCls 1 (onPage 2) ⟨[7, 8], State.empty⟩
    (by rw [repickledGeneric, newList, C103_construct]; exact ⟨rfl, rfl⟩) "page" (by simp [propNames, pageCls])
  simp [onPage, State.put, State.empty] at this

theorem C103_compare_violated : ¬ C103_compare_statement := by
  intro h
  obtain ⟨b, hb⟩ := h exItems exWorldP requiredCls 1 (onPage 2) [7, 8] (fun _ _ => rfl)
  have : ceqPlain exItems exWorldP requiredCls 1 id (onPage 2) [7, 8] = some (.error .propertyRequired) := by
    simp [ceqPlain, newList, new, coerceAll, coerceIter, coerceValue, exItems, withProps, Slots.construct, requiredCls,
      Cls.eagerNames, PropDef.eager, Kind.isLazy, initAll, Cls.find, initProp, getDefault, initValue, exWorldP]
  rw [this] at hb
  cases hb

/-! ## What they do instead -/

variable (C : CT V) (w : World V) (c : Cls V) (n : Nat) (ord : List String → List String)

/-- `coll + other`: the items are those of both; every property is as the constructor makes it without an argument: the
default, or unset. -/
theorem C103_add_partial (hnd : (c.props.map (·.1)).Nodup) (ho : SetOrder ord) (hp : Private w c [])
    (hsd : SimpleDefaults c) (x z : Obj V (List V)) (ys : List V) (h : add C w c n ord x ys = some (.ok z)) :
    coerceAll C ⟨x.items ++ ys, none⟩ = .ok z.items ∧
      ∀ (nm : String) (p : PropDef V), c.find nm = some p → Ctor w p none (z.st.slots nm) := by
  rw [add, newList, C103_construct] at h
  refine ⟨h.1, fun nm p hf => ?_⟩
  have := (C26_slots hnd (by simp) ho hp hsd h.2).1 nm p hf
  exact this

/-- Items of the right type are kept as they are. -/
theorem coerceAll_inst (xs : List V) (h : ∀ v : V, v ∈ xs → C.inst v = true) : coerceAll C ⟨xs, none⟩ = .ok xs := by
  have : coerceIter C xs none = (xs, none) := by
    induction xs with
    | nil => rfl
    | cons a xs ih =>
      simp only [coerceIter, coerceValue, h a (by simp), if_true]
      rw [ih (fun v hv => h v (List.mem_cons_of_mem _ hv))]
  simp only [coerceAll]
  rw [this]

/-- If the class has a required property without default, `coll + other` raises `PropertyRequired`, and so does
`coll == [...]`. -/
theorem C103_required (hnd : (c.props.map (·.1)).Nodup) (ho : SetOrder ord) (hp : Private w c [])
    (hsd : SimpleDefaults c)
    (hothers : ∀ (nm : String) (p : PropDef V), c.find nm = some p → (∃ s : Option V, Ctor w p none s) ∨ p.default = none)
    {nm : String} {p : PropDef V} (hf : c.find nm = some p) (hreq : p.required = true) (hl : p.kind.isLazy = false)
    (hd : p.default = none) (x : Obj V (List V)) (ys : List V) (hx : ∀ v : V, v ∈ x.items → C.inst v = true)
    (hy : ∀ v : V, v ∈ ys → C.inst v = true) :
    add C w c n ord x ys = some (.error .propertyRequired) ∧
      addPlain C w c n ord x ys = some (.error .propertyRequired) ∧
      ceqPlain C w c n ord x ys = some (.error .propertyRequired) := by
  obtain ⟨st, hst⟩ := C26_missing_required (n := n) hnd (kw := []) (by simp) ho hp hsd (by simp)
    (fun nm p hf => (hothers nm p hf).imp id (fun h => ⟨h, by simp⟩)) hf hreq hl hd (by simp)
  have hn : ∀ xs : List V, (∀ v : V, v ∈ xs → C.inst v = true) →
      newList C w c n ord xs [] = some (.error .propertyRequired) := by
    intro xs hxs
    simp only [newList]
    rw [coerceAll_inst C xs hxs]
    simp only [new, withProps]
    rw [hst]
  refine ⟨hn _ (fun v hv => ?_), ?_, ?_⟩
  · rcases List.mem_append.mp hv with h | h
    · exact hx v h
    · exact hy v h
  · simp only [CollExtra.addPlain]; rw [hn ys hy]
  · simp only [ceqPlain]; rw [hn ys hy]

/-- A class whose `+` and `==` raise. -/
example (x : Obj Nat (List Nat)) (ys : List Nat) :
    add exItems exWorldP requiredCls 1 id x ys = some (.error .propertyRequired) :=
  (C103_required exItems exWorldP requiredCls 1 id (by simp [requiredCls]) (fun l => List.Perm.refl l)
    ⟨by simp, by simp [requiredCls], by simp [requiredCls]⟩ (by simp [SimpleDefaults, requiredCls])
    (fun nm p h => by simp [requiredCls, Cls.find] at h; obtain ⟨_, rfl⟩ := h; exact .inr rfl)
    (nm := "page") (p := { required := true }) rfl rfl rfl rfl x ys (fun _ _ => rfl) (fun _ _ => rfl)).1

/-- A class whose `+` forgets the page. -/
example : ∃ z : Obj Nat (List Nat), add exItems exWorldP pageCls 1 id (onPage 2) [9] = some (.ok z) ∧
    z.items = [7, 8, 9] ∧ z.st.slots "page" = none := by
  refine ⟨⟨[7, 8, 9], State.empty⟩, ?_, rfl, rfl⟩
  rw [add, newList, C103_construct]
  exact ⟨rfl, pageCls_empty 1⟩

/-- `==` and JSON output see the items only. -/
theorem C103_blind {J : Type} (out : V → Except Exc J) (x y x' y' : Obj V (List V)) (hx : x.items = x'.items)
    (hy : y.items = y'.items) : ceq C x y = ceq C x' y' ∧ toJson out x = toJson out x' := by
  simp only [ceq, toJson, hx, hy, and_self]

/-- Two collections of the same class are equal exactly if they have equally many items and these are equal in turn. -/
theorem C103_eq_partial (x y : Obj V (List V)) :
    ceq C x y = true ↔ List.Forall₂ (fun a b : V => C.eq a b = true) x.items y.items := by
  simp only [ceq]
  generalize x.items = xs
  generalize y.items = ys
  induction xs generalizing ys with
  | nil => cases ys <;> simp [listEq]
  | cons a xs ih =>
    cases ys with
    | nil => simp [listEq]
    | cons b ys => simp [listEq, ih]

/-- If reading undoes writing for each item, then a collection read back from its JSON form has the same items, and the
properties the constructor makes without an argument. -/
theorem C103_json_partial {J : Type} (out : V → Except Exc J) (inn : J → Except Exc V)
    (hrt : ∀ (v : V) (j : J), out v = .ok j → inn j = .ok v) (x : Obj V (List V)) (js : List J)
    (hx : ∀ v : V, v ∈ x.items → C.inst v = true) (h : toJson out x = .ok js) (st : State V)
    (hst : Slots.construct w c n ord [] [] = some (.ok (), st)) :
    fromJson C w c n ord inn js = some (.ok ⟨x.items, st⟩) := by
  have hm : ∀ (xs : List V) (js : List J), mapE out xs = .ok js → mapE inn js = .ok xs := by
    intro xs
    induction xs with
    | nil => intro js h; cases h; rfl
    | cons a xs ih =>
      intro js h
      simp only [mapE] at h
      cases ha : out a with
      | error e => rw [ha] at h; cases h
      | ok j =>
        cases hr : mapE out xs with
        | error e => rw [ha, hr] at h; cases h
        | ok js' =>
          rw [ha, hr] at h
          cases h
          simp only [mapE, hrt a j ha, ih js' hr]
  simp only [fromJson]
  rw [hm x.items js h]
  simp only [newList]
  rw [C103_construct]
  exact ⟨coerceAll_inst C x.items hx, hst⟩

/-- Pickling an object of a class defined with `class` keeps the items and the properties. -/
theorem C103_pickle_partial (copy : V → V) (x : Obj V (List V)) :
    (repickled copy x).items = x.items.map copy ∧
      ∀ nm : String, (repickled copy x).st.slots nm = (x.st.slots nm).map copy := by
  refine ⟨rfl, fun nm => ?_⟩
  simp only [repickled, repickle, State.empty]
  cases x.st.slots nm <;> rfl

/-- Pickling an object of a class that derives from `list_of(…)` keeps copies of the items, and no property is set. -/
theorem C103_pickle_generic (copy : V → V) (x : Obj V (List V)) (ho : SetOrder ord)
    (h : ∀ v ∈ x.items, C.inst (copy v) = true) :
    repickledGeneric C w n ord copy x = some (.ok ⟨x.items.map copy, State.empty⟩) := by
  rw [repickledGeneric, newList, C103_construct]
  refine ⟨coerceAll_inst C _ (by intro v hv; obtain ⟨u, hu, rfl⟩ := List.mem_map.1 hv; exact h u hu), ?_⟩
  have : ord [] = [] := List.perm_nil.1 (ho [])
  simp [Slots.construct, Cls.eagerNames, this, initAll]

example (p : Nat) : repickledGeneric exItems exWorldP 1 id (· + 1) (onPage p) = some (.ok ⟨[8, 9], State.empty⟩) :=
  C103_pickle_generic exItems exWorldP 1 id (· + 1) (onPage p) (fun _ => List.Perm.refl _) (fun _ _ => rfl)

end Normalize.Props
