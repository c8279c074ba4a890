import Verif.Lemmas.Coll

/-!
# C33, C34: typed lists

`C33`: whatever is done to a `ListCollection`, its members are of the item type.
`C34`: a `ListCollection` does what a python list of the coerced items does.
-/

namespace Normalize.Coll

open Normalize.Py

variable {V K : Type} (C : CT V)

/-! ## C33 -/

/-- The items a call hands out. -/
def LRet.members : LRet V → List V
  | .item v => [v]
  | .items vs | .coll vs => vs
  | _ => []

theorem update_inst {xs : List V} (hx : AllItems C xs) {r : Except Exc (List V)}
    (h : ∀ ys, r = .ok ys → AllItems C ys) : AllItems C (update xs r).2 := by
  cases r with
  | ok ys => exact h ys rfl
  | error e => exact hx

theorem AllItems.append {xs ys : List V} (hx : AllItems C xs) (hy : AllItems C ys) : AllItems C (xs ++ ys) :=
  fun x h => (List.mem_append.1 h).elim (hx x) (hy x)

theorem assignSlice_inst {xs zs : List V} (hx : AllItems C xs) {s : Slice} {r : Except Exc (List V)}
    (hr : ∀ ys, r = .ok ys → AllItems C ys) (h : assignSlice xs s r = .ok zs) : AllItems C zs := by
  unfold assignSlice at h
  split at h
  · cases h
  · split at h
    · cases h
    · exact fun x hxz => (mem_setSlice h x hxz).elim (hx x) (hr _ rfl x)

theorem lstep_inst (h : ItemOK C) (o : LOp V) {xs : List V} (hx : AllItems C xs) :
    AllItems C (lstep C o xs).2 := by
  cases o with
  | append v =>
    unfold lstep; simp only
    split
    · next w hw =>
      exact hx.append C (fun x hxw => by rw [List.mem_singleton.1 hxw]; exact coerceValue_inst C h hw)
    · exact hx
  | extend it =>
    have := coerceIter_inst C h it.items it.raises
    unfold lstep; simp only
    split
    · next heq => rw [heq] at this; exact hx.append C this
    · next heq => rw [heq] at this; exact hx.append C this
  | setItem i v =>
    refine update_inst C hx (fun ys hys => ?_)
    unfold assignItem at hys
    split at hys
    · cases hys
    · next w hw =>
      exact fun x hxy => (mem_setItem hys x hxy).elim (hx x) (fun e => e ▸ coerceValue_inst C h hw)
  | setSlice s it => exact update_inst C hx (fun ys hys => assignSlice_inst C hx (fun _ => coerceAll_inst C h) hys)
  | delItem i => exact update_inst C hx (fun ys hys x hxy => hx x (mem_delItem hys x hxy))
  | delSlice s => exact update_inst C hx (fun ys hys x hxy => hx x (mem_delSlice hys x hxy))
  | insert i v =>
    refine update_inst C hx (fun ys hys => ?_)
    unfold insertAt at hys
    split at hys
    · cases hys
    · exact assignSlice_inst C hx (fun _ => coerceAll_inst C h) hys
  | pop i =>
    unfold lstep popAt; simp only
    split
    · exact hx
    · split
      · exact hx
      · next hd => exact fun x hxy => hx x (mem_delItem hd x hxy)
  | remove v =>
    refine update_inst C hx (fun ys hys => ?_)
    unfold removeItem at hys
    split at hys
    · cases hys
    · exact fun x hxy => hx x (mem_delItem hys x hxy)
  | reverse => exact fun x hxy => hx x (List.mem_reverse.1 hxy)
  | sort le => exact fun x hxy => hx x (List.mem_mergeSort.1 hxy)
  | _ => exact hx

theorem lrun_inst (h : ItemOK C) : ∀ (os : List (LOp V)) {xs : List V}, AllItems C xs →
    AllItems C (lrun C os xs).2
  | [], _, hx => hx
  | o :: os, _, hx => lrun_inst h os (lstep_inst C h o hx)

theorem listInit_inst (h : ItemOK C) {inp : Input V K} {xs : List V} (hx : listInit C inp = .ok xs) :
    AllItems C xs := by
  unfold listInit at hx
  split at hx
  all_goals first | (cases hx; done) | exact coerceAll_inst C h hx | (cases hx; intro x hx; cases hx)

/-- **C33** for lists: after any constructor call and any sequence of method calls, some of which may have
raised, every member is of the item type. -/
theorem C33_list (h : ItemOK C) {inp : Input V K} {xs : List V} (hx : listInit C inp = .ok xs)
    (os : List (LOp V)) : ∀ x ∈ (lrun C os xs).2, C.inst x = true :=
  lrun_inst C h os (listInit_inst C h hx)

theorem ret_ok {α : Type} {f : α → LRet V} {r : Except Exc α} {y : LRet V} (h : ret f r = .ok y) :
    ∃ a, r = .ok a ∧ f a = y := by
  cases r with
  | ok a => exact ⟨a, rfl, by cases h; rfl⟩
  | error e => cases h

theorem lstep_members (h : ItemOK C) (o : LOp V) {xs : List V} (hx : AllItems C xs) {y : LRet V}
    (hy : (lstep C o xs).1 = .ok y) : AllItems C y.members := by
  have nil : ∀ {y : LRet V}, y.members = [] → AllItems C y.members := by
    intro y hy x hx; rw [hy] at hx; cases hx
  cases o with
  | append v => unfold lstep at hy; simp only at hy; split at hy <;> cases hy; exact nil rfl
  | extend it => unfold lstep at hy; simp only at hy; split at hy <;> cases hy; exact nil rfl
  | getItem i =>
    obtain ⟨v, hv, rfl⟩ := ret_ok hy
    intro x hxm
    rw [List.mem_singleton.1 hxm]
    exact hx v (mem_getItem hv)
  | getSlice s =>
    obtain ⟨v, hv, rfl⟩ := ret_ok hy
    exact fun x hxm => hx x (mem_getSlice hv x hxm)
  | pop i =>
    unfold lstep popAt at hy; simp only at hy
    split at hy
    · cases hy
    · next hg =>
      split at hy
      · cases hy
      · cases hy
        intro x hxm
        rw [List.mem_singleton.1 hxm]
        exact hx _ (mem_getItem hg)
  | iter => cases hy; exact hx
  | index v i j => obtain ⟨v, hv, rfl⟩ := ret_ok hy; exact nil rfl
  | contains v => obtain ⟨v, hv, rfl⟩ := ret_ok hy; exact nil rfl
  | addList ys =>
    obtain ⟨v, hv, rfl⟩ := ret_ok hy
    unfold addPlain at hv
    split at hv
    · cases hv
    · exact coerceAll_inst C h hv
  | addColl ys => obtain ⟨v, hv, rfl⟩ := ret_ok hy; exact coerceAll_inst C h hv
  | setItem i v => unfold lstep update at hy; simp only at hy; split at hy <;> cases hy; exact nil rfl
  | setSlice i v => unfold lstep update at hy; simp only at hy; split at hy <;> cases hy; exact nil rfl
  | delItem i => unfold lstep update at hy; simp only at hy; split at hy <;> cases hy; exact nil rfl
  | delSlice i => unfold lstep update at hy; simp only at hy; split at hy <;> cases hy; exact nil rfl
  | insert i v => unfold lstep update at hy; simp only at hy; split at hy <;> cases hy; exact nil rfl
  | remove v => unfold lstep update at hy; simp only at hy; split at hy <;> cases hy; exact nil rfl
  | count v => cases hy; exact nil rfl
  | reverse => cases hy; exact nil rfl
  | sort le => cases hy; exact nil rfl
  | len => cases hy; exact nil rfl

/-- **C33** for what comes out: items, slices and sums handed out along the way are of the item type too. -/
theorem C33_list_results (h : ItemOK C) {inp : Input V K} {xs : List V} (hx : listInit C inp = .ok xs)
    (os : List (LOp V)) {y : LRet V} (hy : .ok y ∈ (lrun C os xs).1) : ∀ x ∈ y.members, C.inst x = true := by
  have hall := listInit_inst C h hx
  clear hx
  induction os generalizing xs with
  | nil => cases hy
  | cons o os ih =>
    rcases List.mem_cons.1 hy with hy | hy
    · exact lstep_members C h o hall hy.symm
    · exact ih hy (lstep_inst C h o hall)

/-! ## C34 -/

/-- The claim for one call. -/
def C34_statement : Prop :=
  ∀ (V : Type) (C : CT V) (o o' : LOp V) (xs : List V), ItemOK C → AllItems C xs → coerceOp C o = .ok o' →
    lstep C o xs = pyList C.eq o' xs

theorem ret'_ok {α : Type} {f : α → LOp V} {r : Except Exc α} {o : LOp V} (h : coerceOp.ret' f r = .ok o) :
    ∃ a, r = .ok a ∧ f a = o := by
  cases r with
  | ok a => exact ⟨a, rfl, by cases h; rfl⟩
  | error e => cases h

theorem getElem?_pyIndex {n : Nat} {i : Int} {k : Nat} (h : pyIndex n i = some k) : k < n := by
  unfold pyIndex at h
  split at h
  · split at h
    · cases h; omega
    · cases h
  · split at h
    · cases h; omega
    · cases h

theorem pyIndex_clamp {n : Nat} {i : Int} (h : -(n : Int) ≤ i) : pyIndex n (clamp n i : Nat) = pyIndex n i := by
  by_cases h0 : i < 0
  · have h1 : clamp n i = (i + n).toNat := if_pos h0
    rw [h1]
    unfold pyIndex
    rw [if_pos (by omega), if_neg (show ¬ 0 ≤ i by omega), if_pos (show 0 ≤ i + (n : Int) by omega),
      if_pos (by omega)]
    rfl
  · have h1 : clamp n i = i.toNat := if_neg h0
    rw [h1, show ((i.toNat : Nat) : Int) = i by omega]

/-- **C34**, except for `insert`, `pop` before the start, and `index` with a bound past the end. -/
theorem C34_partial (h : ItemOK C) {o o' : LOp V} {xs : List V} (hx : AllItems C xs)
    (ho : coerceOp C o = .ok o') (ha : Agrees o xs) : lstep C o xs = pyList C.eq o' xs := by
  cases o with
  | append v => obtain ⟨w, hw, rfl⟩ := ret'_ok ho; simp [lstep, hw, pyList]
  | extend it =>
    obtain ⟨w, hw, rfl⟩ := ret'_ok ho
    simp only [lstep, coerceIter_ok C it.raises hw, pyList]
    cases it.raises <;> rfl
  | setItem i v =>
    obtain ⟨w, hw, rfl⟩ := ret'_ok ho
    simp only [lstep, hw, pyList, assignItem]
    cases Py.setItem xs i w <;> rfl
  | setSlice s it =>
    obtain ⟨w, hw, rfl⟩ := ret'_ok ho
    simp only [lstep, pyList, assignSlice, coerceAll, coerceIter_ok C it.raises hw]
    split
    · rfl
    · cases it.raises with
      | none => simp only; cases Py.setSlice xs s w <;> rfl
      | some e => rfl
  | insert i v => exact ha.elim
  | contains v =>
    obtain ⟨w, hw, rfl⟩ := ret'_ok ho
    simp [lstep, hw, pyList, containsItem, pureRet, ret]
  | addList ys =>
    obtain ⟨w, hw, rfl⟩ := ret'_ok ho
    simp only [lstep, pyList, addPlain, coerceAll_list, hw,
      mapE_of_all C (hx.append C (mapE_all_inst C h hw)), pureRet, ret]
  | addColl ys =>
    obtain ⟨w, hw, rfl⟩ := ret'_ok ho
    have : mapE (coerceValue C) (xs ++ ys) = .ok (xs ++ w) := by
      rw [mapE_append, mapE_of_all C hx, hw]
    simp only [lstep, pyList, coerceAll_list, this, pureRet, ret]
  | delItem i => cases ho; simp only [lstep, pyList]; cases Py.delItem xs i <;> rfl
  | delSlice i => cases ho; simp only [lstep, pyList]; cases Py.delSlice xs i <;> rfl
  | pop i =>
    cases ho
    have hi : -(xs.length : Int) ≤ i := ha
    simp only [lstep, pyList, popAt, Py.getItem, Py.delItem, pyIndex_clamp hi]
    cases hp : pyIndex xs.length i with
    | none => rfl
    | some k =>
      simp only
      cases xs[k]? <;> rfl
  | remove v =>
    cases ho
    simp only [lstep, pyList, removeItem, index_pyFind C xs v 0 none (by simp)]
    cases hf : pyFind C.eq xs v 0 none with
    | none => rfl
    | some k =>
      have hk : k < xs.length := List.mem_range.1 (List.mem_of_find?_eq_some hf)
      simp only [Py.delItem, pyIndex]
      rw [if_pos (by omega), if_pos (by omega)]
      rfl
  | index v i j =>
    cases ho
    have hj : ∀ j', j = some j' → j' ≤ xs.length := by
      rintro j' rfl; exact ha
    simp only [lstep, pyList, index_pyFind C xs v i j hj]
    cases pyFind C.eq xs v i j <;> rfl
  | count v => cases ho; simp only [lstep, pyList, pureRet, List.countP_eq_length_filter]
  | _ => cases ho; rfl

/-- **C34** for construction: the items in the order given (a mapping gives its values in the order of its
sorted keys), each coerced; a string or an object without items is refused, and one bad item or an exception
of the iterator makes the whole call fail. -/
theorem C34_construction (vs : List V) (r : Option Exc) (kvs kvs' : List (K × V))
    (ps : List (V × Option (K × V))) (hps : ps.map (·.1) = vs) (es : Option (List (K × V))) :
    listInit (K := K) C (.seq vs) = mapE (coerceValue C) vs ∧
    listInit C (.mapping kvs (some kvs')) = mapE (coerceValue C) (kvs'.map (·.2)) ∧
    listInit C (.iterator ps r) = (match r, mapE (coerceValue C) vs with
      | none, m => m | some e, .ok _ => .error e | some _, .error e => .error e) ∧
    listInit C (.iterable ⟨vs, r⟩ es) = (match r, mapE (coerceValue C) vs with
      | none, m => m | some e, .ok _ => .error e | some _, .error e => .error e) ∧
    listInit (K := K) C .str = .error .collectionCoerce ∧
    listInit (K := K) C (.other false) = .error .collectionCoerce ∧
    listInit (K := K) C (.other true) = .ok [] := by
  have key : coerceAll C ⟨vs, r⟩ = (match r, mapE (coerceValue C) vs with
      | none, m => m | some e, .ok _ => .error e | some _, .error e => .error e) := by
    cases r with
    | none => simp only [coerceAll_list]
    | some e =>
      cases hm : mapE (coerceValue C) vs with
      | ok ws => simp only [coerceAll, coerceIter_ok C (some e) hm]
      | error e' =>
        obtain ⟨_, _, _, _, _, _, _, h4⟩ := coerceIter_error C (some e) hm
        simp only [coerceAll, h4]
  refine ⟨coerceAll_list C vs, coerceAll_list C _, ?_, key, rfl, rfl, rfl⟩
  rw [← key, ← hps]
  rfl

/-- A history on a python list. -/
def pyRun (eq : V → V → Bool) : List (LOp V) → List V → List (Except Exc (LRet V)) × List V
  | [], xs => ([], xs)
  | o :: os, xs => ((pyList eq o xs).1 :: (pyRun eq os (pyList eq o xs).2).1, (pyRun eq os (pyList eq o xs).2).2)

/-- Every call of a history on a python list is one on which the two agree. -/
def AgreesRun (eq : V → V → Bool) : List (LOp V) → List V → Prop
  | [], _ => True
  | o :: os, xs => Agrees o xs ∧ AgreesRun eq os (pyList eq o xs).2

theorem agrees_coerceOp {o o' : LOp V} (h : coerceOp C o = .ok o') (xs : List V) :
    Agrees o' xs ↔ Agrees o xs := by
  cases o <;> first | (cases h; rfl) | (obtain ⟨w, _, rfl⟩ := ret'_ok h; rfl)

/-- **C34** over a whole history: the same results and exceptions in the same order, and the same contents
at the end. -/
theorem C34_history_partial (h : ItemOK C) : ∀ {os os' : List (LOp V)} {xs : List V}, AllItems C xs →
    mapE (coerceOp C) os = .ok os' → AgreesRun C.eq os' xs → lrun C os xs = pyRun C.eq os' xs
  | [], os', xs, _, ho, _ => by cases ho; rfl
  | o :: os, os', xs, hx, ho, ha => by
    unfold mapE at ho
    split at ho
    · cases ho
    · next o' ho1 =>
      split at ho
      · cases ho
      · next os'' ho2 =>
        cases ho
        have h1 := C34_partial C h hx ho1 ((agrees_coerceOp C ho1 xs).1 ha.1)
        have hx' := lstep_inst C h o hx
        rw [h1] at hx'
        have ih := C34_history_partial h hx' ho2 ha.2
        simp only [lrun, pyRun, h1, ih]

/-- An item that cannot be coerced: the call raises.  `extend` has by then appended the items before it;
every other call leaves the list as it was. -/
theorem C34_uncoercible {o : LOp V} {xs : List V} {e : Exc} (ho : coerceOp C o = .error e)
    (hi : ∀ i v, o ≠ .insert i v) :
    (∃ e', (lstep C o xs).1 = .error e') ∧
    ((lstep C o xs).2 = xs ∨
      ∃ it pre x post ws, o = .extend it ∧ it.items = pre ++ x :: post ∧ mapE (coerceValue C) pre = .ok ws ∧
        coerceValue C x = .error (badItem C) ∧ (lstep C o xs).2 = xs ++ ws) := by
  have ret'_error : ∀ {α : Type} {f : α → LOp V} {r : Except Exc α}, coerceOp.ret' f r = .error e →
      r = .error e := by
    intro α f r h; cases r with
    | ok a => cases h
    | error e => cases h; rfl
  cases o with
  | append v => have := ret'_error ho; simp [lstep, this]
  | extend it =>
    obtain ⟨pre, x, post, ws, h1, h2, h3, h4⟩ := coerceIter_error C it.raises (ret'_error ho)
    have := coerceValue_error C h3
    subst this
    refine ⟨⟨_, by simp only [lstep, h4]; rfl⟩, .inr ⟨it, pre, x, post, ws, rfl, h1, h2, h3, ?_⟩⟩
    simp only [lstep, h4]
  | setItem i v => have := ret'_error ho; simp [lstep, this, assignItem, update]
  | setSlice s it =>
    obtain ⟨pre, x, post, ws, h1, h2, h3, h4⟩ := coerceIter_error C it.raises (ret'_error ho)
    simp only [lstep, coerceAll, h4, assignSlice]
    split <;> simp [update]
  | insert i v => exact (hi i v rfl).elim
  | contains v => have := ret'_error ho; simp [lstep, this, containsItem, pureRet, ret]
  | addList ys => have := ret'_error ho; simp [lstep, coerceAll_list, this, addPlain, pureRet, ret]
  | addColl ys =>
    have := ret'_error ho
    have h2 : ∃ e', mapE (coerceValue C) (xs ++ ys) = .error e' := by
      rw [mapE_append, this]
      cases mapE (coerceValue C) xs with
      | ok a => exact ⟨_, rfl⟩
      | error e => exact ⟨_, rfl⟩
    obtain ⟨e', h2⟩ := h2
    simp [lstep, coerceAll_list, h2, pureRet, ret]
  | _ => cases ho

end Normalize.Coll

namespace Normalize.Coll

open Normalize.Py

variable {V K : Type} (C : CT V)

/-! ## `coll.extend(coll)` -/

/-- `extend` with the collection itself (coll.py:347-351 with 108-111): the generator reads the very list
that `list.extend` is appending to.  `none` when the given number of rounds was not enough. -/
def extendSelf : Nat → Nat → List V → Option (Except Exc (LRet V) × List V)
  | 0, _, _ => none
  | n + 1, k, xs =>
    match xs[k]? with
    | none => some (.ok .unit, xs)
    | some v =>
      match coerceValue C v with
      | .error e => some (.error e, xs)
      | .ok w => extendSelf n (k + 1) (xs ++ [w])

/-- Unlike `l.extend(l)`, `coll.extend(coll)` never ends unless `coll` is empty. -/
theorem C34_extend_self_violated {xs : List V} (hx : AllItems C xs) (h0 : xs ≠ []) (n : Nat) :
    extendSelf C n 0 xs = none := by
  have key : ∀ (n k : Nat) (ys : List V), AllItems C ys → k < ys.length → extendSelf C n k ys = none := by
    intro n
    induction n with
    | zero => intros; rfl
    | succ n ih =>
      intro k ys hy hk
      have hm : ys[k] ∈ ys := List.getElem_mem hk
      simp only [extendSelf, List.getElem?_eq_getElem hk, coerceValue_of_inst C (hy _ hm)]
      refine ih _ _ (hy.append C (fun x hx => ?_)) (by simp; omega)
      rw [List.mem_singleton.1 hx]; exact hy _ hm
  exact key n 0 xs hx (List.length_pos_iff.2 h0)

/-! ## Examples -/

namespace Demo

/-- Numbers, and lists of numbers, which are iterable; a one-item list can be coerced to its number. -/
abbrev W := Nat ⊕ List Nat

/-- A collection of numbers. -/
def nums : CT W where
  inst | .inl _ => true | .inr _ => false
  coerce | .inr [n] => .ok (.inl n) | .inl n => .ok (.inl n) | _ => .error .typeError
  eq a b := decide (a = b)
  iterOf | .inr l => some ⟨l.map .inl, none⟩ | .inl _ => none

theorem nums_ok : ItemOK nums := by
  intro v w h
  rcases v with n | l
  · cases h; rfl
  · rcases l with _ | ⟨n, _ | ⟨m, l⟩⟩
    · cases h
    · cases h; rfl
    · cases h

/-- A history with an exception in the middle, run on `NumList([1, [2]])`. -/
example :
    listInit (K := Nat) nums (.seq [.inl 1, .inr [2]]) = .ok [.inl 1, .inl 2] ∧
    (lrun nums [.append (.inr [3]), .extend ⟨[.inl 4, .inr [], .inl 5], none⟩, .pop (-2),
      .setSlice ⟨none, none, some 2⟩ ⟨[.inr [7], .inl 8], none⟩, .index (.inl 8) 0 none]
      [.inl 1, .inl 2]) =
      ([.ok .unit, .error .collectionItemCoerce, .ok (.item (.inl 3)), .ok .unit, .ok (.nat 2)],
        [.inl 7, .inl 2, .inl 8]) := by
  constructor <;> rfl

/-- The hypotheses of `C34_history_partial` for such a history. -/
example : ∃ os', mapE (coerceOp nums) [.append (.inr [3]), .pop (-2), .index (.inl 3) 0 (some 2),
      .addList [.inr [9]], .setItem 7 (.inl 0)] = .ok os' ∧
    AgreesRun nums.eq os' [.inl 1, .inl 2] := by
  refine ⟨[.append (.inl 3), .pop (-2), .index (.inl 3) 0 (some 2), .addList [.inl 9], .setItem 7 (.inl 0)],
    rfl, ?_⟩
  refine ⟨trivial, ?_, ?_, trivial, trivial, trivial⟩
  · show -((_ : Nat) : Int) ≤ -2; decide
  · show (2 : Int) ≤ ((_ : Nat) : Int); decide

/-- `C34_uncoercible` is about something. -/
example : coerceOp nums (.extend ⟨[.inl 4, .inr [], .inl 5], none⟩) = .error .collectionItemCoerce := rfl

/-- `C34_extend_self_violated` too. -/
example : AllItems nums [.inl 1] ∧ extendSelf nums 100 0 [.inl 1] = none := by
  have h : AllItems nums [Sum.inl 1] := by intro x hx; rw [List.mem_singleton.1 hx]; rfl
  exact ⟨h, C34_extend_self_violated nums h (by simp) 100⟩

end Demo

/-- **C34** fails as stated: `insert(0, 5)` raises instead of inserting 5. -/
theorem C34_violated : ¬ C34_statement := by
  intro h
  have := h _ Demo.nums (.insert 0 (.inl 5)) (.insert 0 (.inl 5)) [] Demo.nums_ok
    (by intro x hx; cases hx) rfl
  cases this

/-- … `pop(-5)` of a two item collection takes the first item instead of raising … -/
theorem C34_violated_pop : ∃ xs : List Demo.W, AllItems Demo.nums xs ∧
    (lstep Demo.nums (.pop (-5)) xs).1 = .ok (.item (.inl 1)) ∧
    (pyList Demo.nums.eq (.pop (-5)) xs).1 = .error .indexError :=
  ⟨[.inl 1, .inl 2], by intro x hx; simp at hx; rcases hx with rfl | rfl <;> rfl, rfl, rfl⟩

/-- … and `index(x, 0, 9)` runs past the end: `IndexError` where a list raises `ValueError`. -/
theorem C34_violated_index : ∃ xs : List Demo.W, AllItems Demo.nums xs ∧
    (lstep Demo.nums (.index (.inl 7) 0 (some 9)) xs).1 = .error .indexError ∧
    (pyList Demo.nums.eq (.index (.inl 7) 0 (some 9)) xs).1 = .error .valueError :=
  ⟨[.inl 1, .inl 2], by intro x hx; simp at hx; rcases hx with rfl | rfl <;> rfl, rfl, rfl⟩

/-- What `insert` does instead: it inserts the coerced items *of* `x`, at the place where a list would put
`x`. -/
theorem C34_insert {xs ws : List V} {i : Int} {v : V} {it : Iter V} (hv : C.iterOf v = some it)
    (hw : coerceAll C it = .ok ws) :
    lstep C (.insert i v) xs =
      (.ok .unit, xs.take (insertPos xs.length i) ++ ws ++ xs.drop (insertPos xs.length i)) := by
  have hfirst : ∀ n : Nat, ((Slice.mk (some (clamp n i : Nat)) (some (clamp n i : Nat)) none).first n).toNat =
      insertPos n i := by
    intro n
    simp only [Slice.first, Slice.stride, adjust, insertPos, clamp, Option.getD_none]
    split <;> split <;> (try split) <;> (try split) <;> simp_all <;> omega
  have hlast : ∀ n : Nat, ((Slice.mk (some (clamp n i : Nat)) (some (clamp n i : Nat)) none).last n).toNat =
      insertPos n i := fun n => hfirst n
  have hstride : (Slice.mk (some (clamp xs.length i : Nat)) (some (clamp xs.length i : Nat)) none).stride = 1 :=
    rfl
  simp only [lstep, insertAt, hv, hw, assignSlice, Py.setSlice, hstride, hfirst, hlast, Nat.max_self]
  rfl

end Normalize.Coll
