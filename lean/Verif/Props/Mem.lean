import Verif.Lemmas.MemPatch

/-!
# C93-C95: which objects an operation can change

C93: writing through a selector changes the record and its parts and nothing else.
C94: reading changes nothing, and a filtered copy has nothing in common with the original.
C95: patching with copies leaves the source alone, and patching without can change it.
-/

namespace Normalize.Mem

open Normalize.Spec

/-! ## An example -/

/-- A new record. -/
def exNew (cls : String) (m : Mem) (kw : List (String × Ref)) : Except Exc (Mem × Ref) :=
  .ok (alloc m (.rcd cls kw))

/-- A property of any type; missing ones are made. -/
def exAttr : Attr where
  assign m _ v := .ok (m, some v)
  remove _ _ := .ok ()
  unset := none
  make := some (fun m kw => exNew "P" m kw.toList)

/-- Classes whose properties take anything; an item of a collection is copied if it is a list. -/
def exEnv : Env where
  attr _ nm := if nm = "plain" then none else some exAttr
  coerceItem _ m v :=
    match deref m v with
    | .list xs => .ok (alloc m (.list xs))
    | _ => .ok (m, v)
  makeItem _ m kw := exNew "P" m kw.toList
  rcd := exNew
  atom a := .ok a

theorem makes_same (m : Mem) (args res : List Ref) (h : ∀ r ∈ res, r ∈ args) : Makes m args m res :=
  ⟨Nat.le_refl _, fun _ _ => rfl, fun r hr _ hl => Or.inr ⟨r, h r hr, hl⟩⟩

theorem makes_new {m m' : Mem} {cls : String} {kw : List (String × Ref)} {v : Ref} (hk : ∀ e ∈ kw, Exist m e.2)
    (h : exNew cls m kw = .ok (m', v)) : Makes m (kw.map (·.2)) m' [v] := by
  injection h with h
  have := makes_alloc (m := m) (o := .rcd cls kw) (by
    intro k hk'
    obtain ⟨e, he, rfl⟩ := List.mem_map.mp hk'
    exact hk e he)
  rw [h] at this
  exact this

theorem ex_polite : Polite exEnv where
  coerceItem cls m v m' v' hv h := by
    simp only [exEnv] at h
    split at h
    · rename_i xs hd
      injection h with h
      have hk : ∀ k ∈ kids (deref m v), Exist m k := fun k hk => exist_kid hv hk
      have hmk := makes_alloc (m := m) (o := .list xs) (by rw [hd] at hk; exact hk)
      rw [h] at hmk
      refine ⟨hmk.1, hmk.2.1, ?_⟩
      intro r hr l hp
      rcases hmk.2.2 r hr l hp with h | ⟨a, ha, hp'⟩
      · exact Or.inl h
      · refine Or.inr ⟨v, by simp, ?_⟩
        have ha' : a ∈ kids (deref m v) := by rw [hd]; exact ha
        exact (reg_part hv).part (deref_kids (reg_part hv) (in_part v) a ha') hp'
    · injection h with h
      injection h with h1 h2
      subst h1; subst h2
      exact makes_same m _ _ (by simp)
  makeItem cls m kw m' v' hk h := makes_new (by simpa using hk) h
  assign cls nm a m s v m' s' ha hs hv h := by
    simp only [exEnv] at ha
    split at ha
    · cases ha
    · injection ha with ha; subst ha
      injection h with h; injection h with h1 h2
      subst h1; subst h2
      exact makes_same m _ _ (by simp)
  make cls nm a f m kw m' v' ha hf hk h := by
    simp only [exEnv] at ha
    split at ha
    · cases ha
    · injection ha with ha; subst ha
      simp only [exAttr, Option.some.injEq] at hf
      subst hf
      exact makes_new (by simpa using hk) h
  rcd cls m kw m' v' hk h := makes_new hk h

/-- Two records that share a list of two records, a third record, and a collection of lists. -/
def exMem : Mem :=
  [.rcd "P" [("a", .ptr 1), ("n", .atom (.int 1))], .list [.ptr 3, .ptr 4],
   .rcd "P" [("a", .ptr 1), ("b", .ptr 5)],
   .rcd "P" [("n", .atom (.int 2))], .rcd "P" [("n", .atom (.int 3))],
   .rcd "P" [("n", .atom (.int 4))], .lcoll "C" [.ptr 7], .list [.ptr 3]]

/-- A memory in which all references lead somewhere. -/
def closedB (m : Mem) : Bool :=
  m.all (fun o => (kids o).all (fun k => match k with | .atom _ => true | .ptr l => decide (l < m.length)))

theorem exist_closed {m : Mem} (h : closedB m = true) {r : Ref} (hr : ∀ l, r = .ptr l → l < m.length) : Exist m r := by
  intro l hl
  refine part_in (A := fun l => l < m.length) hl ?_ ?_
  · intro l o _ ho k hk
    have h1 := List.all_eq_true.mp h o (List.mem_of_getElem? ho)
    have h2 := List.all_eq_true.mp h1 k hk
    cases k with
    | atom a => trivial
    | ptr l => show l < m.length; exact of_decide_eq_true h2
  · cases r with
    | atom a => trivial
    | ptr l => exact hr l rfl

/-- All references stay on one side. -/
def splitB (m : Mem) (B : Nat → Bool) : Bool :=
  (List.range m.length).all (fun l => (m[l]?).toList.all (fun o =>
    (kids o).all (fun k => match k with | .atom _ => true | .ptr l' => B l' == B l)))

/-- Objects on different sides of a memory. -/
theorem separate_by {m : Mem} (B : Nat → Bool) (hB : splitB m B = true) {r s : Ref}
    (hr : ∀ l, r = .ptr l → B l = true) (hs : ∀ l, s = .ptr l → B l = false) : Separate m r s := by
  have h : ∀ l o, m[l]? = some o → ∀ k ∈ kids o, ∀ l', k = .ptr l' → B l' = B l := by
    intro l o ho k hk l' e
    have h1 := List.all_eq_true.mp hB l (List.mem_range.mpr (List.getElem?_eq_some_iff.mp ho).1)
    have h2 := List.all_eq_true.mp h1 o (by rw [ho]; simp)
    have h3 := List.all_eq_true.mp h2 k hk
    subst e
    simpa using h3
  rintro l ⟨h1, h2⟩
  have hB1 : B l = true := part_in (A := fun l => B l = true) h1
    (fun l o hl ho k hk => by
      cases k with
      | atom a => trivial
      | ptr l' => exact (h l o ho _ hk l' rfl).trans hl)
    (by cases r with
      | atom a => trivial
      | ptr l => exact hr l rfl)
  have hB2 : B l = false := part_in (A := fun l => B l = false) h2
    (fun l o hl ho k hk => by
      cases k with
      | atom a => trivial
      | ptr l' => exact (h l o ho _ hk l' rfl).trans hl)
    (by cases s with
      | atom a => trivial
      | ptr l => exact hs l rfl)
  rw [hB1] at hB2; cases hB2

/-! ## C93: writing -/

theorem write_steps {E : Env} (hE : Polite E) (w : Write) {x : Ref} {m : Mem} {A : Nat → Prop} (hA : Reg m A)
    (hv : In A w.value) (hx : In A x) : ∃ G, Steps A A m (w.after E x m) G := by
  cases w with
  | put p v => exact put_steps hE p v x m A hA hv hx
  | post p v => exact post_steps hE v p x m A hA hv hx
  | delete p => exact delete_steps E p x m A hA trivial hx

theorem writes_steps {E : Env} (hE : Polite E) {x : Ref} (ws : List Write) : ∀ (m : Mem) (A : Nat → Prop), Reg m A →
    (∀ w ∈ ws, In A w.value) → In A x → ∃ G, Steps A A m (writes E x m ws) G := by
  induction ws with
  | nil => intro m A hA _ _; exact ⟨A, Steps.refl hA⟩
  | cons w ws ih =>
    intro m A hA hv hx
    obtain ⟨G1, h1⟩ := write_steps hE w hA (hv w (by simp)) hx
    obtain ⟨G, h2⟩ := ih _ G1 h1.reg (fun w' hw => (hv w' (by simp [hw])).mono h1.sub) (hx.mono h1.sub)
    exact ⟨G, h1.then h2⟩

/-- The parts of the record and of the values to be written. -/
theorem reg_writes {m : Mem} {x : Ref} {ws : List Write} (hx : Exist m x) (hv : ∀ w ∈ ws, Exist m w.value) :
    Reg m (fun l => PartOf m x l ∨ ∃ w ∈ ws, PartOf m w.value l) where
  bdd l h := h.elim (hx l) (fun ⟨w, hw, hp⟩ => hv w hw l hp)
  closed l o h ho k hk := by
    rcases h with h | ⟨w, hw, hp⟩
    · exact in_of_parts (fun l' hl' => Or.inl (part_trans h ho hk hl'))
    · exact in_of_parts (fun l' hl' => Or.inr ⟨w, hw, part_trans hp ho hk hl'⟩)

/-- C93: however often a record is written to, and whether or not there are exceptions, an object that has
nothing in common with the record and with the values written stays what it was, with all its parts, and has
nothing in common with the record afterwards. -/
theorem C93 {E : Env} (hE : Polite E) {m : Mem} {x : Ref} {ws : List Write} (hx : Exist m x)
    (hv : ∀ w ∈ ws, Exist m w.value) {other : Ref} (ho : Exist m other) (hs : Separate m x other)
    (hsv : ∀ w ∈ ws, Separate m w.value other) :
    Intact m (writes E x m ws) other ∧ Separate (writes E x m ws) x other := by
  obtain ⟨G, h⟩ := writes_steps hE ws m _ (reg_writes hx hv)
    (fun w hw => in_of_parts (fun l hl => Or.inr ⟨w, hw, hl⟩)) (in_of_parts (fun l hl => Or.inl hl))
  have hdis : ∀ l, PartOf m other l → ¬ (PartOf m x l ∨ ∃ w ∈ ws, PartOf m w.value l) := by
    rintro l hl (h | ⟨w, hw, h⟩)
    · exact hs l ⟨h, hl⟩
    · exact hsv w hw l ⟨h, hl⟩
  have hi : Intact m (writes E x m ws) other := fun l hl => h.frame l (ho l hl) (hdis l hl)
  refine ⟨hi, ?_⟩
  rintro l ⟨h1, h2⟩
  have h2' := (part_intact hi).mp h2
  exact hdis l h2' (h.old l (h.reg.part (In.mono h.sub (in_of_parts (fun l hl => Or.inl hl))) h1) (ho l h2'))

/-- C93: `post` and `delete` change no existing object that is not part of the record; not the value either. -/
theorem C93_post {E : Env} (hE : Polite E) {m : Mem} {p : FS} {v x : Ref} (hx : Exist m x) (hv : Exist m v) {l : Nat}
    (hl : l < m.length) (hn : ¬ PartOf m x l) : (post E p v x m).2[l]? = m[l]? :=
  post_frame hE v p x m (PartOf m x) (fun l => PartOf m x l ∨ PartOf m v l) (reg_part hx) (in_part x)
    (reg_or (reg_part hx) (reg_part hv)) ((in_part v).mono (fun _ => Or.inr)) ((in_part x).mono (fun _ => Or.inl))
    l hl hn

theorem C93_delete {E : Env} {m : Mem} {p : FS} {x : Ref} (hx : Exist m x) {l : Nat} (hl : l < m.length)
    (hn : ¬ PartOf m x l) : (delete E p x m).2[l]? = m[l]? := by
  obtain ⟨G, h⟩ := delete_steps E p x m _ (reg_part hx) trivial (in_part x)
  exact h.frame l hl hn

theorem store_length (m : Mem) (r : Ref) (o : Obj) : (store m r o).length = m.length := by
  cases r <;> simp [store]

theorem delete1_length {E : Env} {c : Comp} {x : Ref} {m : Mem} : (delete1 E c x m).2.length = m.length := by
  unfold delete1
  split
  · split
    · exact store_length _ _ _
    · unfold delItem
      split
      · split
        · exact store_length _ _ _
        · rfl
      · split
        · exact store_length _ _ _
        · rfl
      · split
        · exact store_length _ _ _
        · rfl
      · split
        · exact store_length _ _ _
        · rfl
      · rfl
  · split
    · split
      · unfold delAttr
        split
        · split
          · exact store_length _ _ _
          · split
            · rfl
            · exact store_length _ _ _
        · rfl
      · rfl
      · rfl
    · rfl

/-- C93: without `None` before its last component, `put` changes one object only, the one which `get` finds
without the last component. -/
theorem C93_one {E : Env} (hE : Polite E) {v : Ref} (p : FS) : ∀ {m : Mem} {x : Ref}, Exist m x → Exist m v →
    (∀ c ∈ p.dropLast, c ≠ .none) → OnlyNew m (put E p v x m).2 ∨
      ∃ l, get E p.dropLast x m = .ok (m, .ptr l) ∧
        ∀ l', l' < m.length → l' ≠ l → (put E p v x m).2[l']? = m[l']? := by
  induction p with
  | nil => intro m x _ _ _; exact Or.inl (fun _ _ => rfl)
  | cons c p ih =>
    intro m x hx hv hp
    cases p with
    | nil =>
      have : put E [c] v x m = put1 E c v x m := by cases c <;> rfl
      rw [this]
      obtain ⟨G, h⟩ := put1_steps hE (c := c) (reg_or (reg_part hx) (reg_part hv))
        ((in_part x).mono (fun _ => Or.inl)) ((in_part v).mono (fun _ => Or.inr))
      cases x with
      | atom a => exact Or.inl (fun l hl => h.frame l hl (fun e => nomatch e))
      | ptr l => exact Or.inr ⟨l, rfl, fun l' hl hne => h.frame l' hl (fun e => by cases e; exact hne rfl)⟩
    | cons d p =>
      have hc : c ≠ .none := hp c (by simp)
      have hput : put E (c :: d :: p) v x m = match stepPut E (deref m x) c with
          | .error e => (.error e, m)
          | .ok y => put E (d :: p) v y m := by
        cases c with
        | none => exact absurd rfl hc
        | int i => rfl
        | str i => rfl
      have hget : get E ((c :: d :: p).dropLast) x m = match step E (deref m x) c with
          | .error e => .error e
          | .ok y => get E ((d :: p).dropLast) y m := by
        simp only [List.dropLast_cons_cons]
        cases c with
        | none => exact absurd rfl hc
        | int i => rfl
        | str i => rfl
      rw [hput, hget]
      cases hst : stepPut E (deref m x) c with
      | error e => exact Or.inl (fun _ _ => rfl)
      | ok y =>
        rw [step_iff_stepPut.mpr hst]
        have hy : Exist m y := (reg_part hx).exist
          (step_in (step_iff_stepPut.mpr hst) (deref_kids (reg_part hx) (in_part x)))
        exact ih hy hv (fun c' hc' => hp c' (by simp only [List.dropLast_cons_cons]; exact List.mem_cons_of_mem _ hc'))

/-- C93: the same for `delete`. -/
theorem C93_delete_one {E : Env} (p : FS) : ∀ {m : Mem} {x : Ref}, Exist m x →
    (∀ c ∈ p.dropLast, c ≠ .none) → (delete E p x m).2 = m ∨
      ∃ l, get E p.dropLast x m = .ok (m, .ptr l) ∧
        ∀ l', l' ≠ l → (delete E p x m).2[l']? = m[l']? := by
  induction p with
  | nil => intro m x _ _; exact Or.inl rfl
  | cons c p ih =>
    intro m x hx hp
    cases p with
    | nil =>
      have : delete E [c] x m = delete1 E c x m := by cases c <;> rfl
      rw [this]
      have h := delete1_steps (E := E) (c := c) (reg_part hx) (in_part x)
      have hlen : (delete1 E c x m).2.length = m.length := delete1_length
      cases x with
      | atom a => exact Or.inl (List.ext_getElem? (fun l => by
          by_cases hl : l < m.length
          · exact h.frame l hl (fun e => nomatch e)
          · rw [List.getElem?_eq_none (by omega), List.getElem?_eq_none (by omega)]))
      | ptr l => exact Or.inr ⟨l, rfl, fun l' hne => by
          by_cases hl : l' < m.length
          · exact h.frame l' hl (fun e => by cases e; exact hne rfl)
          · rw [List.getElem?_eq_none (by omega), List.getElem?_eq_none (by omega)]⟩
    | cons d p =>
      have hc : c ≠ .none := hp c (by simp)
      have hdel : delete E (c :: d :: p) x m = match step E (deref m x) c with
          | .error e => (.error e, m)
          | .ok y => delete E (d :: p) y m := by
        cases c with
        | none => exact absurd rfl hc
        | int i => rfl
        | str i => rfl
      have hget : get E ((c :: d :: p).dropLast) x m = match step E (deref m x) c with
          | .error e => .error e
          | .ok y => get E ((d :: p).dropLast) y m := by
        simp only [List.dropLast_cons_cons]
        cases c with
        | none => exact absurd rfl hc
        | int i => rfl
        | str i => rfl
      rw [hdel, hget]
      cases hst : step E (deref m x) c with
      | error e => exact Or.inl rfl
      | ok y =>
        have hy : Exist m y := (reg_part hx).exist
          (step_in hst (deref_kids (reg_part hx) (in_part x)))
        exact ih hy (fun c' hc' => hp c' (by simp only [List.dropLast_cons_cons]; exact List.mem_cons_of_mem _ hc'))

/-- C93, the value: `put` does not change the value, if it has nothing in common with the record. -/
def C93_value_statement : Prop :=
  ∀ (E : Env) (m : Mem) (p : FS) (v x : Ref), Polite E → Exist m x → Exist m v → Separate m x v →
    Intact m (put E p v x m).2 v

/-- A list of two records, of which the second is also a part of the first, and another record. -/
def exAlias : Mem :=
  [.list [.ptr 1, .ptr 2], .rcd "P" [("a", .ptr 2)], .rcd "P" [("a", .atom .none)], .rcd "P" []]

/-- C93 fails for a selector with `None`, if an item is part of another one: the value is put into the part
of the first item, which is the second item, and is then in the way when the second item is written to.  So it
becomes a part of itself. -/
theorem C93_value_violated : ¬ C93_value_statement := by
  intro h
  have hi := h exEnv exAlias [.none, .str "a", .str "a"] (.ptr 3) (.ptr 0) ex_polite
    (exist_closed (by decide +kernel) (by intro l e; cases e; decide +kernel))
    (exist_closed (by decide +kernel) (by intro l e; cases e; decide +kernel))
    (separate_by (fun l => decide (l < 3)) (by decide +kernel)
      (by intro l e; cases e; decide +kernel) (by intro l e; cases e; decide +kernel))
  have := hi 3 .self
  revert this
  decide +kernel

/-- C93 does apply: the shared list of two records is written to by the first of them; the third record is not
affected. -/
example : Intact exMem (writes exEnv (.ptr 0) exMem [.put [.str "a", .none, .str "n"] (.atom (.int 9)),
    .delete [.str "a", .int 0], .post [.str "c", .str "n"] (.atom (.int 5))]) (.ptr 5) :=
  (C93 ex_polite (exist_closed (by decide +kernel) (by intro l e; cases e; decide +kernel))
    (by
      intro w hw
      simp only [List.mem_cons, List.not_mem_nil, or_false] at hw
      rcases hw with rfl | rfl | rfl <;> (intro l hl; cases hl))
    (exist_closed (by decide +kernel) (by intro l e; cases e; decide +kernel))
    (by
      rintro l ⟨h1, h2⟩
      have : l = 5 := part_in (A := fun l => l = 5) h2
        (by intro l o e ho k hk; subst e; cases ho; simp [kids] at hk; subst hk; trivial) rfl
      subst this
      have : (5 : Nat) ∈ [0, 1, 3, 4] := part_in (A := fun l => l ∈ [0, 1, 3, 4]) h1
        (by
          intro l o e ho k hk
          simp only [List.mem_cons, List.not_mem_nil, or_false] at e
          rcases e with rfl | rfl | rfl | rfl <;> cases ho <;> simp [kids] at hk
          · rcases hk with rfl | rfl
            · show (1 : Nat) ∈ _; decide
            · trivial
          · rcases hk with rfl | rfl
            · show (3 : Nat) ∈ _; decide
            · show (4 : Nat) ∈ _; decide
          · subst hk; trivial
          · subst hk; trivial) (by show (0 : Nat) ∈ _; decide)
      revert this; decide)
    (by
      intro w hw l ⟨h1, _⟩
      simp only [List.mem_cons, List.not_mem_nil, or_false] at hw
      rcases hw with rfl | rfl | rfl <;> cases h1)).1

/-- The second record sees what was written to the first, as they share the list. -/
example : (get exEnv [.str "a", .int 0, .str "n"] (.ptr 2)
    (writes exEnv (.ptr 0) exMem [.put [.str "a", .none, .str "n"] (.atom (.int 9)), .delete [.str "a", .int 0]])).toOption.map
      (·.2) = some (.atom (.int 9)) := by decide +kernel

/-! ## C94: reading -/

/-- C94: `get` changes nothing.  What it returns consists of parts of the record and of new lists. -/
theorem C94_get {E : Env} {m m' : Mem} {p : FS} {x r : Ref} (hx : Exist m x) (h : get E p x m = .ok (m', r)) :
    Makes m [x] m' [r] :=
  steps_makes (by simpa using hx) (fun A hA hk => by
    obtain ⟨G, hs, hr⟩ := get_steps E p x m m' r A hA (hk x (by simp)) h
    exact ⟨G, hs, by simpa using hr⟩)

/-- C94: without `None`, what `get` returns is the part of the record itself, not a copy: to write to it is to
write to the record. -/
theorem C94_live {E : Env} {q : FS} {v : Ref} (p : FS) : ∀ {m m' : Mem} {x r : Ref}, (∀ c ∈ p, c ≠ .none) → q ≠ [] →
    get E p x m = .ok (m', r) → m' = m ∧ put E q v r m = put E (p ++ q) v x m ∧
      delete E q r m = delete E (p ++ q) x m ∧ post E q v r m = post E (p ++ q) v x m := by
  induction p with
  | nil =>
    intro m m' x r _ _ h
    cases h
    exact ⟨rfl, rfl, rfl, rfl⟩
  | cons c p ih =>
    intro m m' x r hp hq h
    have hc : c ≠ .none := hp c (by simp)
    obtain ⟨d, t, ht⟩ : ∃ d t, p ++ q = d :: t := by
      cases h : p ++ q with
      | nil => exact absurd (List.append_eq_nil_iff.mp h).2 hq
      | cons d t => exact ⟨d, t, rfl⟩
    have hget : get E (c :: p) x m = match step E (deref m x) c with
        | .error e => .error e
        | .ok y => get E p y m := by
      cases c with
      | none => exact absurd rfl hc
      | int i => rfl
      | str i => rfl
    rw [hget] at h
    cases hst : step E (deref m x) c with
    | error e => rw [hst] at h; cases h
    | ok y =>
      rw [hst] at h
      obtain ⟨h1, h2, h3, h4⟩ := ih (fun c' hc' => hp c' (by simp [hc'])) hq h
      refine ⟨h1, ?_, ?_, ?_⟩
      · rw [h2, List.cons_append, ht]
        have : put E (c :: d :: t) v x m = match stepPut E (deref m x) c with
            | .error e => (.error e, m)
            | .ok y => put E (d :: t) v y m := by
          cases c with
          | none => exact absurd rfl hc
          | int i => rfl
          | str i => rfl
        rw [this, step_iff_stepPut.mp hst]
      · rw [h3, List.cons_append, ht]
        have : delete E (c :: d :: t) x m = match step E (deref m x) c with
            | .error e => (.error e, m)
            | .ok y => delete E (d :: t) y m := by
          cases c with
          | none => exact absurd rfl hc
          | int i => rfl
          | str i => rfl
        rw [this, hst]
      · rw [h4, List.cons_append, ht, post_cons hc, stepPost_ok hst]

/-- C94: `MultiFieldSelector.get` changes nothing, and returns a copy all of whose parts are new. -/
theorem C94 {E : Env} (hE : Polite E) {h : Heads} {m m' : Mem} {x r : Ref} (hx : Exist m x)
    (hr : mget E h x m = .ok (m', r)) : OnlyNew m m' ∧ AllNew m m' r := by
  have := mget_fresh hE h x m m' r hx hr
  exact ⟨this.2.1, this.2.2 r (by simp)⟩

/-- C94: whatever is then written to the copy, the original and every other object that existed stays what it
was; and whatever is written to the original, the copy stays what it was. -/
theorem C94_independent {E : Env} (hE : Polite E) {h : Heads} {m m' : Mem} {x r : Ref} (hx : Exist m x)
    (hr : mget E h x m = .ok (m', r)) {ws : List Write} (hv : ∀ w ∈ ws, Exist m' w.value) :
    (∀ y, Exist m y → (∀ w ∈ ws, Separate m' w.value y) → Intact m (writes E r m' ws) y) ∧
    ((∀ w ∈ ws, Separate m' w.value r) → Intact m' (writes E x m' ws) r) := by
  have hf := mget_fresh hE h x m m' r hx hr
  have hnew := hf.2.2 r (by simp)
  have hsep : ∀ y, Exist m y → Separate m' r y := by
    rintro y hy l ⟨h1, h2⟩
    have := (hnew l h1).1
    have := hy l ((part_onlyNew hf.2.1 hy).mp h2)
    omega
  constructor
  · intro y hy hsv
    have hi := (C93 hE (allNew_exist hnew) hv (exist_onlyNew hf.2.1 hf.1 hy) (hsep y hy) hsv).1
    intro l hl
    rw [hi l ((part_onlyNew hf.2.1 hy).mpr hl), hf.2.1 l (hy l hl)]
  · intro hsv
    exact (C93 hE (exist_onlyNew hf.2.1 hf.1 hx) hv (allNew_exist hnew)
      (fun l hl => hsep x hx l ⟨hl.2, hl.1⟩) hsv).1

/-- The value at a path, if there is one. -/
def exRead (p : FS) (x : Ref) (m : Mem) : Option Ref := (get exEnv p x m).toOption.map (·.2)

/-- A copy of one of the records that share a list: the items are copied too, and so not changed by a write to the
original. -/
example : (mget exEnv [(.str "a", .node [(.none, .node [(.str "n", .all)])])] (.ptr 0) exMem).toOption.map
    (fun q => (exRead [.str "a", .int 1, .str "n"] q.2
      (put exEnv [.str "a", .int 1, .str "n"] (.atom (.int 7)) (.ptr 0) q.1).2,
      exRead [.str "a", .int 1, .str "n"] (.ptr 2)
      (put exEnv [.str "a", .int 1, .str "n"] (.atom (.int 7)) (.ptr 0) q.1).2)) =
    some (some (.atom (.int 3)), some (.atom (.int 7))) := by
  decide +kernel

example : Exist exMem (.ptr 0) := exist_closed (by decide +kernel) (by intro l e; cases e; decide +kernel)

/-! ## C95: patching -/

/-- C95: patching with `copy=` (any function that copies, such as `deepcopy`) leaves the source what it was, with
all its parts, whether or not there is an exception, and then the target has nothing in common with the
source. -/
theorem C95_copy {E : Env} (hE : Polite E) {f : Mem → Ref → Except Exc (Mem × Ref)} (hf : Copier f) {h : Heads}
    {m : Mem} {target source : Ref} (ht : Exist m target) (hs : Exist m source) (hsep : Separate m target source) :
    Intact m (mpatch E h (some f) target source m).2 source ∧
    Separate (mpatch E h (some f) target source m).2 target source := by
  unfold mpatch
  split
  · exact ⟨fun _ _ => rfl, hsep⟩
  · rename_i m1 es he
    obtain ⟨S, hS, hv⟩ := fetch_steps (E := E) (Mfs.iter h) m m1 es _ (reg_part hs) (in_part source) he
    have hon : OnlyNew m m1 := fun l hl => hS.frame l hl (fun h => h)
    have ht1 : Exist m1 target := exist_onlyNew hon hS.len ht
    have hdis : ∀ l, ¬ (PartOf m1 target l ∧ S l) := by
      rintro l ⟨h1, h2⟩
      have h1' := (part_onlyNew hon ht).mp h1
      exact hsep l ⟨h1', hS.old l h2 (ht l h1')⟩
    obtain ⟨G, hG⟩ := storeAll_copy_steps hE hf es m1 _ S (reg_part ht1) (in_part target) hS.reg hdis hv
    have hi : Intact m (storeAll E (some f) es target m1).2 source := by
      intro l hl
      rw [hG.frame l (Nat.lt_of_lt_of_le (hs l hl) hS.len) (fun h => hdis l ⟨h, hS.sub l hl⟩), hon l (hs l hl)]
    refine ⟨hi, ?_⟩
    rintro l ⟨h1, h2⟩
    have h2' := (part_intact hi).mp h2
    have hg := hG.reg.part (In.mono hG.sub (in_part target)) h1
    exact hdis l ⟨hG.old l hg (Nat.lt_of_lt_of_le (hs l h2') hS.len), hS.sub l h2'⟩

/-- `copy=True`: `copy.deepcopy`. -/
theorem C95_deepcopy : Copier deep := deep_copier

/-- C95 without copies: the source stays what it was. -/
def C95_statement : Prop :=
  ∀ (E : Env) (args : List MArg) (h : Heads) (m : Mem) (target source : Ref), Polite E →
    Mfs.init id args = .ok h → Exist m target → Exist m source → Separate m target source →
    Intact m (mpatch E h none target source m).2 source

/-- A list of one record, and another of two. -/
def exPatch : Mem :=
  [.list [.ptr 1], .rcd "P" [("n", .atom (.int 1))], .list [.ptr 3, .ptr 4],
   .rcd "P" [("n", .atom (.int 2))], .rcd "P" [("n", .atom (.int 3))]]

/-- C95 fails without copies: with `MultiFieldSelector([-1], [0, "n"])` the last item of the source becomes
the only item of the target, and is then written to as the first one. -/
theorem C95_violated : ¬ C95_statement := by
  intro h
  have hi := h exEnv [.fs [.int (-1)], .fs [.int 0, .str "n"]] [(.int (-1), .all), (.int 0, .node [(.str "n", .all)])]
    exPatch (.ptr 0) (.ptr 2) ex_polite (by with_unfolding_all rfl)
    (exist_closed (by decide +kernel) (by intro l e; cases e; decide +kernel))
    (exist_closed (by decide +kernel) (by intro l e; cases e; decide +kernel))
    (separate_by (fun l => decide (l < 2)) (by decide +kernel)
      (by intro l e; cases e; decide +kernel) (by intro l e; cases e; decide +kernel))
  have := hi 4 (.kid (o := .list [.ptr 3, .ptr 4]) (k := .ptr 4) rfl (by simp [kids]) .self)
  revert this
  decide +kernel

/-- C95, proved part: with one selector, patching without copies changes no existing object that is not part of
the target; so not the source, if it has nothing in common with the target. -/
theorem C95_partial {E : Env} (hE : Polite E) {h : Heads} {fs : FS} (hfs : Mfs.iter h = [fs]) {m : Mem}
    {target source : Ref} (ht : Exist m target) (hs : Exist m source) {l : Nat} (hl : l < m.length)
    (hn : ¬ PartOf m target l) : (mpatch E h none target source m).2[l]? = m[l]? := by
  unfold mpatch
  split
  · rfl
  · rename_i m1 es he
    rw [hfs] at he
    obtain ⟨S, hS, hv⟩ := fetch_steps (E := E) [fs] m m1 es _ (reg_part hs) (in_part source) he
    have hon : OnlyNew m m1 := fun l hl => hS.frame l hl (fun h => h)
    have ht1 : Exist m1 target := exist_onlyNew hon hS.len ht
    have hl1 : l < m1.length := Nat.lt_of_lt_of_le hl hS.len
    have hn1 : ¬ PartOf m1 target l := fun h => hn ((part_onlyNew hon ht).mp h)
    rw [← hon l hl]
    simp only [fetch] at he
    split at he
    · rename_i m2 v hg
      cases he
      have hvE : Exist m1 v := hS.reg.exist (hv (fs, some v) (by simp) v rfl)
      have hp := C93_post hE (p := fs) ht1 hvE hl1 hn1
      simp only [storeAll]
      split
      · rename_i hq; rw [hq] at hp; exact hp
      · rename_i hq; rw [hq] at hp; exact hp
    · split at he
      · cases he
        have hp := C93_delete (E := E) (p := fs) ht hl hn
        simp only [storeAll]
        split
        · rename_i hq; rw [hq] at hp; exact hp
        · rename_i hq; rw [hq] at hp; exact hp
      · cases he

/-- C95: `MultiFieldSelector.delete` changes no existing object that is not part of the record. -/
theorem C95_delete {E : Env} {h : Heads} {force : Bool} {m : Mem} {x : Ref} (hx : Exist m x) {l : Nat}
    (hl : l < m.length) (hn : ¬ PartOf m x l) : (mdelete E h force x m).2[l]? = m[l]? := by
  obtain ⟨G, hG⟩ := deleteAll_steps (E := E) (Mfs.iter h) m _ (reg_part hx) (in_part x)
  unfold mdelete
  split
  · exact hG.frame l hl hn
  · split
    · rfl
    · exact hG.frame l hl hn

/-- Without copies the target shares the values with the source: what is then written to the source is seen in
the target. -/
example : (get exEnv [.int 0, .str "n"] (.ptr 0) (put exEnv [.int 1, .str "n"] (.atom (.int 8)) (.ptr 2)
    (mpatch exEnv [(.int (-1), .all)] none (.ptr 0) (.ptr 2) exPatch).2).2).toOption.map (·.2) = some (.atom (.int 8)) := by
  decide +kernel

/-- With copies it is not. -/
example : (get exEnv [.int 0, .str "n"] (.ptr 0) (put exEnv [.int 1, .str "n"] (.atom (.int 8)) (.ptr 2)
    (mpatch exEnv [(.int (-1), .all)] (some deep) (.ptr 0) (.ptr 2) exPatch).2).2).toOption.map (·.2) =
      some (.atom (.int 3)) := by
  decide +kernel

example : Mfs.iter [(.int (-1), .all)] = [[.int (-1)]] := by with_unfolding_all rfl

end Normalize.Mem
