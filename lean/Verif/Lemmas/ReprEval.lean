import Verif.Lemmas.ReprParse

/-! Evaluating the text of a value. -/

namespace Normalize.Repr

open Normalize.Spec

/-! ## The texts of records and collections -/

theorem alookup_notin {α β : Type} [DecidableEq α] {l : List (α × β)} {k : α} (h : k ∉ l.map (·.1)) :
    alookup l k = none := by
  induction l with
  | nil => rfl
  | cons e l ih =>
    obtain ⟨k', v⟩ := e
    simp only [List.map_cons, List.mem_cons, not_or] at h
    rw [alookup, if_neg (fun e => h.1 e.symm)]
    exact ih h.2

theorem filterMap_sorted {f : String → List Char → List Char} : ∀ (names : List String) (ts : List (String × List Char)),
    names.Pairwise (· < ·) → ts.Pairwise (fun a b => a.1 < b.1) → (∀ e ∈ ts, e.1 ∈ names) →
    names.filterMap (fun nm => (alookup ts nm).map (f nm)) = ts.map (fun e => f e.1 e.2) := by
  intro names
  induction names with
  | nil =>
    intro ts _ _ h
    cases ts with
    | nil => rfl
    | cons e ts => exact absurd (h e (by simp)) (by simp)
  | cons n ns ih =>
    intro ts hn ht h
    cases ts with
    | nil => simp [alookup]
    | cons e ts =>
      obtain ⟨k, t⟩ := e
      have hn' := List.pairwise_cons.mp hn
      have ht' := List.pairwise_cons.mp ht
      by_cases hk : k = n
      · subst hk
        have h1 : ∀ e ∈ ts, e.1 ∈ ns := by
          intro e he
          rcases List.mem_cons.mp (h e (by simp [he])) with h | h
          · exact absurd h (ne_of_gt (ht'.1 e he))
          · exact h
        have h2 : ns.filterMap (fun nm => (alookup ((k, t) :: ts) nm).map (f nm)) =
            ns.filterMap (fun nm => (alookup ts nm).map (f nm)) := by
          apply List.filterMap_congr
          intro m hm
          rw [alookup, if_neg (ne_of_lt (hn'.1 m hm))]
        rw [List.filterMap_cons, h2, ih ts hn'.2 ht'.2 h1]
        simp [alookup]
      · have hkn : k ∈ ns := by
          rcases List.mem_cons.mp (h (k, t) (by simp)) with h | h
          · exact absurd h hk
          · exact h
        have h1 : alookup ((k, t) :: ts) n = none := by
          apply alookup_notin
          intro hmem
          obtain ⟨e, he, hen⟩ := List.mem_map.mp hmem
          rcases List.mem_cons.mp he with h | h
          · subst h; exact hk hen
          · have := lt_trans (hn'.1 k hkn) (ht'.1 e h)
            rw [hen] at this
            exact lt_irrefl _ this
        have h2 : ∀ e ∈ (k, t) :: ts, e.1 ∈ ns := by
          intro e he
          rcases List.mem_cons.mp (h e he) with h | h
          · exfalso
            have : e.1 ∈ ((k, t) :: ts).map (·.1) := List.mem_map.mpr ⟨e, he, rfl⟩
            rw [h] at this
            have h3 : alookup ((k, t) :: ts) n ≠ none := by
              clear h1 ht ht' hn hn' h hkn ih
              revert this
              generalize (k, t) :: ts = l
              intro this
              induction l with
              | nil => simp at this
              | cons x l ihl =>
                obtain ⟨a, b⟩ := x
                rw [alookup]
                split
                · simp
                · next hne =>
                  simp only [List.map_cons, List.mem_cons] at this
                  rcases this with h | h
                  · exact absurd h.symm hne
                  · exact ihl h
            exact h3 h1
          · exact h
        rw [List.filterMap_cons, h1]
        exact ih _ hn'.2 ht h2

theorem sortedNames_lt {c : Cls} (h : (c.props.map (·.1)).Nodup) : (sortedNames c).Pairwise (· < ·) := by
  have h1 : (sortedNames c).Pairwise (· ≤ ·) := List.pairwise_insertionSort (· ≤ ·) _
  have h2 : (sortedNames c).Nodup := (List.perm_insertionSort (· ≤ ·) _).nodup_iff.mpr h
  exact (h1.and h2).imp (fun h => lt_of_le_of_ne h.1 h.2)

/-- One attribute. -/
def attr (e : String × List Char) : List Char := e.1.toList ++ '=' :: e.2

theorem recordText_eq {cls : String} {c : Cls} {ts : List (String × List Char)} (hn : (c.props.map (·.1)).Nodup)
    (hs : ts.Pairwise (fun a b => a.1 < b.1)) (hp : ∀ e ∈ ts, e.1 ∈ c.props.map (·.1)) :
    recordText cls c ts = cls.toList ++ ('(' :: join (ts.map attr) ++ [')']) := by
  unfold recordText attrTexts
  rw [filterMap_sorted (f := fun nm t => nm.toList ++ '=' :: t) _ _ (sortedNames_lt hn) hs
    (fun e he => (List.mem_insertionSort (r := (· ≤ ·))).mpr (hp e he))]
  rfl

theorem replaceFirst_skip {c : Char} {new l rest : List Char} (h : c ∉ l) :
    replaceFirst c new (l ++ c :: rest) = l ++ new ++ rest := by
  induction l with
  | nil => simp [replaceFirst]
  | cons d l ih =>
    simp only [List.mem_cons, not_or] at h
    rw [List.cons_append, replaceFirst, if_neg (fun e => h.1 e.symm), ih h.2]
    rfl

theorem ends_join {ts : List (List Char)} (hne : ts ≠ []) (h : ∀ t ∈ ts, Ends t) : Ends (join ts) := by
  induction ts with
  | nil => exact absurd rfl hne
  | cons t ts ih =>
    cases ts with
    | nil => exact h t (by simp)
    | cons t2 ts =>
      obtain ⟨i, c, hj, hc⟩ := ih (by simp) (fun t' ht' => h t' (by simp [ht']))
      refine ⟨t ++ (',' :: ' ' :: i), c, ?_, hc⟩
      rw [join, hj]
      simp

theorem endsEmpty_nil (l : List Char) : endsEmpty (l ++ ('(' :: [] ++ [')'])) = true := by
  unfold endsEmpty
  rw [List.isSuffixOf_iff_suffix]
  exact ⟨l, rfl⟩

theorem endsEmpty_ends {l b : List Char} (h : Ends b) : endsEmpty (l ++ ('(' :: b ++ [')'])) = false := by
  obtain ⟨i, c, rfl, hc⟩ := h
  cases he : endsEmpty (l ++ ('(' :: (i ++ [c]) ++ [')'])) with
  | false => rfl
  | true =>
    exfalso
    unfold endsEmpty at he
    rw [List.isSuffixOf_iff_suffix] at he
    obtain ⟨p, hp⟩ := he
    have h1 : (p ++ ['(']) ++ [')'] = (l ++ '(' :: i ++ [c]) ++ [')'] := by
      simpa using hp
    have h2 := (List.append_inj' h1 rfl).1
    have h3 := (List.append_inj' h2 rfl).2
    simp only [List.cons.injEq, and_true] at h3
    exact hc h3.symm

theorem collText_eq {cls : String} (hcls : '(' ∉ cls.toList) {ts : List (List Char)} (h : ∀ t ∈ ts, Ends t)
    (contents : List Char) :
    collText (cls.toList ++ ('(' :: join ts ++ [')'])) contents =
      cls.toList ++ ('(' :: join (contents :: ts) ++ [')']) := by
  unfold collText
  cases ts with
  | nil =>
    rw [show join [] = [] from rfl, endsEmpty_nil, if_pos rfl]
    rw [show cls.toList ++ ('(' :: ([] : List Char) ++ [')']) = cls.toList ++ '(' :: [')'] from rfl,
      replaceFirst_skip hcls]
    simp [join]
  | cons t ts =>
    rw [endsEmpty_ends (ends_join (by simp) h)]
    rw [show cls.toList ++ ('(' :: join (t :: ts) ++ [')']) = cls.toList ++ '(' :: (join (t :: ts) ++ [')']) from rfl,
      replaceFirst_skip hcls]
    simp [join]

theorem valuesText_eq {cls : String} (hcls : '[' ∉ cls.toList) {ts : List (List Char)} (r : List Char) :
    replaceFirst '[' "values=[".toList (cls.toList ++ ('(' :: join (('[' :: r) :: ts) ++ [')'])) =
      cls.toList ++ ('(' :: join (("values".toList ++ '=' :: '[' :: r) :: ts) ++ [')']) := by
  have hj : ∀ x : List Char, ∃ y, ∀ z : List Char, join ((z ++ x) :: ts) = z ++ y := by
    intro x
    cases ts with
    | nil => exact ⟨x, fun z => rfl⟩
    | cons t ts => exact ⟨x ++ (',' :: ' ' :: join (t :: ts)), fun z => by simp [join]⟩
  obtain ⟨y, hy⟩ := hj r
  have h1 : join (('[' :: r) :: ts) = '[' :: y := hy ['[']
  have h2 : join (("values".toList ++ '=' :: '[' :: r) :: ts) = "values".toList ++ '=' :: '[' :: y := by
    have := hy ("values".toList ++ ['=', '['])
    simpa using this
  rw [h1, h2]
  have hp : '[' ∉ cls.toList ++ ['('] := by simp [hcls]
  have := replaceFirst_skip (new := "values=[".toList) (rest := y ++ [')']) hp
  rw [show "values=[".toList = "values".toList ++ ['=', '['] by decide] at this ⊢
  simpa using this

/-! ## Constructors -/

theorem aset_fresh {α β : Type} [DecidableEq α] {d : List (α × β)} {k : α} (h : k ∉ d.map (·.1)) (v : β) :
    aset d k v = d ++ [(k, v)] := by
  induction d with
  | nil => rfl
  | cons e d ih =>
    obtain ⟨k', w⟩ := e
    simp only [List.map_cons, List.mem_cons, not_or] at h
    rw [aset, if_neg (fun e => h.1 e.symm), ih h.2]
    rfl

theorem aerase_notin {α β : Type} [DecidableEq α] {d : List (α × β)} {k : α} (h : k ∉ d.map (·.1)) :
    aerase d k = d := by
  induction d with
  | nil => rfl
  | cons e d ih =>
    obtain ⟨k', w⟩ := e
    simp only [List.map_cons, List.mem_cons, not_or] at h
    rw [aerase, if_neg (fun e => h.1 e.symm), ih h.2]

theorem typeSafe_accepts {p : PropD} {v : V} (h : TakesAsIs p v) : typeSafe p v = some (some v) := by
  unfold typeSafe
  split
  · next hv =>
    exfalso
    simp only [Bool.and_eq_true, Bool.not_eq_true'] at hv
    exact h.notNone hv.1 hv.2 rfl
  · rename_i v _ _ _
    have : (p.valued && !p.isa v) = false := by
      cases hv : p.valued with
      | false => rfl
      | true => simp [h.type hv]
    simp [this, h.check]

theorem initArgs_accepts {c : Cls} : ∀ (kw acc : Slots),
    (∀ e ∈ kw, ∃ p, alookup c.props e.1 = some p ∧ TakesAsIs p e.2) → ((acc ++ kw).map (·.1)).Nodup →
    initArgs c kw acc = some (acc ++ kw) := by
  intro kw
  induction kw with
  | nil => intro acc _ _; simp [initArgs]
  | cons e kw ih =>
    intro acc h hn
    obtain ⟨nm, v⟩ := e
    obtain ⟨p, hp, ha⟩ := h (nm, v) (by simp)
    have hnm : nm ∉ acc.map (·.1) := by
      intro hmem
      rw [List.map_append, List.nodup_append] at hn
      exact hn.2.2 nm hmem nm (by simp) rfl
    have : initProp p nm v acc = some (acc ++ [(nm, v)]) := by
      rw [initProp, typeSafe_accepts ha, ← aset_fresh hnm v]
    simp only [initArgs, hp, this]
    rw [ih (acc ++ [(nm, v)]) (fun e he => h e (by simp [he])) (by simpa using hn)]
    simp

theorem slots_nodup {s : Slots} (h : s.Pairwise (fun a b => a.1 < b.1)) : (s.map (·.1)).Nodup := by
  unfold List.Nodup
  rw [List.pairwise_map]
  exact h.imp (fun h => ne_of_lt h)

theorem sortSlots_sorted {s : Slots} (h : s.Pairwise (fun a b => a.1 < b.1)) : sortSlots s = s :=
  List.Pairwise.insertionSort_eq (h.imp (fun h => le_of_lt h))

theorem mem_alookup {α β : Type} [DecidableEq α] {l : List (α × β)} {k : α} (h : k ∈ l.map (·.1)) :
    (alookup l k).isNone = false := by
  induction l with
  | nil => simp at h
  | cons e l ih =>
    obtain ⟨k', v⟩ := e
    rw [alookup]
    split
    · rfl
    · next hne =>
      simp only [List.map_cons, List.mem_cons] at h
      rcases h with h | h
      · exact absurd h.symm hne
      · exact ih h

theorem recordInit_ok {c : Cls} {s : Slots} (hs : SlotsOk c s) (hc : Filled c s)
    (hi : "init_dict" ∉ s.map (·.1)) : recordInit c s = some s := by
  have h1 : c.props.filter (fun e => eager e.2 && (alookup s e.1).isNone) = [] := by
    rw [List.filter_eq_nil_iff]
    intro e he
    cases hg : eager e.2 with
    | false => simp
    | true => simp [mem_alookup (hc e he hg)]
  unfold recordInit
  rw [alookup_notin hi]
  simp only [Option.filter_none]
  rw [aerase_notin hi, initArgs_accepts s [] hs.accepted (by simpa using slots_nodup hs.sorted)]
  simp only [List.nil_append, h1, initMissing, Option.map_some, sortSlots_sorted hs.sorted]

theorem hasJson_none {kw : List (String × V)} (h : "json_data" ∉ kw.map (·.1)) : hasJson kw = false := by
  simp [hasJson, alookup_notin h]

theorem jsonInit_ok {c : Cls} {s : Slots} (hs : SlotsOk c s) (hc : Filled c s)
    (hi : "init_dict" ∉ s.map (·.1)) (hj : "json_data" ∉ s.map (·.1)) : jsonInit c s = some s := by
  rw [jsonInit, hasJson_none hj, if_neg (by decide), aerase_notin hj, recordInit_ok hs hc hi]

theorem listContents_ok {c : Cls} {xs : List V} (h : ∀ x ∈ xs, c.itemIsa x = true) :
    listContents c (some (.list xs)) = some (.list xs) := by
  have : xs.mapM (coerceItem c) = some xs := by
    induction xs with
    | nil => rfl
    | cons x xs ih =>
      rw [List.mapM_cons, ih (fun y hy => h y (by simp [hy]))]
      simp [coerceItem, h x (by simp)]
  simp [listContents, this]

theorem dictContents_ok {c : Cls} {xs : List (Comp × V)} (h : ∀ e ∈ xs, c.itemIsa e.2 = true) :
    dictContents c (some (.dict xs)) = some (.dict xs) := by
  have : xs.mapM (fun e => (coerceItem c e.2).map (fun w => (e.1, w))) = some xs := by
    induction xs with
    | nil => rfl
    | cons x xs ih =>
      rw [List.mapM_cons, ih (fun y hy => h y (by simp [hy]))]
      simp [coerceItem, h x (by simp)]
  simp [dictContents, this]

/-- Keyword arguments. -/
def kwargs (s : Slots) : List (Option String × V) := s.map (fun e => (some e.1, e.2))

theorem kwargs_names (s : Slots) : (kwargs s).filterMap (·.1) = s.map (·.1) := by
  induction s with
  | nil => rfl
  | cons e s ih => simp only [kwargs, List.map_cons, List.filterMap_cons] at ih ⊢; rw [ih]

theorem kwargs_back (s : Slots) : (kwargs s).filterMap (fun e => e.1.map (fun nm => (nm, e.2))) = s := by
  induction s with
  | nil => rfl
  | cons e s ih => simp only [kwargs, List.map_cons, List.filterMap_cons, Option.map_some] at ih ⊢; rw [ih]

theorem kwargs_some (s : Slots) : (kwargs s).all (·.1.isSome) = true := by
  simp [kwargs]

theorem call_kwargs {cls : String} {c : Cls} {s : Slots} (hn : (s.map (·.1)).Nodup) (hself : "self" ∉ s.map (·.1)) :
    call cls c (kwargs s) = construct cls c s := by
  unfold call
  split
  · next v rest heq =>
    exfalso
    have := kwargs_some s
    rw [heq] at this
    simp at this
  · rw [kwargs_names, kwargs_back, kwargs_some]
    simp [hn, hself]

theorem call_first {cls : String} {c : Cls} {s : Slots} {v : V} (hn : (s.map (·.1)).Nodup)
    (hself : "self" ∉ s.map (·.1)) (hf : firstParam c.kind ∉ s.map (·.1)) :
    call cls c ((none, v) :: kwargs s) = construct cls c ((firstParam c.kind, v) :: s) := by
  unfold call
  simp only
  rw [kwargs_names, kwargs_back, kwargs_some]
  simp [hn, hself, hf]

theorem collInit_ok {cls : String} {contents : Option V → Option V} {next : List (String × V) → Option Slots}
    {vs : V} {s : Slots} (hv : "values" ∉ s.map (·.1)) (h1 : contents (some vs) = some vs) (h2 : next s = some s) :
    collInit cls contents next (("values", vs) :: s) = some (.coll cls vs s) := by
  unfold collInit
  rw [alookup, if_pos rfl, h1]
  simp [aerase, aerase_notin hv, h2]

/-! ## The whole -/

/-- The text of a value, and how it is read and evaluated. -/
def Works (pr : Char → Bool) (E : Env) (v : V) : Prop :=
  ∃ t e, reprV pr E v = some t ∧ Starts t ∧ Ends t ∧ Reads t e ∧ evalE E e = some v

theorem works_list {pr : Char → Bool} {E : Env} : ∀ {xs : List V}, (∀ x ∈ xs, Works pr E x) →
    ∃ ts es, reprL pr E xs = some ts ∧ List.Forall₂ (fun t e => Starts t ∧ Reads t e) ts es ∧ evalL E es = some xs := by
  intro xs
  induction xs with
  | nil => intro _; exact ⟨[], [], rfl, .nil, rfl⟩
  | cons x xs ih =>
    intro h
    obtain ⟨t, e, h1, h2, _, h4, h5⟩ := h x (by simp)
    obtain ⟨ts, es, g1, g2, g3⟩ := ih (fun y hy => h y (by simp [hy]))
    exact ⟨t :: ts, e :: es, by simp [reprL, h1, g1], .cons ⟨h2, h4⟩ g2, by simp [evalL, h5, g3]⟩

theorem starts_int (i : Int) : Starts (reprInt i) := by
  cases i with
  | ofNat m =>
    simp only [reprInt]
    cases h : Nat.toDigits 10 m with
    | nil => exact absurd h Nat.toDigits_ne_nil
    | cons c r =>
      have hc : c.isDigit = true := toDigits_isDigit (n := m) (by rw [h]; simp)
      exact ⟨c, r, rfl, idCont_ws (isDigit_idCont hc)⟩
  | negSucc m => exact ⟨'-', _, rfl, by decide⟩

theorem ends_digits (m : Nat) (p : List Char) : Ends (p ++ Nat.toDigits 10 m) := by
  have hne : Nat.toDigits 10 m ≠ [] := Nat.toDigits_ne_nil
  refine ⟨p ++ (Nat.toDigits 10 m).dropLast, (Nat.toDigits 10 m).getLast hne, ?_, ?_⟩
  · rw [List.append_assoc, List.dropLast_append_getLast hne]
  · have hc : ((Nat.toDigits 10 m).getLast hne).isDigit = true := toDigits_isDigit (List.getLast_mem hne)
    intro h
    rw [h] at hc
    revert hc; decide

theorem ends_int (i : Int) : Ends (reprInt i) := by
  cases i with
  | ofNat m => exact ends_digits m []
  | negSucc m => exact ends_digits (m + 1) ['-']

theorem starts_str (pr : Char → Bool) (s : List Char) : Starts (reprStr pr s) := by
  refine ⟨quoteOf s, _, rfl, ?_⟩
  rcases quoteOf_isQuote s with h | h <;> rw [h] <;> decide

theorem ends_str (pr : Char → Bool) (s : List Char) : Ends (reprStr pr s) := by
  refine ⟨quoteOf s :: s.flatMap (escape pr (quoteOf s)), quoteOf s, by simp [reprStr], ?_⟩
  rcases quoteOf_isQuote s with h | h <;> rw [h] <;> decide

theorem works_key (pr : Char → Bool) (E : Env) (k : Comp) :
    ∃ e, Starts (reprKey pr k) ∧ Reads (reprKey pr k) e ∧ (evalE E e).bind asKey = some k := by
  cases k with
  | none => exact ⟨.none, ⟨'N', ['o', 'n', 'e'], by simp only [reprKey]; decide, by decide⟩, reads_none, by simp [evalE, asKey]⟩
  | int i => exact ⟨.int i, starts_int i, reads_int i, by simp [evalE, asKey]⟩
  | str s => exact ⟨.str s, starts_str pr _, reads_str pr s, by simp [evalE, asKey]⟩

theorem works_dict {pr : Char → Bool} {E : Env} : ∀ {xs : List (Comp × V)}, (∀ e ∈ xs, Works pr E e.2) →
    ∃ ts es, reprD pr E xs = some ts ∧ List.Forall₂ PairText ts es ∧
      ∀ acc, ((acc ++ xs).map (·.1)).Nodup → evalD E es acc = some (acc ++ xs) := by
  intro xs
  induction xs with
  | nil => intro _; exact ⟨[], [], rfl, .nil, fun acc _ => by simp [evalD]⟩
  | cons x xs ih =>
    intro h
    obtain ⟨k, v⟩ := x
    obtain ⟨t, e, h1, h2, _, h4, h5⟩ := h (k, v) (by simp)
    obtain ⟨ek, k1, k2, k3⟩ := works_key pr E k
    obtain ⟨ts, es, g1, g2, g3⟩ := ih (fun y hy => h y (by simp [hy]))
    refine ⟨_ :: ts, (ek, e) :: es, by simp only [reprD, h1, g1], .cons ⟨_, _, rfl, k1, h2, k2, h4⟩ g2, ?_⟩
    intro acc hn
    have hk : k ∉ acc.map (·.1) := by
      intro hmem
      rw [List.map_append, List.nodup_append] at hn
      exact hn.2.2 k hmem k (by simp) rfl
    simp only [evalD, k3, h5, aset_fresh hk]
    rw [g3 (acc ++ [(k, v)]) (by simpa using hn)]
    simp

theorem works_slots {pr : Char → Bool} {E : Env} : ∀ {s : Slots}, (∀ e ∈ s, Works pr E e.2) →
    (∀ nm ∈ s.map (·.1), Spellable nm) →
    ∃ ts args, reprS pr E s = some ts ∧ ts.map (·.1) = s.map (·.1) ∧ (∀ t ∈ ts.map attr, Ends t) ∧
      List.Forall₂ ArgText (ts.map attr) args ∧ evalA E args = some (kwargs s) := by
  intro s
  induction s with
  | nil => intro _ _; exact ⟨[], [], rfl, rfl, by simp, .nil, rfl⟩
  | cons x s ih =>
    intro h hs
    obtain ⟨nm, v⟩ := x
    obtain ⟨t, e, h1, h2, h3, h4, h5⟩ := h (nm, v) (by simp)
    obtain ⟨ts, es, g1, g2, g3, g4, g5⟩ := ih (fun y hy => h y (by simp [hy]))
      (fun n hn => hs n (by simp only [List.map_cons, List.mem_cons]; exact Or.inr hn))
    refine ⟨(nm, t) :: ts, (some nm, e) :: es, by simp [reprS, h1, g1], by simp [g2], ?_, ?_, ?_⟩
    · intro a ha
      rcases List.mem_cons.mp ha with h | h
      · subst h
        obtain ⟨i, c, rfl, hc⟩ := h3
        exact ⟨nm.toList ++ '=' :: i, c, by simp [attr], hc⟩
      · exact g3 a h
    · exact .cons ⟨t, rfl, hs nm (by simp), h2, h4⟩ g4
    · simp [evalA, h5, g5, kwargs]

theorem starts_call {cls : String} (h : Spellable cls) (t : List Char) : Starts (cls.toList ++ t) := spell_starts h t

theorem ends_call (cls : String) (b : List Char) : Ends (cls.toList ++ ('(' :: b ++ [')'])) :=
  ⟨cls.toList ++ '(' :: b, ')', by simp, by decide⟩

theorem pairwise_keys {α β : Type} {l : List (String × α)} {l' : List (String × β)} (h : l.map (·.1) = l'.map (·.1))
    (hs : l'.Pairwise (fun a b => a.1 < b.1)) : l.Pairwise (fun a b => a.1 < b.1) := by
  have h1 : (l'.map (·.1)).Pairwise (· < ·) := by rw [List.pairwise_map]; exact hs
  rw [← h, List.pairwise_map] at h1
  exact h1

theorem alookup_mem_keys {α β : Type} [DecidableEq α] {l : List (α × β)} {k : α} {v : β} (h : alookup l k = some v) :
    k ∈ l.map (·.1) := by
  by_contra hn
  rw [alookup_notin hn] at h
  cases h

theorem slots_declared {c : Cls} {s : Slots} (h : SlotsOk c s) : ∀ nm ∈ s.map (·.1), nm ∈ c.props.map (·.1) := by
  intro nm hnm
  obtain ⟨e, he, rfl⟩ := List.mem_map.mp hnm
  obtain ⟨p, hp, _⟩ := h.accepted e he
  exact alookup_mem_keys hp

theorem spell_notin {s : String} (h : Spellable s) {c : Char} (hc : idCont c = false) : c ∉ s.toList := by
  intro hm
  rw [spell_chars h c hm] at hc
  cases hc

theorem works_fits {pr : Char → Bool} {E : Env} (hN : NamesOk E) (hO : NoOwnNames E) {v : V} (h : Fits E v) :
    Throughout E (fun c s => c.kind ≠ .jdict ∧ Filled c s) v → Works pr E v := by
  induction h with
  | none => intro _; exact ⟨_, .none, by simp [reprV], ⟨'N', ['o', 'n', 'e'], by decide, by decide⟩,
      ⟨['N', 'o', 'n'], 'e', by decide, by decide⟩, reads_none, by simp [evalE]⟩
  | bool b =>
    intro _
    cases b with
    | true => exact ⟨_, .bool true, by simp only [reprV], ⟨'T', ['r', 'u', 'e'], by decide, by decide⟩,
        ⟨['T', 'r', 'u'], 'e', by decide, by decide⟩, reads_true, by simp [evalE]⟩
    | false => exact ⟨_, .bool false, by simp only [reprV], ⟨'F', ['a', 'l', 's', 'e'], by decide, by decide⟩,
        ⟨['F', 'a', 'l', 's'], 'e', by decide, by decide⟩, reads_false, by simp [evalE]⟩
  | int i => intro _; exact ⟨_, .int i, by simp only [reprV], starts_int i, ends_int i, reads_int i, by simp [evalE]⟩
  | str s =>
    intro _
    exact ⟨_, .str s, by simp only [reprV], starts_str pr _, ends_str pr _, reads_str pr s, by simp [evalE]⟩
  | @list xs items ih =>
    intro hT
    cases hT with
    | list hT =>
      obtain ⟨ts, es, h1, h2, h3⟩ := works_list (fun x hx => ih x hx (hT x hx))
      exact ⟨'[' :: join ts ++ [']'], .list es, by simp only [reprV, h1], ⟨'[', _, rfl, by decide⟩, ⟨'[' :: join ts, ']', rfl, by decide⟩,
        reads_list h2, by simp [evalE, h3]⟩
  | @dict xs keys items ih =>
    intro hT
    cases hT with
    | dict hT =>
      obtain ⟨ts, es, h1, h2, h3⟩ := works_dict (fun x hx => ih x hx (hT x hx))
      have := h3 [] (by simpa using keys)
      exact ⟨'{' :: join ts ++ ['}'], .dict es, by simp only [reprV, h1], ⟨'{', _, rfl, by decide⟩, ⟨'{' :: join ts, '}', rfl, by decide⟩,
        reads_dict h2, by simp [evalE, this]⟩
  | @rcd cls c s scope kind slots values ih =>
    intro hT
    cases hT with
    | rcd here hT =>
      obtain ⟨_, hcomp⟩ := here c scope
      have hdecl := slots_declared slots
      have hspell : ∀ nm ∈ s.map (·.1), Spellable nm := fun nm hnm => hN.prop cls c nm scope (hdecl nm hnm)
      have hown : ∀ nm ∈ s.map (·.1), nm ∉ ownNames c.kind := fun nm hnm => hO cls c nm scope (hdecl nm hnm)
      have hcls := hN.cls cls c scope
      obtain ⟨ts, args, g1, g2, g3, g4, g5⟩ := works_slots (fun x hx => ih x hx (hT x hx)) hspell
      have ht : recordText cls c ts = _ := recordText_eq (cls := cls) (hN.nodup cls c scope)
        (pairwise_keys g2 slots.sorted)
        (fun e he => hdecl _ (by rw [← g2]; exact List.mem_map.mpr ⟨e, he, rfl⟩))
      refine ⟨_, .call cls args, by simp only [reprV, scope, g1, ht], starts_call hcls _, ends_call _ _,
        reads_call hcls g4, ?_⟩
      have hself : "self" ∉ s.map (·.1) := fun hm => hown _ hm (by rcases kind with k | k <;> rw [k] <;> decide)
      have hini : "init_dict" ∉ s.map (·.1) := fun hm => hown _ hm (by rcases kind with k | k <;> rw [k] <;> decide)
      simp only [evalE, scope, g5, call_kwargs (slots_nodup slots.sorted) hself]
      rcases kind with k | k
      · simp only [construct, k, recordInit_ok slots hcomp hini, Option.map_some]
      · have hj : "json_data" ∉ s.map (·.1) := fun hm => hown _ hm (by rw [k]; decide)
        simp only [construct, k, jsonInit_ok slots hcomp hini hj, Option.map_some]
  | @listColl cls c xs s scope kind slots values types items ihv ihi =>
    intro hT
    cases hT with
    | coll here hC hT =>
      cases hC with
      | list hC =>
        obtain ⟨_, hcomp⟩ := here c scope
        have hdecl := slots_declared slots
        have hspell : ∀ nm ∈ s.map (·.1), Spellable nm := fun nm hnm => hN.prop cls c nm scope (hdecl nm hnm)
        have hown : ∀ nm ∈ s.map (·.1), nm ∉ ownNames c.kind := fun nm hnm => hO cls c nm scope (hdecl nm hnm)
        have hcls := hN.cls cls c scope
        obtain ⟨ts, args, g1, g2, g3, g4, g5⟩ := works_slots (fun x hx => ihv x hx (hT x hx)) hspell
        obtain ⟨ls, es, f1, f2, f3⟩ := works_list (fun x hx => ihi x hx (hC x hx))
        have ht : recordText cls c ts = _ := recordText_eq (cls := cls) (hN.nodup cls c scope)
          (pairwise_keys g2 slots.sorted)
          (fun e he => hdecl _ (by rw [← g2]; exact List.mem_map.mpr ⟨e, he, rfl⟩))
        have hlist : reprV pr E (.list xs) = some ('[' :: join ls ++ [']']) := by simp only [reprV, f1]
        have hself : "self" ∉ s.map (·.1) := fun hm => hown _ hm (by rcases kind with k | k <;> rw [k] <;> decide)
        have hini : "init_dict" ∉ s.map (·.1) :=
          fun hm => hown _ hm (by rcases kind with k | k <;> rw [k] <;> decide)
        have hval : "values" ∉ s.map (·.1) := fun hm => hown _ hm (by rcases kind with k | k <;> rw [k] <;> decide)
        have hread := reads_list f2
        have hct := collText_eq (spell_notin hcls (by decide)) g3 ('[' :: join ls ++ [']'])
        have hev : evalE E (.list es) = some (.list xs) := by simp [evalE, f3]
        rcases kind with k | k
        · refine ⟨cls.toList ++ ('(' :: join (('[' :: join ls ++ [']']) :: ts.map attr) ++ [')']), .call cls ((none, .list es) :: args),
            by simp only [reprV, scope, g1, f1, kindText, k, ht, hct], starts_call hcls _, ends_call _ _,
            reads_call hcls (.cons ⟨⟨'[', _, rfl, by decide⟩, hread⟩ g4), ?_⟩
          · have hv : firstParam c.kind = "values" := by rw [k]; rfl
            simp only [evalE, evalA, scope, g5, f3, Option.map_some]
            rw [call_first (slots_nodup slots.sorted) hself (by rw [hv]; exact hval), hv]
            simp only [construct, k]
            exact collInit_ok hval (listContents_ok types) (recordInit_ok slots hcomp hini)
        · have hj : "json_data" ∉ s.map (·.1) := fun hm => hown _ hm (by rw [k]; decide)
          have hvt := valuesText_eq (spell_notin hcls (c := '[') (by decide)) (ts := ts.map attr) (join ls ++ [']'])
          have hvs : Spellable "values" := ⟨⟨'v', ['a', 'l', 'u', 'e', 's'], by decide, by decide, by decide⟩, by decide⟩
          refine ⟨cls.toList ++ ('(' :: join (("values".toList ++ '=' :: '[' :: (join ls ++ [']'])) :: ts.map attr) ++ [')']),
            .call cls ((some "values", .list es) :: args), ?_, starts_call hcls _, ends_call _ _,
            reads_call hcls (.cons ⟨_, rfl, hvs, ⟨'[', join ls ++ [']'], rfl, by decide⟩, hread⟩ g4), ?_⟩
          · simp only [reprV, scope, g1, f1, kindText, k, ht, hct]
            exact congrArg some hvt
          · have hk : kwargs (("values", V.list xs) :: s) = (some "values", V.list xs) :: kwargs s := rfl
            simp only [evalE, evalA, scope, g5, f3, Option.map_some]
            rw [← hk, call_kwargs (s := ("values", V.list xs) :: s)
              (List.nodup_cons.mpr ⟨hval, slots_nodup slots.sorted⟩)
              (by simp only [List.map_cons, List.mem_cons, not_or]; exact ⟨by decide, hself⟩)]
            have hjj : "json_data" ∉ (("values", V.list xs) :: s).map (·.1) := by
              simp only [List.map_cons, List.mem_cons, not_or]; exact ⟨by decide, hj⟩
            simp only [construct, k, hasJson_none hjj, aerase_notin hjj, Bool.false_eq_true, if_false]
            exact collInit_ok hval (listContents_ok types) (jsonInit_ok slots hcomp hini hj)
  | @dictColl cls c xs s scope kind slots values keys types items ihv ihi =>
    intro hT
    cases hT with
    | coll here hC hT =>
      cases hC with
      | dict hC =>
        obtain ⟨hnj, hcomp⟩ := here c scope
        have hdecl := slots_declared slots
        have hspell : ∀ nm ∈ s.map (·.1), Spellable nm := fun nm hnm => hN.prop cls c nm scope (hdecl nm hnm)
        have hown : ∀ nm ∈ s.map (·.1), nm ∉ ownNames c.kind := fun nm hnm => hO cls c nm scope (hdecl nm hnm)
        have hcls := hN.cls cls c scope
        obtain ⟨ts, args, g1, g2, g3, g4, g5⟩ := works_slots (fun x hx => ihv x hx (hT x hx)) hspell
        obtain ⟨ls, es, f1, f2, f3⟩ := works_dict (fun x hx => ihi x hx (hC x hx))
        have ht : recordText cls c ts = _ := recordText_eq (cls := cls) (hN.nodup cls c scope)
          (pairwise_keys g2 slots.sorted)
          (fun e he => hdecl _ (by rw [← g2]; exact List.mem_map.mpr ⟨e, he, rfl⟩))
        have k : c.kind = .dict := by
          rcases kind with k | k
          · exact k
          · exact absurd k hnj
        have hself : "self" ∉ s.map (·.1) := fun hm => hown _ hm (by rw [k]; decide)
        have hini : "init_dict" ∉ s.map (·.1) := fun hm => hown _ hm (by rw [k]; decide)
        have hval : "values" ∉ s.map (·.1) := fun hm => hown _ hm (by rw [k]; decide)
        have hct := collText_eq (spell_notin hcls (by decide)) g3 ('{' :: join ls ++ ['}'])
        have f4 := f3 [] (by simpa using keys)
        refine ⟨cls.toList ++ ('(' :: join (('{' :: join ls ++ ['}']) :: ts.map attr) ++ [')']), .call cls ((none, .dict es) :: args),
          by simp only [reprV, scope, g1, f1, kindText, k, ht, hct], starts_call hcls _, ends_call _ _,
          reads_call hcls (.cons ⟨⟨'{', _, rfl, by decide⟩, reads_dict f2⟩ g4), ?_⟩
        · have hv : firstParam c.kind = "values" := by rw [k]; rfl
          simp only [evalE, evalA, scope, g5, f4, Option.map_some, List.nil_append]
          rw [call_first (slots_nodup slots.sorted) hself (by rw [hv]; exact hval), hv]
          simp only [construct, k]
          exact collInit_ok hval (dictContents_ok types) (recordInit_ok slots hcomp hini)

end Normalize.Repr
