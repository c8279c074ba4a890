import Verif.Spec.RecordStr
import Verif.Lemmas.ReprEval
import Verif.Props.Hashing
import Verif.Props.Identity

/-!
# C115: `str()` of records
-/

namespace Normalize.Props

open Normalize.Ident Normalize.Spec

/-- C115: records of one class that print alike have the same identity. -/
def C115_statement : Prop :=
  ∀ (S : Schema) (rp : Val → List Char) (P : Val → Prop), ReprTells rp P →
    ∀ (n : Nat) (c : String) (s t : List (String × Val)) (k l : Key) (x : List Char), (S.cls c).coll = none →
    recordId S n (.rcd c s) = .ok k → recordId S n (.rcd c t) = .ok l → KeyOf P k → KeyOf P l →
    strOf rp S n (.rcd c s) = .ok x → strOf rp S n (.rcd c t) = .ok x → k = l

theorem goesOn_more (rp : Val → List Char) (ks : List Key) (r : List Char) : GoesOn (moreText rp ks ++ r) := by
  cases ks with
  | nil => simp [moreText, GoesOn]
  | cons => simp [moreText, GoesOn]

theorem keyText_start {rp : Val → List Char} {P : Val → Prop} (h : ReprTells rp P) {k : Key} (hk : KeyOf P k) :
    ∃ c cs, keyText rp k = c :: cs ∧ c ≠ ')' := by
  cases hk with
  | raw hv =>
    obtain ⟨c, cs, h1, _, h2⟩ := h.starts _ hv
    exact ⟨c, cs, by rw [keyText, h1], h2⟩
  | tup => exact ⟨'(', _, by rw [keyText], by decide⟩

/-- The text of a key says where it ends and what the key is. -/
theorem keyText_tells {rp : Val → List Char} {P : Val → Prop} (h : ReprTells rp P) {k : Key} (hk : KeyOf P k) :
    ∀ (l : Key) (r r' : List Char), KeyOf P l → GoesOn r → GoesOn r' → keyText rp k ++ r = keyText rp l ++ r' →
      k = l ∧ r = r' := by
  induction hk with
  | @raw v hv =>
    intro l r r' hl hr hr' he
    cases hl with
    | @raw w hw =>
      simp only [keyText] at he
      have := h.tells v w hv hw r r' hr hr' he
      subst this
      exact ⟨rfl, List.append_cancel_left he⟩
    | tup =>
      obtain ⟨c, cs, h1, h2, _⟩ := h.starts v hv
      simp only [keyText, h1, List.cons_append, List.cons.injEq] at he
      exact absurd he.1 h2
  | @tup ks hks ih =>
    intro l r r' hl hr hr' he
    cases hl with
    | @raw w hw =>
      obtain ⟨c, cs, h1, h2, _⟩ := h.starts w hw
      simp only [keyText, h1, List.cons_append, List.cons.injEq] at he
      exact absurd he.1.symm h2
    | @tup ls hls =>
      have hmore : ∀ (ks ls : List Key), (∀ k ∈ ks, ∀ (l : Key) (r r' : List Char), KeyOf P l → GoesOn r → GoesOn r' →
          keyText rp k ++ r = keyText rp l ++ r' → k = l ∧ r = r') → (∀ l ∈ ls, KeyOf P l) →
          moreText rp ks ++ r = moreText rp ls ++ r' → ks = ls ∧ r = r' := by
        intro ks
        induction ks with
        | nil =>
          intro ls _ _ he
          cases ls with
          | nil => simpa [moreText] using he
          | cons => simp [moreText] at he
        | cons k ks ih' =>
          intro ls hk hl he
          cases ls with
          | nil => simp [moreText] at he
          | cons l ls =>
            simp only [moreText, List.cons_append, List.append_assoc, List.cons.injEq, true_and] at he
            obtain ⟨rfl, he'⟩ := hk k (by simp) l _ _ (hl l (by simp)) (goesOn_more rp ks r) (goesOn_more rp ls r') he
            obtain ⟨rfl, hr⟩ := ih' ls (fun x hx => hk x (by simp [hx])) (fun x hx => hl x (by simp [hx])) he'
            exact ⟨rfl, hr⟩
      simp only [keyText, List.cons_append, List.cons.injEq, true_and] at he
      cases ks with
      | nil =>
        cases ls with
        | nil => simpa [tupleText] using he
        | cons l ls =>
          obtain ⟨c, cs, h1, h2⟩ := keyText_start h (hls l (by simp))
          simp only [tupleText, h1, List.cons_append, List.nil_append, List.cons.injEq] at he
          exact absurd he.1.symm h2
      | cons k ks =>
        cases ls with
        | nil =>
          obtain ⟨c, cs, h1, h2⟩ := keyText_start h (hks k (by simp))
          simp only [tupleText, h1, List.cons_append, List.nil_append, List.cons.injEq] at he
          exact absurd he.1 h2
        | cons l ls =>
          simp only [tupleText, List.append_assoc] at he
          have hgo : ∀ (xs : List Key) (r : List Char),
              GoesOn ((if xs.isEmpty = true then [',', ')'] else moreText rp xs) ++ r) := by
            intro xs r
            split
            · simp [GoesOn]
            · exact goesOn_more rp xs r
          obtain ⟨rfl, he'⟩ := ih k (by simp) l _ _ (hls l (by simp)) (hgo ks r) (hgo ls r') he
          cases ks with
          | nil =>
            cases ls with
            | nil => simp at he'; exact ⟨rfl, he'⟩
            | cons => simp [moreText] at he'
          | cons k' ks =>
            cases ls with
            | nil => simp [moreText] at he'
            | cons l' ls =>
              simp only [List.isEmpty_cons, Bool.false_eq_true, if_false] at he'
              obtain ⟨e, hr⟩ := hmore (k' :: ks) (l' :: ls) (fun x hx => ih x (by simp [hx]))
                (fun x hx => hls x (by simp [hx])) he'
              rw [e]
              exact ⟨rfl, hr⟩

/-- The identity of a record has as many members as the class has identifying properties. -/
theorem rid_length {S : Schema} {n : Nat} {c : String} {v : Val} {k : Key} (hc : (S.cls c).coll = none)
    (h : rid S .none n (.cls c) .none v = .ok k) : ∃ ks, k = .tup ks ∧ ks.length = (idProps (S.cls c) .none).length := by
  cases n with
  | zero => cases h
  | succ n =>
    rw [rid_slots (.inr hc)] at h
    generalize e : mapE _ _ = r at h
    cases r with
    | error e => cases h
    | ok ks =>
      cases h
      exact ⟨ks, rfl, (Mfs.mapE_eq_forall2 e).length_eq.symm⟩

theorem shorten_length (t : List Char) : (shorten t).length ≤ 33 := by
  unfold shorten
  split
  · simp
  · omega

/-- **C115 (what holds).** Two records of one class that print alike have the same identity, if the text of one of
their keys has at most 32 characters.  Missing: longer keys, of which only the beginning is printed
(`C115_violated`). -/
theorem C115_partial (S : Schema) (rp : Val → List Char) (P : Val → Prop) (h : ReprTells rp P) (n : Nat) (c : String)
    (s t : List (String × Val)) (k l : Key) (x : List Char) (hc : (S.cls c).coll = none)
    (h1 : recordId S n (.rcd c s) = .ok k) (h2 : recordId S n (.rcd c t) = .ok l) (hk : KeyOf P k) (hl : KeyOf P l)
    (hs : strOf rp S n (.rcd c s) = .ok x) (ht : strOf rp S n (.rcd c t) = .ok x)
    (hshort : (keyText rp (shownKey k)).length ≤ 32) : k = l := by
  simp only [strOf, h1, Except.ok.injEq] at hs
  simp only [strOf, h2, Except.ok.injEq] at ht
  have he : shorten (keyText rp (shownKey k)) = shorten (keyText rp (shownKey l)) := by
    rw [← ht] at hs
    simp only [recordText, List.cons.injEq, true_and, List.append_cancel_left_eq] at hs
    exact List.append_cancel_right hs
  have he' : keyText rp (shownKey k) = keyText rp (shownKey l) := by
    unfold shorten at he
    rw [if_neg (by omega)] at he
    split at he
    · rename_i hlong
      have := congrArg List.length he
      simp at this
      omega
    · exact he
  obtain ⟨ks, rfl, hks⟩ := rid_length hc h1
  obtain ⟨ls, rfl, hls⟩ := rid_length hc h2
  have hlen : ks.length = ls.length := hks.trans hls.symm
  have hshown : ∀ {m : List Key}, KeyOf P (.tup m) → KeyOf P (shownKey (.tup m)) := by
    intro m hm
    cases hm with
    | tup hm =>
      match m, hm with
      | [], hm => exact .tup hm
      | [a], hm => exact hm a (by simp)
      | a :: b :: r, hm => exact .tup hm
  have := (keyText_tells h (hshown hk) (shownKey (.tup ls)) [] [] (hshown hl) trivial trivial (by simpa using he')).1
  match ks, ls, hlen, this with
  | [], [], _, _ => rfl
  | [a], [b], _, e => simp only [shownKey] at e; rw [e]
  | a :: a' :: r, b :: b' :: r', _, e => exact e

/-- A short key is printed in full, a long one is cut; the text has at most 36 characters more than the name of the
class. -/
theorem C115_text (S : Schema) (rp : Val → List Char) (n : Nat) (c : String) (s : List (String × Val)) (k : Key)
    (h : recordId S n (.rcd c s) = .ok k) :
    ∃ y, strOf rp S n (.rcd c s) = .ok ('<' :: (c.toList ++ ' ' :: (y ++ ['>']))) ∧ y.length ≤ 33 ∧
      ((keyText rp (shownKey k)).length ≤ 32 → y = keyText rp (shownKey k)) ∧
      (keyText rp (shownKey k)).take 30 = y.take 30 := by
  refine ⟨shorten (keyText rp (shownKey k)), by simp only [strOf, h, recordText], shorten_length _, ?_, ?_⟩
  · intro hs
    unfold shorten
    rw [if_neg (by omega)]
  · unfold shorten
    split
    · rename_i hl
      rw [List.take_append_of_le_length (by simp; omega), List.take_take]
      simp
    · rfl

/-- What is printed depends only on the identifying properties: the primary key, if there is one. -/
theorem C115_key (S : Schema) (rp : Val → List Char) (n : Nat) (c : String) (s t : List (String × Val))
    (hc : (S.cls c).pk ≠ [] ∨ (S.cls c).coll = none)
    (h : ∀ p, Identifies S c p → readAttr S (.rcd c s) p.name = readAttr S (.rcd c t) p.name) :
    strOf rp S n (.rcd c s) = strOf rp S n (.rcd c t) := by
  have := C29_determined S n c (.rcd c s) (.rcd c t) hc h
  simp only [strOf, recordId, typeOf, this]

/-- Every record whose values are of their declared types can be printed. -/
def C115_prints_statement : Prop :=
  ∀ (S : Schema) (rp : Val → List Char), ClassesOk S → ∀ (c : String) (s : List (String × Val)),
    OfDeclared S (.rcd c s) → ∃ x n, strOf rp S n (.rcd c s) = .ok x

/-- This is false: `str()` of a record with an empty typed collection raises. -/
theorem C115_prints_violated : ¬ C115_prints_statement := by
  intro h
  obtain ⟨x, n, hx⟩ := h hashSchema (fun _ => []) hashSchema_ok "Student" _ declared_no_tags
  have := (C101_empty hashSchema "Student" "Tags" [("tags", .lcoll "Tags" [])] (.lcoll "Tags" []) { name := "tags", types := [.cls "Tags"] }
    rfl (by simp [Identifies, hashSchema, hashClasses]) rfl (by decide) rfl rfl (.inl ⟨_, rfl⟩) n)
  cases hk : recordId hashSchema n (.rcd "Student" [("tags", .lcoll "Tags" [])]) with
  | error e => simp [strOf, hk] at hx
  | ok k => exact (this k 0).1 hk

/-- And true of those that C101 is true of. -/
theorem C115_prints_partial (S : Schema) (rp : Val → List Char) (ok : ClassesOk S) (hu : NoRecordUnions S) (c : String)
    (s : List (String × Val)) (h : OfDeclared S (.rcd c s)) (hne : NoEmptyColls S (.rcd c s)) :
    ∃ x N, ∀ n, N ≤ n → strOf rp S n (.rcd c s) = .ok x := by
  obtain ⟨k, N, hk⟩ := C101_identity S ok hu _ h hne
  exact ⟨recordText rp c k, N, fun n hn => by simp only [strOf, hk n hn]⟩

/-! ## `repr` of plain values -/

/-- The value as the model of `repr` has it. -/
def reprOf : Val → Repr.V
  | .atom (.bool b) => .bool b
  | .atom (.int i) => .int i
  | .atom (.str s) => .str s
  | _ => .none

/-- `repr` of plain values; see `Verif.Model.Repr`. -/
def plainRepr (printable : Char → Bool) (v : Val) : List Char :=
  (Repr.reprV printable (fun _ => none) (reprOf v)).getD []

theorem works_plain (printable : Char → Bool) (v : Val) :
    Repr.Works printable (fun _ => none) (reprOf v) := by
  refine Repr.works_fits ?_ ?_ ?_ ?_
  · constructor <;> simp
  · simp [NoOwnNames]
  all_goals
  · unfold reprOf
    split <;> constructor

/-- Python's `repr` tells plain values apart. -/
theorem C115_plain (printable : Char → Bool) : ReprTells (plainRepr printable) PlainAtom where
  tells v w hv hw r r' hr hr' he := by
    have hd : ∀ {r}, GoesOn r → Repr.Delim r := by
      intro r hr
      cases r with
      | nil => trivial
      | cons a r => rcases hr with rfl | rfl <;> simp [Repr.Delim]
    obtain ⟨t, e, h1, _, _, h2, h3⟩ := works_plain printable v
    obtain ⟨t', e', g1, _, _, g2, g3⟩ := works_plain printable w
    simp only [plainRepr, h1, g1, Option.getD_some] at he
    have k1 := h2 (t ++ r).length r (hd hr) (by simp)
    have k2 := g2 (t' ++ r').length r' (hd hr') (by simp)
    rw [he, k2] at k1
    simp only [Option.some.injEq, Prod.mk.injEq] at k1
    rw [k1.1, h3, Option.some.injEq] at g3
    rcases hv with rfl | ⟨b, rfl⟩ | ⟨i, rfl⟩ | ⟨s, rfl⟩ <;> rcases hw with rfl | ⟨b', rfl⟩ | ⟨i', rfl⟩ | ⟨s', rfl⟩ <;>
      simp [reprOf, Val.none, Val.int, Val.str] at g3 <;> simp [g3, Val.none, Val.int, Val.str]
  starts v hv := by
    rcases hv with rfl | ⟨b, rfl⟩ | ⟨i, rfl⟩ | ⟨s, rfl⟩
    · exact ⟨'N', ['o', 'n', 'e'], by simp [plainRepr, reprOf, Val.none, Repr.reprV], by decide, by decide⟩
    · cases b
      · exact ⟨'F', ['a', 'l', 's', 'e'], by simp [plainRepr, reprOf, Repr.reprV], by decide, by decide⟩
      · exact ⟨'T', ['r', 'u', 'e'], by simp [plainRepr, reprOf, Repr.reprV], by decide, by decide⟩
    · have ht : plainRepr printable (.int i) = Repr.reprInt i := by simp [plainRepr, reprOf, Val.int, Repr.reprV]
      rw [ht]
      cases i with
      | ofNat m =>
        simp only [Repr.reprInt]
        cases h : Nat.toDigits 10 m with
        | nil => exact absurd h Nat.toDigits_ne_nil
        | cons c r =>
          have hc : c.isDigit = true := toDigits_isDigit (n := m) (by rw [h]; simp)
          refine ⟨c, r, rfl, ?_, ?_⟩ <;>
          · rintro rfl
            exact absurd hc (by decide)
      | negSucc m => exact ⟨'-', _, rfl, by decide, by decide⟩
    · have ht : plainRepr printable (.str s) = Repr.reprStr printable s.toList := by
        simp [plainRepr, reprOf, Val.str, Repr.reprV]
      rw [ht]
      refine ⟨Repr.quoteOf s.toList, _, rfl, ?_, ?_⟩ <;>
      · rcases Repr.quoteOf_isQuote s.toList with h | h <;> rw [h] <;> decide

/-- Lists of one class print alike exactly if they have the same number of items. -/
theorem C115_list (S : Schema) (rp : Val → List Char) (n : Nat) (c : String) (xs ys : List Val) :
    strOf rp S n (.lcoll c xs) = strOf rp S n (.lcoll c ys) ↔ xs.length = ys.length := by
  refine ⟨fun h => ?_, fun h => by simp only [strOf, h]⟩
  simp only [strOf, Except.ok.injEq, List.cons.injEq, true_and, List.append_cancel_left_eq] at h
  have h' := List.append_cancel_right h
  have ht : ∀ m : Nat, plainRepr (fun _ => true) (.int (Int.ofNat m)) = Nat.toDigits 10 m := by
    intro m
    simp [plainRepr, reprOf, Val.int, Repr.reprV, Repr.reprInt]
  rw [← ht, ← ht] at h'
  have := (C115_plain (fun _ => true)).tells _ _ (.inr (.inr (.inl ⟨_, rfl⟩))) (.inr (.inr (.inl ⟨_, rfl⟩))) [] []
    trivial trivial (by simpa using h')
  simpa [Val.int] using this

/-! ## Long keys -/

/-- Tasks, whose primary key is their title. -/
def taskSchema : Schema :=
  { hashSchema with
    cls := fun c => if c = "Task" then { props := [{ name := "title" }, { name := "note" }], pk := [{ name := "title" }] } else {} }

/-- A task with this title. -/
def taskOf (t : String) : Val := .rcd "Task" [("title", .str t)]

/-- **C115 does not hold**: of a long key only the first 30 characters are printed. -/
theorem C115_violated : ¬ C115_statement := by
  intro h
  have := h taskSchema (plainRepr (fun _ => true)) PlainAtom (C115_plain _) 5 "Task"
    [("title", .str "write the release notes of version 1")] [("title", .str "write the release notes of version 2")]
    (.tup [.raw (.str "write the release notes of version 1")])
    (.tup [.raw (.str "write the release notes of version 2")]) "<Task 'write the release notes of ve...>".toList rfl (by decide +kernel) (by decide +kernel)
    (.tup (by simp only [List.mem_singleton, forall_eq]; exact .raw (.inr (.inr (.inr ⟨_, rfl⟩)))))
    (.tup (by simp only [List.mem_singleton, forall_eq]; exact .raw (.inr (.inr (.inr ⟨_, rfl⟩)))))
    (by decide +kernel) (by decide +kernel)
  exact absurd this (by decide +kernel)

/-- Tasks are printed with their key. -/
example : strOf (plainRepr (fun _ => true)) taskSchema 5 (taskOf "write docs") = .ok "<Task 'write docs'>".toList := by
  decide +kernel

/-- Tasks that differ in a note only meet the hypotheses of `C115_partial` and `C115_key`. -/
example : ∃ x, strOf (plainRepr (fun _ => true)) taskSchema 5 (taskOf "write docs") = .ok x ∧
    strOf (plainRepr (fun _ => true)) taskSchema 5 (.rcd "Task" [("title", .str "write docs"), ("note", .int 3)]) = .ok x ∧
    recordId taskSchema 5 (taskOf "write docs") = .ok (.tup [.raw (.str "write docs")]) ∧
    KeyOf PlainAtom (.tup [.raw (.str "write docs")]) ∧
    (keyText (plainRepr (fun _ => true)) (shownKey (.tup [.raw (.str "write docs")]))).length ≤ 32 :=
  ⟨"<Task 'write docs'>".toList, by decide +kernel, by decide +kernel, by decide +kernel,
    .tup (by simp only [List.mem_singleton, forall_eq]; exact .raw (.inr (.inr (.inr ⟨_, rfl⟩)))), by decide +kernel⟩

/-- Keys with several members are printed as tuples, and nested ones too. -/
example : recordText (plainRepr (fun _ => true)) "Task" (.tup [.raw (.int 3), .tup [.raw .none], .tup []]) =
    "<Task (3, (None,), ())>".toList := by decide +kernel

end Normalize.Props
