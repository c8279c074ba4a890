import Verif.Spec.PostOrder
import Verif.Props.Access
import Verif.Props.SelectorOrder

/-!
# C60: posting in sorted order rebuilds a list
-/

namespace Normalize

open Spec

theorem post_existing {E : Env} {cls : String} {xs : List Val} {i : Nat} (hi : i < xs.length) {p : FS}
    (hp : p ≠ []) (v : Val) :
    post E (.int i :: p) v (.lcoll cls xs) =
      ((post E p v xs[i]).1, .lcoll cls (xs.set i (post E p v xs[i]).2)) := by
  have hpy : pyIndex xs.length i = some i := by simp [pyIndex, hi]
  have hg : getItem (.lcoll cls xs) (.int i) = .ok xs[i] := by
    simp [getItem, getIdx, hpy, hi]
  rw [post_cons (by simp) hp, stepPost_present _ (step_of_getItem rfl hg)]
  simp [replaceChild, setIdx, hpy]

theorem post_new {E : Env} (hE : Honest E) {cls : String} {xs : List Val} {p : FS} (hp : p ≠ [])
    (hpl : Plain p) (v : Val) :
    match fresh E cls p v with
    | .error e => ∃ x', post E (.int xs.length :: p) v (.lcoll cls xs) = (.error e, x')
    | .ok it => ∃ n, post E (.int xs.length :: p) v (.lcoll cls xs) = (.ok n, .lcoll cls (xs ++ [it])) := by
  have hpy : pyIndex xs.length xs.length = none := by simp [pyIndex]
  have hnone : getItem (.lcoll cls xs) (.int xs.length) = .error .indexError := by
    simp [getItem, getIdx, hpy]
  have hg2 : ∀ it, getItem (.lcoll cls (xs ++ [it])) (.int xs.length) = .ok it := by
    intro it; simp only [getItem]; rw [getIdx_append_end]
  have hsp : ∀ kw, stepPost E (.lcoll cls xs) (.int xs.length) kw =
      match callKw (E.makeItem cls) kw with
      | .error e => (.lcoll cls xs, false, .fail e)
      | .ok it => (.lcoll cls (xs ++ [it]), kw.isSome, .child it) := by
    intro kw
    simp only [stepPost, tryIndex, if_true, hnone, lenVal, newItem]
    cases h : callKw (E.makeItem cls) kw with
    | error e => rfl
    | ok it =>
      have hco : E.coerceItem cls it = .ok it := by
        rcases callKw_ok h with ⟨_, h'⟩ | ⟨s, v, _, h'⟩
        · exact hE.item _ _ _ h'
        · exact hE.item _ _ _ h'
      simp only [append, hco, hg2]
  have deep : kwarg p v = none → fresh E cls p v = (match E.makeItem cls none with
      | .error e => .error e
      | .ok it => match post E p v it with
        | (.error e, _) => .error e
        | (.ok _, it') => .ok it') → match fresh E cls p v with
    | .error e => ∃ x', post E (.int xs.length :: p) v (.lcoll cls xs) = (.error e, x')
    | .ok it => ∃ n, post E (.int xs.length :: p) v (.lcoll cls xs) = (.ok n, .lcoll cls (xs ++ [it])) := by
    intro hk hf
    rw [hf, post_cons (by simp) hp, hk, hsp]
    simp only [callKw]
    cases hm : E.makeItem cls none with
    | error e => exact ⟨_, rfl⟩
    | ok it =>
      simp only [Option.isSome_none]
      have hset : replaceChild (.lcoll cls (xs ++ [it])) (.int xs.length) (post E p v it).2 =
          .lcoll cls (xs ++ [(post E p v it).2]) := by
        have : pyIndex (xs ++ [it]).length xs.length = some xs.length := by
          have : ((xs.length : Int) < (xs.length : Int) + 1) := by omega
          simp [pyIndex, this]
        simp only [replaceChild, setIdx, this]
        simp
      rw [hset]
      cases hq : post E p v it with
      | mk r it' => cases r <;> exact ⟨_, rfl⟩
  match p, hp, hpl, deep with
  | [.str f], _, _, _ =>
    rw [post_cons (by simp) (by simp), hsp]
    simp only [fresh, kwarg, callKw]
    cases E.makeItem cls (some (f, v)) with
    | error e => exact ⟨_, rfl⟩
    | ok it => exact ⟨_, rfl⟩
  | [.int j], _, _, _ =>
    rw [post_cons (by simp) (by simp), hsp]
    exact ⟨_, rfl⟩
  | [.none], _, hpl, _ => exact absurd rfl (hpl .none (by simp))
  | a :: b :: q, _, _, deep => exact deep (by simp [kwarg]) (by
      simp only [fresh]
      cases E.makeItem cls none with
      | error e => rfl
      | ok it =>
        simp only
        cases post E (a :: b :: q) v it with
        | mk r y => cases r <;> rfl)

/-- Indices grow by at most one, starting from a list of `k` items. -/
inductive Steps : Nat → List Field → Nat → Prop
  | nil {k} : Steps k [] k
  | old {k f L n} : f.i < k → Steps k L n → Steps k (f :: L) n
  | new {k f L n} : f.i = k → Steps (k + 1) L n → Steps k (f :: L) n

theorem steps_of_sorted {n : Nat} : ∀ (L : List Field) (k : Nat), k ≤ n →
    L.Pairwise (fun a b => a.i ≤ b.i) → (∀ f ∈ L, f.i < n) → (∀ i, k ≤ i → i < n → ∃ f ∈ L, f.i = i) →
    Steps k L n := by
  intro L
  induction L with
  | nil =>
    intro k hk _ _ hc
    have : k = n := by
      rcases Nat.lt_or_ge k n with h | h
      · obtain ⟨f, hf, _⟩ := hc k (Nat.le_refl k) h; simp at hf
      · omega
    subst this; exact .nil
  | cons f L ih =>
    intro k hk hs hb hc
    rw [List.pairwise_cons] at hs
    have hfn := hb f (by simp)
    rcases Nat.lt_trichotomy f.i k with h | h | h
    · refine .old h (ih k hk hs.2 (fun g hg => hb g (by simp [hg])) ?_)
      intro i hi hin
      obtain ⟨g, hg, rfl⟩ := hc i hi hin
      simp at hg
      rcases hg with rfl | hg
      · omega
      · exact ⟨g, hg, rfl⟩
    · refine .new h (ih (k + 1) (by omega) hs.2 (fun g hg => hb g (by simp [hg])) ?_)
      intro i hi hin
      obtain ⟨g, hg, rfl⟩ := hc i (by omega) hin
      simp at hg
      rcases hg with rfl | hg
      · omega
      · exact ⟨g, hg, rfl⟩
    · exfalso
      obtain ⟨g, hg, h'⟩ := hc k (Nat.le_refl k) (by omega)
      simp at hg
      rcases hg with rfl | hg
      · omega
      · have := hs.1 g hg; omega

theorem fieldsOf_cons (i : Nat) (f : Field) (L : List Field) :
    fieldsOf i (f :: L) = if f.i = i then (f.path, f.value) :: fieldsOf i L else fieldsOf i L := by
  unfold fieldsOf
  by_cases h : f.i = i <;> simp [h]

theorem postSeq_fields {E : Env} (hE : Honest E) {cls : String} {L : List Field} {k n : Nat} (hs : Steps k L n)
    (hL : ∀ f ∈ L, f.path ≠ [] ∧ Plain f.path) (xs : List Val) (hk : xs.length = k) :
    (∃ ys, postSeq E (L.map (fun f => (f.selector, f.value))) (.lcoll cls xs) = (.ok (), .lcoll cls ys) ∧
      ys.length = n ∧ k ≤ n ∧
      (∀ (i : Nat) (h : i < xs.length) (h' : i < ys.length), postSeq E (fieldsOf i L) xs[i] = (.ok (), ys[i])) ∧
      (∀ (i : Nat) (h' : i < ys.length), k ≤ i → buildItem E cls (fieldsOf i L) = .ok ys[i])) ∨
    (∃ e x', postSeq E (L.map (fun f => (f.selector, f.value))) (.lcoll cls xs) = (.error e, x') ∧
      ((∃ (i : Nat) (h : i < xs.length), (postSeq E (fieldsOf i L) xs[i]).1 = .error e) ∨
       (∃ i, k ≤ i ∧ i < n ∧ buildItem E cls (fieldsOf i L) = .error e))) := by
  induction hs generalizing xs with
  | nil =>
    left
    exact ⟨xs, rfl, hk, Nat.le_refl _, fun i h h' => rfl, fun i h' hi => absurd h' (by omega)⟩
  | @old k f L n hf _ ih =>
    obtain ⟨hp, hpl⟩ := hL f (by simp)
    have hfx : f.i < xs.length := by omega
    simp only [List.map_cons, postSeq, Field.selector]
    rw [post_existing hfx hp]
    cases hq : post E f.path f.value xs[f.i] with
    | mk r y =>
      cases r with
      | error e =>
        right
        refine ⟨e, _, rfl, .inl ⟨f.i, hfx, ?_⟩⟩
        simp [fieldsOf_cons, postSeq, hq]
      | ok m =>
        simp only
        rcases ih (fun g hg => hL g (by simp [hg])) (xs.set f.i y) (by simpa using hk) with
          ⟨ys, h1, h2, h3, h4, h5⟩ | ⟨e, x', h1, h2⟩
        · left
          refine ⟨ys, h1, h2, h3, ?_, ?_⟩
          · intro i hi hi'
            have := h4 i (by simpa using hi) hi'
            rw [fieldsOf_cons]
            by_cases h : f.i = i
            · subst h; simpa [postSeq, hq] using this
            · simpa [h, List.getElem_set] using this
          · intro i hi hki
            have : f.i ≠ i := by omega
            rw [fieldsOf_cons, if_neg this]; exact h5 i hi hki
        · right
          refine ⟨e, x', h1, ?_⟩
          rcases h2 with ⟨i, hi, h⟩ | ⟨i, hi, hin, h⟩
          · left
            refine ⟨i, by simpa using hi, ?_⟩
            rw [fieldsOf_cons]
            by_cases hfi : f.i = i
            · subst hfi; simpa [postSeq, hq] using h
            · simpa [hfi, List.getElem_set] using h
          · right
            have : f.i ≠ i := by omega
            exact ⟨i, hi, hin, by rw [fieldsOf_cons, if_neg this]; exact h⟩
  | @new k f L n hf hst ih =>
    obtain ⟨hp, hpl⟩ := hL f (by simp)
    have hfx : f.i = xs.length := by omega
    have hn : k + 1 ≤ n := by
      clear ih
      generalize hk1 : k + 1 = k1 at hst
      have : ∀ {a M b}, Steps a M b → a ≤ b := by
        intro a M b h
        induction h with
        | nil => exact Nat.le_refl _
        | old _ _ ih => exact ih
        | new _ _ ih => omega
      exact this hst
    have hnew := post_new (cls := cls) (xs := xs) hE hp hpl f.value
    simp only [List.map_cons, postSeq, Field.selector, hfx]
    cases hfr : fresh E cls f.path f.value with
    | error e =>
      simp only [hfr] at hnew
      obtain ⟨x', hx⟩ := hnew
      right
      refine ⟨e, x', by simp only [hx], .inr ⟨k, Nat.le_refl k, by omega, ?_⟩⟩
      simp [fieldsOf_cons, hf, buildItem, hfr]
    | ok it =>
      simp only [hfr] at hnew
      obtain ⟨m, hx⟩ := hnew
      simp only [hx]
      rcases ih (fun g hg => hL g (by simp [hg])) (xs ++ [it]) (by simp [hk]) with
        ⟨ys, h1, h2, h3, h4, h5⟩ | ⟨e, x', h1, h2⟩
      · left
        refine ⟨ys, h1, h2, by omega, ?_, ?_⟩
        · intro i hi hi'
          have := h4 i (by simp; omega) hi'
          have hne : f.i ≠ i := by omega
          rw [fieldsOf_cons, if_neg hne]
          simpa [List.getElem_append, hi] using this
        · intro i hi hki
          rw [fieldsOf_cons]
          by_cases h : f.i = i
          · subst h
            have := h4 f.i (by simp; omega) hi
            have hit : (xs ++ [it])[f.i]'(by simp; omega) = it := by simp [hfx]
            rw [hit] at this
            simp [buildItem, hfr, this]
          · rw [if_neg h]; exact h5 i hi (by omega)
      · right
        refine ⟨e, x', h1, ?_⟩
        rcases h2 with ⟨i, hi, h⟩ | ⟨i, hi, hin, h⟩
        · by_cases hfi : f.i = i
          · right
            refine ⟨i, by omega, by omega, ?_⟩
            subst hfi
            have hit : (xs ++ [it])[f.i]'(by simp; omega) = it := by simp [hfx]
            rw [hit] at h
            cases hq : postSeq E (fieldsOf f.i L) it with
            | mk r y => rw [hq] at h; simp at h; subst h; simp [fieldsOf_cons, buildItem, hfr, hq]
          · left
            have hi' : i < xs.length := by simp at hi; omega
            refine ⟨i, hi', ?_⟩
            rw [fieldsOf_cons, if_neg hfi]
            simpa [List.getElem_append, hi'] using h
        · right
          have : f.i ≠ i := by omega
          exact ⟨i, by omega, hin, by rw [fieldsOf_cons, if_neg this]; exact h⟩

/-- C60: when the fields are sorted (none sorts before an earlier one) and the indices present are exactly
`0 … n-1`, posting them into an empty collection gives one item per index, each built from its own fields; the
only exceptions are those of building an item. -/
theorem C60_post_sorted (E : Env) (hE : Honest E) (cls : String) (n : Nat) (L : List Field)
    (hL : ∀ f ∈ L, f.path ≠ [] ∧ Plain f.path)
    (hsorted : L.Pairwise (fun a b => FS.lt b.selector a.selector ≠ .ok true))
    (hidx : ∀ i, (∃ f ∈ L, f.i = i) ↔ i < n) :
    (∃ ys, postSeq E (L.map (fun f => (f.selector, f.value))) (.lcoll cls []) = (.ok (), .lcoll cls ys) ∧
      ys.length = n ∧ ∀ (i : Nat) (h : i < ys.length), buildItem E cls (fieldsOf i L) = .ok ys[i]) ∨
    (∃ e x' i, postSeq E (L.map (fun f => (f.selector, f.value))) (.lcoll cls []) = (.error e, x') ∧
      i < n ∧ buildItem E cls (fieldsOf i L) = .error e) := by
  have hle : L.Pairwise (fun a b => a.i ≤ b.i) := by
    refine hsorted.imp ?_
    intro a b h
    rcases Nat.lt_or_ge b.i a.i with h' | h'
    · exfalso
      apply h
      have : ¬ ((b.i : Int) = (a.i : Int)) := by omega
      simp [Field.selector, FS.lt, this, Comp.sameType, Comp.ltSame, h']
    · exact h'
  have hst := steps_of_sorted (n := n) L 0 (by omega) hle (fun f hf => (hidx f.i).1 ⟨f, hf, rfl⟩)
    (fun i _ hi => (hidx i).2 hi)
  rcases postSeq_fields (cls := cls) hE hst hL [] rfl with ⟨ys, h1, h2, _, _, h5⟩ | ⟨e, x', h1, h2⟩
  · left; exact ⟨ys, h1, h2, fun i h => h5 i h (by omega)⟩
  · right
    rcases h2 with ⟨i, hi, _⟩ | ⟨i, _, hin, h⟩
    · simp at hi
    · exact ⟨e, x', i, h1, hin, h⟩

/-- Three fields of two people, sorted, of which the second field of the first is nested. -/
def Demo.fields : List Field :=
  [⟨0, [.str "boss", .str "name"], .str "X"⟩, ⟨0, [.str "name"], .str "A"⟩, ⟨1, [.str "name"], .str "B"⟩]

/-! The hypotheses of `C60_post_sorted` hold, and two items are built. -/
example : Demo.fields.Pairwise (fun a b => FS.lt b.selector a.selector ≠ .ok true) := by
  decide +kernel
example : ∀ i, (∃ f ∈ Demo.fields, f.i = i) ↔ i < 2 := by
  intro i
  simp [Demo.fields]
  omega
example : ∀ f ∈ Demo.fields, f.path ≠ [] ∧ Plain f.path := by
  simp [Demo.fields, Plain]
example : postSeq Demo.env (Demo.fields.map (fun f => (f.selector, f.value))) (.lcoll "People" []) =
    (.ok (), .lcoll "People" [
      .rcd "Person" [("boss", .rcd "Person" [("name", .str "X")]), ("name", .str "A")],
      .rcd "Person" [("name", .str "B")]]) := by decide +kernel

/-! Out of order, the code raises `ValueError`. -/
example : (postSeq Demo.env (Demo.fields.reverse.map (fun f => (f.selector, f.value)))
    (.lcoll "People" [])).1 = .error .valueError := by decide +kernel

end Normalize
