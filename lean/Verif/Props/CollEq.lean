import Verif.Model.CollEq
import Verif.Props.Identity
import Verif.Props.CollDict

/-!
# C36: equality of collections
-/

namespace Normalize.Ident

open Normalize.Coll

/-- **C36**: two list collections, of whatever classes, are equal exactly if their item types are the same,
they have as many members, and the members at each position are equal. -/
theorem C36_list (S : Schema) (c d : String) (xs ys : List Val) :
    veq S (.lcoll c xs) (.lcoll d ys) = .ok true ↔
      itemOf S c = itemOf S d ∧ xs.length = ys.length ∧
        ∀ (i : Nat) x y, xs[i]? = some x → ys[i]? = some y → veq S x y = .ok true := by
  rw [veq_lcoll]
  constructor
  · rintro ⟨h, hf⟩
    exact ⟨h, hf.length_eq, fun i x y hx hy => forall₂_get hf hx hy⟩
  · rintro ⟨h, hl, hf⟩
    refine ⟨h, ?_⟩
    clear h
    induction xs generalizing ys with
    | nil => cases ys with
      | nil => exact .nil
      | cons y ys => simp at hl
    | cons x xs ih =>
      cases ys with
      | nil => simp at hl
      | cons y ys =>
        exact .cons (hf 0 x y rfl rfl) (ih ys (by simpa using hl) (fun i a b ha hb => hf (i + 1) a b ha hb))

/-- **C36**: two dict collections are equal exactly if their item types are the same, they have as many
entries, and every key of the one is in the other with an equal value. -/
theorem C36_dict (S : Schema) (c d : String) (xs ys : List (Comp × Val)) (hx : (xs.map (·.1)).Nodup) :
    veq S (.dcoll c xs) (.dcoll d ys) = .ok true ↔
      itemOf S c = itemOf S d ∧ xs.length = ys.length ∧
        ∀ k x, alookup xs k = some x → ∃ y, alookup ys k = some y ∧ veq S x y = .ok true := by
  rw [veq_dcoll]
  unfold DictEq
  constructor
  · rintro ⟨h, hl, hf⟩
    exact ⟨h, hl, fun k x hk => hf (k, x) (Mfs.alookup_mem hk)⟩
  · rintro ⟨h, hl, hf⟩
    exact ⟨h, hl, fun x hm => hf x.1 x.2 (alookup_of_mem hx hm)⟩

/-- **C36**: a list collection never equals a dict collection, a record, a plain dict or an object without
parts. -/
theorem C36_other_kinds (S : Schema) (c : String) (xs : List Val) (v : Val)
    (h1 : ∀ ys, v ≠ .list ys) (h2 : ∀ d ys, v ≠ .lcoll d ys) : veq S (.lcoll c xs) v = .ok false := by
  cases v with
  | list ys => exact (h1 ys rfl).elim
  | lcoll d ys => exact (h2 d ys rfl).elim
  | _ => simp [veq]

theorem C36_other_kinds_dict (S : Schema) (c : String) (xs : List (Comp × Val)) (v : Val)
    (h1 : ∀ ys, v ≠ .dict ys) (h2 : ∀ d ys, v ≠ .dcoll d ys) : veq S (.dcoll c xs) v = .ok false := by
  cases v with
  | dict ys => exact (h1 ys rfl).elim
  | dcoll d ys => exact (h2 d ys rfl).elim
  | _ => simp [veq]

section

variable (S : Schema) (T : String → CT Val)

theorem itemOf_closed (n : Nat) (c : String) : itemOf (closed S T n) c = itemOf S c := by
  cases n <;> rfl

/-- **C36**: a list collection equals a plain list exactly if every item of the list can be coerced and the
collection made of the coerced items is equal to it.  If an item cannot be coerced, `==` raises. -/
theorem C36_plain_list (n : Nat) (c : String) (xs ys : List Val) :
    (veq (closed S T (n + 1)) (.lcoll c xs) (.list ys) = .ok true ↔
      ∃ zs, mapE (coerceValue (T c)) ys = .ok zs ∧ veq (closed S T n) (.lcoll c xs) (.lcoll c zs) = .ok true) ∧
    (∀ e, mapE (coerceValue (T c)) ys = .error e →
      veq (closed S T (n + 1)) (.lcoll c xs) (.list ys) = .error e) ∧
    veq (closed S T (n + 1)) (.list ys) (.lcoll c xs) = veq (closed S T (n + 1)) (.lcoll c xs) (.list ys) := by
  have hs : veq (closed S T (n + 1)) (.list ys) (.lcoll c xs) = (closed S T (n + 1)).mixL c xs ys := by
    simp only [veq]
  have hd : veq (closed S T (n + 1)) (.lcoll c xs) (.list ys) = (closed S T (n + 1)).mixL c xs ys := by
    simp only [veq]
  have hm : (closed S T (n + 1)).mixL c xs ys = match mapE (coerceValue (T c)) ys with
      | .ok zs => veq (closed S T n) (.lcoll c xs) (.lcoll c zs)
      | .error e => .error e := by
    simp only [closed, listInit, coerceAll_list]
    cases mapE (coerceValue (T c)) ys <;> rfl
  refine ⟨?_, ?_, by rw [hs, hd]⟩
  · rw [hd, hm]
    cases mapE (coerceValue (T c)) ys with
    | ok zs => simp
    | error e => simp
  · intro e he
    rw [hd, hm, he]

theorem aset_new {d : List (Comp × Val)} {k : Comp} {v : Val} (h : k ∉ d.map (·.1)) :
    aset d k v = d ++ [(k, v)] := by
  induction d with
  | nil => rfl
  | cons y d ih =>
    obtain ⟨k', v'⟩ := y
    simp only [List.map_cons, List.mem_cons, not_or] at h
    unfold aset
    rw [if_neg (fun e => h.1 e.symm), ih h.2]
    rfl

theorem collSetAll_new : ∀ (kvs d : List (Comp × Val)), ((d ++ kvs).map (·.1)).Nodup → Coll.setAll kvs d = d ++ kvs
  | [], d, _ => by simp [Coll.setAll]
  | (k, v) :: kvs, d, h => by
    have hk : k ∉ d.map (·.1) := by
      intro hm
      rw [List.map_append, List.nodup_append] at h
      exact h.2.2 k hm k (by simp) rfl
    simp only [Coll.setAll, aset_new hk]
    rw [collSetAll_new kvs _ (by simpa using h)]
    simp

theorem coercePairs_keys {C : CT Val} : ∀ {kvs kvs' : List (Comp × Val)}, coercePairs C kvs = .ok kvs' →
    kvs'.map (·.1) = kvs.map (·.1)
  | [], _, h => by cases h; rfl
  | (k, v) :: kvs, _, h => by
    obtain ⟨w, rest, _, hr, rfl⟩ := coercePairs_cons C h
    simp [coercePairs_keys hr]

theorem dictOf_error {C : CT Val} : ∀ {kvs : List (Comp × Val)} {e : Exc} (d : List (Comp × Val)),
    coercePairs C kvs = .error e → dictOf C kvs .none d = .error e
  | [], e, d, h => by cases h
  | (k, v) :: kvs, e, d, h => by
    unfold coercePairs mapE at h
    unfold dictOf
    cases hv : coerceValue C v with
    | error e' => simp only [coercePair, hv] at h; simpa using h
    | ok w =>
      simp only [coercePair, hv] at h
      split at h
      · next hr => cases h; exact dictOf_error _ hr
      · cases h

/-- **C36**: a dict collection equals a plain dict exactly if every value can be coerced and the collection
made of the coerced values is equal to it. -/
theorem C36_plain_dict (n : Nat) (c : String) (xs ys : List (Comp × Val)) (hy : (ys.map (·.1)).Nodup) :
    (veq (closed S T (n + 1)) (.dcoll c xs) (.dict ys) = .ok true ↔
      ∃ zs, coercePairs (T c) ys = .ok zs ∧ veq (closed S T n) (.dcoll c xs) (.dcoll c zs) = .ok true) ∧
    (∀ e, coercePairs (T c) ys = .error e →
      veq (closed S T (n + 1)) (.dcoll c xs) (.dict ys) = .error e) ∧
    veq (closed S T (n + 1)) (.dict ys) (.dcoll c xs) = veq (closed S T (n + 1)) (.dcoll c xs) (.dict ys) := by
  have hs : veq (closed S T (n + 1)) (.dict ys) (.dcoll c xs) = (closed S T (n + 1)).mixD c xs ys := by
    simp only [veq]
  have hd : veq (closed S T (n + 1)) (.dcoll c xs) (.dict ys) = (closed S T (n + 1)).mixD c xs ys := by
    simp only [veq]
  have hm : (closed S T (n + 1)).mixD c xs ys = match coercePairs (T c) ys with
      | .ok zs => veq (closed S T n) (.dcoll c xs) (.dcoll c zs)
      | .error e => .error e := by
    simp only [closed, dictInit]
    cases hc : coercePairs (T c) ys with
    | ok zs =>
      rw [dictOf_ok (T c) [] hc, collSetAll_new zs [] (by rw [List.nil_append, coercePairs_keys hc]; exact hy)]
      rfl
    | error e => rw [dictOf_error [] hc]
  refine ⟨?_, ?_, by rw [hs, hd]⟩
  · rw [hd, hm]
    cases coercePairs (T c) ys with
    | ok zs => simp
    | error e => simp
  · intro e he
    rw [hd, hm, he]

/-- **C36**: `==` of collections is reflexive and symmetric. -/
theorem C36_refl_symm (S : Schema) (L : AtomLaws S) (a b : Val) (wa : WF S a) (wb : WF S b) :
    veq S a a = .ok true ∧ (veq S a b = .ok true → veq S b a = .ok true) :=
  ⟨veq_refl L a wa, veq_symm L a wa b wb⟩

end

namespace Demo

/-- Item types: strings, to which ints can be coerced. -/
def T (_ : String) : CT Val where
  inst | .atom (.str _) => true | _ => false
  coerce | .atom (.int i) => .ok (.str (toString i)) | _ => .error .typeError
  eq a b := decide (a = b)
  iterOf _ := .none

/-- Tags `["a", "7"]` equal the plain list `["a", 7]` but not `["a", 8]`, and comparing them to `[None]`
raises. -/
example :
    veq (closed S T 1) (.lcoll "Tags" [.str "a", .str "7"]) (.list [.str "a", .int 7]) = .ok true ∧
    veq (closed S T 1) (.list [.str "a", .int 8]) (.lcoll "Tags" [.str "a", .str "7"]) = .ok false ∧
    veq (closed S T 1) (.lcoll "Tags" [.str "a", .str "7"]) (.list [.none]) = .error .collectionItemCoerce ∧
    veq (closed S T 1) (.dcoll "Map" [(.int 1, .str "a"), (.int 2, .str "7")])
      (.dict [(.int 2, .int 7), (.int 1, .str "a")]) = .ok true ∧
    veq S (.lcoll "Tags" [.str "a", .str "7"]) (.lcoll "Tags" [.str "a", .str "7"]) = .ok true := by
  decide +kernel

end Demo

end Normalize.Ident
