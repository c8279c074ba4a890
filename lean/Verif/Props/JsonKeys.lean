import Verif.Spec.JsonKeys

/-!
# C51: the keys of `AutoJsonRecord`
-/

namespace Normalize.Json.Auto
open Spec (HasJoint Digits)

variable {digit : Char → Bool}

theorem upper_lower (d : Char) (h : isUp d = true) : upper (lower d) = d ∧ isLow (lower d) = true := by
  simp [isUp] at h
  have h1 : 65 ≤ d.toNat := h.1
  have h2 : d.toNat ≤ 90 := h.2
  have hv : (d.toNat + 32).isValidChar := by left; omega
  have hn : (Char.ofNat (d.toNat + 32)).toNat = d.toNat + 32 := by
    unfold Char.ofNat
    rw [dif_pos hv]
    rfl
  constructor
  · simp only [upper, lower, hn, Nat.add_sub_cancel]
    exact Char.ofNat_toNat d
  · simp only [isLow, lower, Bool.and_eq_true]
    constructor
    · refine decide_eq_true ?_
      show (97 : Nat) ≤ (Char.ofNat (d.toNat + 32)).toNat
      omega
    · refine decide_eq_true ?_
      show (Char.ofNat (d.toNat + 32)).toNat ≤ (122 : Nat)
      omega

theorem keyIn_head (c : Char) (r : List Char) : ∃ t, keyIn digit (c :: r) = c :: t := by
  cases r with
  | nil => exact ⟨[], rfl⟩
  | cons d r =>
    simp only [keyIn]
    split
    · exact ⟨_, rfl⟩
    · exact ⟨_, rfl⟩

theorem keyIn_under (hd : Digits digit) (r : List Char) : keyIn digit ('_' :: r) = '_' :: keyIn digit r := by
  cases r with
  | nil => rfl
  | cons d r =>
    have h0 : isLow '_' = false := by decide
    have h1 : digit '_' = false := by
      cases h : digit '_' with
      | false => rfl
      | true => exact absurd rfl (hd _ h).1
    simp [keyIn, h0, h1]

theorem joint_cons {c : Char} {r : List Char} (h : ¬ HasJoint digit (c :: r)) : ¬ HasJoint digit r := by
  rintro ⟨pre, x, d, post, rfl, h1⟩
  exact h ⟨c :: pre, x, d, post, rfl, h1⟩

theorem keyOut_keyIn (hd : Digits digit) : ∀ n k, k.length ≤ n → ¬ HasJoint digit k →
    keyOut digit (keyIn digit k) = k := by
  intro n
  induction n with
  | zero => intro k hk _; simp at hk; subst hk; rfl
  | succ n ih =>
    intro k hk h
    match k, hk, h with
    | [], _, _ => rfl
    | [c], _, _ => rfl
    | c :: d :: r, hk, h =>
      simp only [List.length_cons] at hk
      simp only [keyIn]
      split
      · next hc =>
        rw [Bool.and_eq_true] at hc
        obtain ⟨hu, hl⟩ := upper_lower d hc.2
        simp [keyOut, hc.1, hl, hu, ih r (by omega) (joint_cons (joint_cons h))]
      · next hc =>
        have hih := ih (d :: r) (by simp; omega) (joint_cons h)
        obtain ⟨t, ht⟩ := keyIn_head (digit := digit) d r
        rw [ht] at hih ⊢
        cases t with
        | nil =>
          simp [keyOut] at hih ⊢
          exact hih
        | cons e t =>
          simp only [keyOut]
          split
          · next hm =>
            exfalso
            simp only [Bool.and_eq_true, beq_iff_eq] at hm
            obtain ⟨⟨hm1, rfl⟩, hm2⟩ := hm
            rw [keyIn_under hd] at ht
            simp only [List.cons.injEq, true_and] at ht
            cases r with
            | nil => simp [keyIn] at ht
            | cons x r =>
              obtain ⟨t', ht'⟩ := keyIn_head (digit := digit) x r
              rw [ht', List.cons.injEq] at ht
              obtain ⟨rfl, _⟩ := ht
              refine h ⟨[], c, x, r, rfl, ?_, ?_⟩
              · simpa [isLow] using hm1
              · simpa [isLow] using hm2
          · rw [hih]

/-- C51: converting a JSON key to a python attribute and back gives the original key, if no lower-case letter or
digit in it is followed by an underscore and a lower-case letter. -/
theorem C51_round_trip (hd : Digits digit) (k : String) (h : ¬ HasJoint digit k.toList) :
    convOut digit (convIn digit k) = k := by
  simp only [convOut, convIn, String.toList_ofList]
  rw [keyOut_keyIn hd _ _ (Nat.le_refl _) h, String.ofList_toList]

/-- C51: so different such keys give different attributes. -/
theorem C51_no_clash (hd : Digits digit) (k k' : String) (h : ¬ HasJoint digit k.toList)
    (h' : ¬ HasJoint digit k'.toList) (he : convIn digit k = convIn digit k') : k = k' := by
  rw [← C51_round_trip hd k h, ← C51_round_trip hd k' h', he]

theorem aset_new {α β : Type} [DecidableEq α] {l : List (α × β)} {k : α} {v : β} (h : alookup l k = none) :
    aset l k v = l ++ [(k, v)] := by
  induction l with
  | nil => rfl
  | cons x l ih =>
    obtain ⟨a, b⟩ := x
    simp only [alookup] at h
    split at h
    · cases h
    · next hne => simp [aset, hne, ih h]

theorem alookup_map {α β γ : Type} [DecidableEq α] {l : List (γ × β)} {f : γ → α} {k : α}
    (h : ∀ e ∈ l, f e.1 ≠ k) {g : β → β} : alookup (l.map (fun e => (f e.1, g e.2))) k = none := by
  induction l with
  | nil => rfl
  | cons x l ih =>
    have : ¬ k = f x.1 := fun he => h x List.mem_cons_self he.symm
    simp [alookup, Ne.symm (Ne.intro this), ih (fun e he => h e (List.mem_cons_of_mem _ he)), this]

theorem alookup_append_none {α β : Type} [DecidableEq α] {l l' : List (α × β)} {k : α}
    (h : alookup l k = none) (h' : alookup l' k = none) : alookup (l ++ l') k = none := by
  induction l with
  | nil => exact h'
  | cons x l ih =>
    obtain ⟨a, b⟩ := x
    simp only [alookup] at h
    split at h
    · cases h
    · next hne => simp [alookup, hne, ih h]

theorem keysIn_eq {conv : String → String} {up : Val → Val} : ∀ (us acc : List (String × Val)),
    (us.map (fun e => conv e.1)).Nodup → (∀ e ∈ us, alookup acc (conv e.1) = none) →
    keysIn conv up us acc = acc ++ us.map (fun e => (conv e.1, up e.2)) := by
  intro us
  induction us with
  | nil => intro acc _ _; simp [keysIn]
  | cons x us ih =>
    intro acc hn ha
    obtain ⟨k, v⟩ := x
    simp only [List.map_cons, List.nodup_cons, List.mem_map, not_exists, not_and] at hn
    simp only [keysIn]
    rw [aset_new (ha (k, v) List.mem_cons_self)]
    rw [ih _ hn.2 ?_]
    · simp
    · intro e he
      have h1 := hn.1 e he
      refine alookup_append_none (ha e (List.mem_cons_of_mem _ he)) ?_
      simp [alookup, h1]
      intro h; exact absurd h.symm h1

theorem keysOut_eq {conv : String → String} {tj : Val → Except Exc Val} {g : Val → Val} :
    ∀ (us jd : List (String × Val)), (us.map (fun e => conv e.1)).Nodup →
    (∀ e ∈ us, alookup jd (conv e.1) = none) → (∀ e ∈ us, tj e.2 = .ok (g e.2)) →
    keysOut conv tj us jd = .ok (jd ++ us.map (fun e => (conv e.1, g e.2))) := by
  intro us
  induction us with
  | nil => intro acc _ _ _; simp [keysOut]
  | cons x us ih =>
    intro jd hn ha hg
    obtain ⟨k, v⟩ := x
    simp only [List.map_cons, List.nodup_cons, List.mem_map, not_exists, not_and] at hn
    have hk := ha (k, v) List.mem_cons_self
    simp only at hk
    have hv := hg (k, v) List.mem_cons_self
    simp only at hv
    simp only [keysOut, hk, hv]
    simp only [Option.isSome_none, Bool.false_eq_true, if_false]
    rw [aset_new hk, ih _ hn.2 ?_ (fun e he => hg e (List.mem_cons_of_mem _ he))]
    · simp
    · intro e he
      have h1 := hn.1 e he
      refine alookup_append_none (ha e (List.mem_cons_of_mem _ he)) ?_
      simp [alookup, h1]
      intro h; exact absurd h.symm h1

/-- C51: an `AutoJsonRecord` writes the object it was read from: the same keys in the same order, with the JSON
form of the (upgraded) values, if the conversion is harmless for the keys and no property claims one of them. -/
theorem C51_object (hd : Digits digit) {up g : Val → Val} {tj : Val → Except Exc Val}
    (us : List (String × Val)) (hn : (us.map (·.1)).Nodup) (hk : ∀ e ∈ us, ¬ HasJoint digit e.1.toList)
    (jd : List (String × Val)) (hj : ∀ e ∈ us, alookup jd e.1 = none)
    (hg : ∀ e ∈ us, tj (up e.2) = .ok (g (up e.2))) :
    keysOut (convOut digit) tj (keysIn (convIn digit) up us []) jd =
      .ok (jd ++ us.map (fun e => (e.1, g (up e.2)))) := by
  have hn' : (us.map (fun e => convIn digit e.1)).Nodup := by
    rw [show us.map (fun e => convIn digit e.1) = (us.map (·.1)).map (convIn digit) by simp]
    refine List.Nodup.map_on ?_ hn
    intro a ha b hb
    rw [List.mem_map] at ha hb
    obtain ⟨x, hx, rfl⟩ := ha
    obtain ⟨y, hy, rfl⟩ := hb
    exact C51_no_clash hd _ _ (hk x hx) (hk y hy)
  rw [keysIn_eq us [] hn' (fun e _ => rfl)]
  simp only [List.nil_append]
  have hconv : ∀ e ∈ us, convOut digit (convIn digit e.1) = e.1 := fun e he => C51_round_trip hd _ (hk e he)
  rw [keysOut_eq (g := g)]
  · simp only [List.map_map]
    congr 2
    refine List.map_congr_left (fun e he => ?_)
    simp [hconv e he]
  · rw [List.map_map]
    rw [show us.map _ = us.map (·.1) from List.map_congr_left (fun e he => by simp [hconv e he])]
    exact hn
  · intro e he
    rw [List.mem_map] at he
    obtain ⟨x, hx, rfl⟩ := he
    simp only [hconv x hx]
    exact hj x hx
  · intro e he
    rw [List.mem_map] at he
    obtain ⟨x, hx, rfl⟩ := he
    exact hg x hx

/-- The digits 0-9 are digits. -/
def ascii (c : Char) : Bool := decide ('0' ≤ c) && decide (c ≤ '9')

theorem ascii_digits : Digits ascii := by
  intro c h
  simp [ascii] at h
  have h1 : (48 : Nat) ≤ c.toNat := h.1
  have h2 : c.toNat ≤ 57 := h.2
  refine ⟨?_, ?_, ?_⟩
  · rintro rfl; simp at h2
  · rintro ⟨h3, _⟩
    have : (65 : Nat) ≤ c.toNat := h3
    omega
  · rintro ⟨h3, _⟩
    have : (97 : Nat) ≤ c.toNat := h3
    omega

example : convIn ascii "fooBarX2Baz_Q" = "foo_bar_x2_baz_Q" ∧ convOut ascii "foo_bar_x2_baz_Q" = "fooBarX2Baz_Q" := by
  decide +kernel

/-- C51: the condition is needed: a key written in python's way comes back changed, and is taken for another. -/
theorem C51_condition : ∃ k k' : String, HasJoint ascii k.toList ∧ k ≠ k' ∧ convIn ascii k = convIn ascii k' ∧
    convOut ascii (convIn ascii k) = k' :=
  ⟨"foo_bar", "fooBar", ⟨"fo".toList, 'o', 'b', "ar".toList, by decide, by decide⟩, by decide, by decide +kernel,
    by decide +kernel⟩

-- two keys of an object that are taken for one another: one of the values is lost
example : keysOut (convOut ascii) (fun v => .ok v)
    (keysIn (convIn ascii) id [("fooBar", .int 1), ("foo_bar", .int 2)] []) [] = .ok [("fooBar", .int 2)] := by
  decide +kernel

end Normalize.Json.Auto
