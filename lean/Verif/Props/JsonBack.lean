import Verif.Lemmas.JsonBack

/-!
# C48: JSON output reads back to an equal record
-/

namespace Normalize.Json
open Ident (IProp Sub Ty ItemTy veq WF AtomLaws SameRead readAttr DictEq)
open Spec

variable {J : Setup} {e : Bool} {Q : Val → Val → Prop}

theorem mapE_of_forall₂ {α β ε : Type} {g : α → Except ε β} {xs : List α} {ys : List β}
    (h : List.Forall₂ (fun a b => g a = .ok b) xs ys) : mapE g xs = .ok ys := by
  induction h with
  | nil => rfl
  | cons h _ ih => simp [mapE, h, ih]

theorem forall₂_ex {α β : Type} {R : α → β → Prop} {xs : List α} (h : ∀ x ∈ xs, ∃ y, R x y) :
    ∃ ys, List.Forall₂ R xs ys := by
  induction xs with
  | nil => exact ⟨[], .nil⟩
  | cons x xs ih =>
    obtain ⟨y, hy⟩ := h x List.mem_cons_self
    obtain ⟨ys, hys⟩ := ih (fun z hz => h z (List.mem_cons_of_mem _ hz))
    exact ⟨y :: ys, .cons hy hys⟩

/-! ## Members -/

/-- What happens to a member of a JSON array or object. -/
def inMember (J : Setup) (mk : Mk) (t : Ty) (x : Val) : Except JErr Val :=
  match t with
  | .cls d => if instOf J (.cls d) x then .ok x else fromJsonWith J mk d x
  | .other n =>
    match J.typeFromJson n with
    | some f => if instOf J (.other n) x then .ok x else lift (f x)
    | none => .ok x

theorem memberIn_inMember {mk : Mk} {t : Ty} {x y : Val} (hx : IsContainer x ∨ instOf J t x = true)
    (h : inMember J mk t x = .ok y) :
    (memberIn J mk (.one t) = .ok none ∧ y = x) ∨ ∃ f, memberIn J mk (.one t) = .ok (some f) ∧ f x = .ok y := by
  cases t with
  | cls d =>
    right
    refine ⟨_, rfl, ?_⟩
    simp only [inMember] at h
    by_cases hi : instOf J (.cls d) x = true
    · simpa [hi] using h
    · have hx := hx.resolve_right hi
      simp only [hi] at h ⊢
      simp only [Bool.false_eq_true, if_false] at h ⊢
      by_cases hj : J.isJson d = true
      · simpa [fromJsonWith, container_decode hx, hj] using h
      · simpa [hj] using h
  | other n =>
    simp only [inMember] at h
    cases hf : J.typeFromJson n with
    | none => rw [hf] at h; cases h; exact .inl ⟨by simp [memberIn, hf], rfl⟩
    | some f =>
      rw [hf] at h
      exact .inr ⟨fun x => if instOf J (.other n) x then .ok x else lift (f x), by simp [memberIn, hf], h⟩

theorem enum_snd (xs : List Val) : (Ident.enum xs).map (·.2) = xs := by
  simp only [Ident.enum, List.map_map, Function.comp_def]
  exact List.zipIdx_map_fst 0 xs

theorem memberIn_uniform {mk : Mk} {t : Ty} : memberIn J mk (.one t) = .ok none ∨
    ∃ f, memberIn J mk (.one t) = .ok (some f) := by
  cases t with
  | cls d => exact .inr ⟨_, rfl⟩
  | other n =>
    cases hf : J.typeFromJson n with
    | none => exact .inl (by simp [memberIn, hf])
    | some f =>
      exact .inr ⟨fun x => if instOf J (.other n) x then .ok x else lift (f x), by simp [memberIn, hf]⟩

theorem listValues_good {mk : Mk} {t : Ty} {xs ys : List Val}
    (h : List.Forall₂ (fun x y => (IsContainer x ∨ instOf J t x = true) ∧ inMember J mk t x = .ok y) xs ys) :
    listValues J mk (.one t) (.list xs) = .ok ys := by
  simp only [listValues]
  rcases memberIn_uniform (J := J) (mk := mk) (t := t) with hm | ⟨f, hm⟩
  · rw [hm]
    have : xs = ys := by
      induction h with
      | nil => rfl
      | cons h _ ih =>
        rcases memberIn_inMember h.1 h.2 with ⟨_, rfl⟩ | ⟨f, hf, _⟩
        · rw [ih]
        · rw [hm] at hf; cases hf
    simp [this]
  · rw [hm]
    simp only
    have key : ∀ k, ∃ zs, mapE (memberEntry f) ((xs.zipIdx k).map (fun x => (Comp.int x.2, x.1))) = .ok zs ∧
        zs.map (·.2) = ys := by
      induction h with
      | nil => intro k; exact ⟨[], rfl, rfl⟩
      | @cons x y xs ys h _ ih =>
        intro k
        obtain ⟨zs, hz, he⟩ := ih (k + 1)
        have : f x = .ok y := by
          rcases memberIn_inMember h.1 h.2 with ⟨hf, _⟩ | ⟨g, hg, hgx⟩
          · rw [hm] at hf; cases hf
          · rw [hm] at hg; cases hg; exact hgx
        refine ⟨(.int k, y) :: zs, ?_, by simp [he]⟩
        rw [List.zipIdx_cons, List.map_cons]
        simp [mapE, memberEntry, this, boxing, hz]
    obtain ⟨zs, hz, he⟩ := key 0
    rw [show Ident.enum xs = (xs.zipIdx 0).map (fun x => (Comp.int x.2, x.1)) from rfl, hz]
    simp [he]

theorem dictValues_good {mk : Mk} {t : Ty} {xs ys : List (Comp × Val)}
    (h : List.Forall₂ (fun x y => x.1 = y.1 ∧ (IsContainer x.2 ∨ instOf J t x.2 = true) ∧
      inMember J mk t x.2 = .ok y.2) xs ys) : dictValues J mk (.one t) (.dict xs) = .ok ys := by
  simp only [dictValues]
  rcases memberIn_uniform (J := J) (mk := mk) (t := t) with hm | ⟨f, hm⟩
  · rw [hm]
    have : xs = ys := by
      induction h with
      | nil => rfl
      | @cons x y _ _ h _ ih =>
        rcases memberIn_inMember h.2.1 h.2.2 with ⟨_, h2⟩ | ⟨f, hf, _⟩
        · rw [ih]; congr 1; exact Prod.ext h.1 h2.symm
        · rw [hm] at hf; cases hf
    simp [this]
  · rw [hm]
    refine mapE_of_forall₂ (h.imp ?_)
    rintro ⟨k, x⟩ ⟨k', y⟩ ⟨h1, h2, h3⟩
    simp only at h1 h2 h3
    subst h1
    rcases memberIn_inMember h2 h3 with ⟨hf, _⟩ | ⟨g, hg, hgx⟩
    · rw [hm] at hf; cases hf
    · rw [hm] at hg; cases hg
      simp [memberEntry, hgx, boxing]

/-- What is to be shown of a member. -/
def MemberGood (Q : Val → Val → Prop) (J : Setup) (m : Bool) (it : ItemTy) (j v : Val) (n : Nat) : Prop :=
  ∃ u w, (m = false → u = j) ∧
    (m = true → ∀ t, it = .one t → (IsContainer j ∨ instOf J t j = true) ∧ inMember J (make J n) t j = .ok u) ∧
    coerceItem J (make J n) it u = .ok w ∧ Q w v

theorem member_good (L : Trip J.S Q) {m : Bool} {it : ItemTy} {v : Val} (h : BackMember J e m it v)
    (ih : ∀ m, Back J e m v → Good Q J e m v) :
    ∃ j, jsonData J e v = .ok j ∧ ∃ n0, ∀ n, n0 ≤ n → MemberGood Q J m it j v n := by
  cases h with
  | @record m d v h1 h2 =>
    obtain ⟨d', j, hd', hj, hcon, n0, hn0⟩ := (ih m h2).ex
    rw [h1] at hd'; cases hd'
    refine ⟨j, hj, n0, fun n hn => ?_⟩
    obtain ⟨w, hw, hcw, hvw⟩ := hn0 n hn
    have hni : instOf J (.cls d) j = false := by simp [instOf, container_clsOf hcon]
    cases m with
    | false =>
      simp only [readWith, Bool.false_eq_true, if_false] at hw
      exact ⟨j, w, fun _ => rfl, fun h => (by cases h), by simp [coerceItem, isItem, hni, callTy, hw], hvw⟩
    | true =>
      simp only [readWith, if_true] at hw
      refine ⟨w, w, fun h => (by cases h), fun _ t ht => ?_, by simp [coerceItem, isItem, instOf_cls hcw], hvw⟩
      cases ht
      exact ⟨.inl hcon, by simp [inMember, hni, hw]⟩
  | plain h1 h2 =>
    refine ⟨v, (isJson_fixed h1.json).2, 0, fun n _ => ⟨v, v, fun _ => rfl, fun h => (by cases h), ?_,
      L.same v h1.wf⟩⟩
    simp [coerceItem, h2]
  | @jplain t v h1 h2 =>
    refine ⟨v, (isJson_fixed h1.json).2, 0, fun n _ => ⟨v, v, fun h => (by cases h), fun _ t ht => ?_, ?_,
      L.same v h1.wf⟩⟩
    · cases ht
      refine ⟨.inr h2, ?_⟩
      unfold inMember
      cases hf : J.typeFromJson t with
      | none => simp [hf]
      | some f => simp [hf, instOf, h2]
    · simp [coerceItem, isItem, instOf, h2]

/-- All the members of a list. -/
theorem members_good (L : Trip J.S Q) {m : Bool} {it : ItemTy} {xs : List Val} (h : ∀ x ∈ xs, BackMember J e m it x)
    (ih : ∀ x ∈ xs, ∀ m, Back J e m x → Good Q J e m x) :
    ∃ js, List.Forall₂ (fun x j => jsonData J e x = .ok j) xs js ∧
      ∃ n0, ∀ n, n0 ≤ n → List.Forall₂ (fun x j => MemberGood Q J m it j x n) xs js := by
  induction xs with
  | nil => exact ⟨[], .nil, 0, fun _ _ => .nil⟩
  | cons x xs ihx =>
    obtain ⟨j, hj, n1, hn1⟩ := member_good L (h x List.mem_cons_self) (ih x List.mem_cons_self)
    obtain ⟨js, hjs, n2, hn2⟩ := ihx (fun y hy => h y (List.mem_cons_of_mem _ hy))
      (fun y hy => ih y (List.mem_cons_of_mem _ hy))
    exact ⟨j :: js, .cons hj hjs, max n1 n2, fun n hn => .cons (hn1 n (by omega)) (hn2 n (by omega))⟩

theorem entries_good (L : Trip J.S Q) {m : Bool} {it : ItemTy} {xs : List (Comp × Val)}
    (h : ∀ x ∈ xs, BackMember J e m it x.2) (ih : ∀ x ∈ xs, ∀ m, Back J e m x.2 → Good Q J e m x.2) :
    ∃ js, List.Forall₂ (fun x j => dataE J e x = .ok j ∧ x.1 = j.1) xs js ∧
      ∃ n0, ∀ n, n0 ≤ n → List.Forall₂ (fun x j => x.1 = j.1 ∧ MemberGood Q J m it j.2 x.2 n) xs js := by
  induction xs with
  | nil => exact ⟨[], .nil, 0, fun _ _ => .nil⟩
  | cons x xs ihx =>
    obtain ⟨j, hj, n1, hn1⟩ := member_good L (h x List.mem_cons_self) (ih x List.mem_cons_self)
    obtain ⟨js, hjs, n2, hn2⟩ := ihx (fun y hy => h y (List.mem_cons_of_mem _ hy))
      (fun y hy => ih y (List.mem_cons_of_mem _ hy))
    exact ⟨(x.1, j) :: js, .cons ⟨by simp [dataE, hj], rfl⟩ hjs, max n1 n2,
      fun n hn => .cons ⟨rfl, hn1 n (by omega)⟩ (hn2 n (by omega))⟩

theorem splitMembers {m : Bool} {it : ItemTy} {xs js : List Val} {n : Nat}
    (h : List.Forall₂ (fun x j => MemberGood Q J m it j x n) xs js) :
    ∃ us ws, (m = false → us = js) ∧ (m = true → ∀ t, it = .one t → List.Forall₂ (fun j u =>
        (IsContainer j ∨ instOf J t j = true) ∧ inMember J (make J n) t j = .ok u) js us) ∧
      mapE (coerceItem J (make J n) it) us = .ok ws ∧ List.Forall₂ (fun w x => Q w x) ws xs := by
  induction h with
  | nil => exact ⟨[], [], fun _ => rfl, fun _ _ _ => .nil, rfl, .nil⟩
  | cons h _ ih =>
    obtain ⟨u, w, h1, h2, h3, h4⟩ := h
    obtain ⟨us, ws, i1, i2, i3, i4⟩ := ih
    refine ⟨u :: us, w :: ws, fun hm => by rw [h1 hm, i1 hm], fun hm t ht => .cons (h2 hm t ht) (i2 hm t ht), ?_,
      .cons h4 i4⟩
    simp [mapE, h3, i3]

theorem splitEntries {m : Bool} {it : ItemTy} {xs js : List (Comp × Val)} {n : Nat}
    (h : List.Forall₂ (fun x j => x.1 = j.1 ∧ MemberGood Q J m it j.2 x.2 n) xs js) :
    ∃ us ws : List (Comp × Val), (m = false → us = js) ∧ (m = true → ∀ t, it = .one t → List.Forall₂ (fun j u =>
        j.1 = u.1 ∧ (IsContainer j.2 ∨ instOf J t j.2 = true) ∧ inMember J (make J n) t j.2 = .ok u.2) js us) ∧
      mapE (coerceEntry J (make J n) it) us = .ok ws ∧
      List.Forall₂ (fun w x => w.1 = x.1 ∧ Q w.2 x.2) ws xs := by
  induction h with
  | nil => exact ⟨[], [], fun _ => rfl, fun _ _ _ => .nil, rfl, .nil⟩
  | @cons x j _ _ h _ ih =>
    obtain ⟨h0, u, w, h1, h2, h3, h4⟩ := h
    obtain ⟨us, ws, i1, i2, i3, i4⟩ := ih
    refine ⟨(j.1, u) :: us, (j.1, w) :: ws, fun hm => by rw [h1 hm, i1 hm],
      fun hm t ht => .cons ⟨rfl, h2 hm t ht⟩ (i2 hm t ht), ?_, .cons ⟨h0.symm, h4⟩ i4⟩
    simp [mapE, coerceEntry, h3, i3]

theorem list_good (L : Trip J.S Q) {m m' : Bool} {c : String} {it : ItemTy} {xs : List Val}
    (hc : (J.S.cls c).coll = some (.list, it)) (hm : J.isJson c = m') (hm' : m' = false → m = false)
    (ht : m' = true → ∃ t, it = .one t)
    (h : ∀ x ∈ xs, BackMember J e m' it x) (ih : ∀ x ∈ xs, ∀ m, Back J e m x → Good Q J e m x) :
    Good Q J e m (.lcoll c xs) := by
  obtain ⟨js, hjs, n0, hn0⟩ := members_good L h ih
  have hjd : jsonData J e (.lcoll c xs) = .ok (.list js) := by
    simp [jsonData, dataL_eq, mapE_of_forall₂ hjs, Except.map]
  refine ⟨c, .list js, rfl, hjd, .inr ⟨js, rfl⟩, n0 + 1, fun n hn => ?_⟩
  obtain ⟨k, rfl⟩ : ∃ k, n = k + 1 := ⟨n - 1, by omega⟩
  obtain ⟨us, ws, h1, h2, h3, h4⟩ := splitMembers (hn0 k (by omega))
  have hmake : make J (k + 1) c (.list js) = .ok (.lcoll c ws) := by
    simp only [make, construct, hc, hm]
    cases m' with
    | false =>
      have := h1 rfl
      subst this
      simp [mkList, listItems, h3]
    | true =>
      obtain ⟨t, rfl⟩ := ht rfl
      simp [mkJsonList, decode, listValues_good (h2 rfl t rfl), mkList, listItems, h3]
  refine ⟨.lcoll c ws, ?_, rfl, L.lcoll h4⟩
  unfold readWith
  cases m with
  | false => exact hmake
  | true =>
    cases m' with
    | false => cases hm' rfl
    | true => simp [fromJsonWith, decode, hm, hmake]

theorem dict_good (L : Trip J.S Q) {m m' : Bool} {c : String} {it : ItemTy} {xs : List (Comp × Val)}
    (hc : (J.S.cls c).coll = some (.dict, it)) (hm : J.isJson c = m') (hm' : m' = false → m = false)
    (ht : m' = true → ∃ t, it = .one t) (hn : (xs.map (·.1)).Nodup)
    (h : ∀ x ∈ xs, BackMember J e m' it x.2) (ih : ∀ x ∈ xs, ∀ m, Back J e m x.2 → Good Q J e m x.2) :
    Good Q J e m (.dcoll c xs) := by
  obtain ⟨js, hjs, n0, hn0⟩ := entries_good L h ih
  have hjd : jsonData J e (.dcoll c xs) = .ok (.dict js) := by
    simp [jsonData, dataC_eq, mapE_of_forall₂ (hjs.imp (fun _ _ h => h.1)), Except.map]
  refine ⟨c, .dict js, rfl, hjd, .inl ⟨js, rfl⟩, n0 + 1, fun n hn' => ?_⟩
  obtain ⟨k, rfl⟩ : ∃ k, n = k + 1 := ⟨n - 1, by omega⟩
  obtain ⟨us, ws, h1, h2, h3, h4⟩ := splitEntries (hn0 k (by omega))
  have hmake : make J (k + 1) c (.dict js) = .ok (.dcoll c ws) := by
    simp only [make, construct, hc, hm]
    cases m' with
    | false =>
      have := h1 rfl
      subst this
      simp [mkDict, dictItems, h3]
    | true =>
      obtain ⟨t, rfl⟩ := ht rfl
      simp [mkJsonDict, decode, dictValues_good (h2 rfl t rfl), mkDict, dictItems, h3]
  refine ⟨.dcoll c ws, ?_, rfl, L.dcoll hn h4⟩
  unfold readWith
  cases m with
  | false => exact hmake
  | true =>
    cases m' with
    | false => cases hm' rfl
    | true => simp [fromJsonWith, decode, hm, hmake]

/-! ## Records -/

/-- What is to be shown of a property. -/
def FieldGood (Q : Val → Val → Prop) (J : Setup) (e m : Bool) (c : String) (s : List (String × Val)) (p : IProp) (n : Nat) : Prop :=
  Written J e c s p → ∃ v j w u, alookup s p.name = some v ∧ Converts J e c s p (.ok j) ∧
    (∀ k, m = true → convertIn J (make J n) c p k j = .ok w) ∧ (m = false → w = j) ∧
    typeSafe J (make J n) (J.info c p.name) p.types w = .ok (some u) ∧ Q u v

theorem fields_good (L : Trip J.S Q) {m : Bool} {c : String} {s : List (String × Val)}
    (h : ∀ p v, p ∈ (J.S.cls c).props → alookup s p.name = some v → Written J e c s p → BackField J e m c p v)
    (ih : ∀ x ∈ s, ∀ m, Back J e m x.2 → Good Q J e m x.2) :
    ∃ n0, ∀ n, n0 ≤ n → ∀ p ∈ (J.S.cls c).props, FieldGood Q J e m c s p n := by
  refine bound (P := fun n p => FieldGood Q J e m c s p n) (fun p hp => ?_)
  by_cases hw : Written J e c s p
  · obtain ⟨v, hv⟩ := hw.1
    obtain ⟨j, hj, n0, hn0⟩ := field_good L (h p v hp hv hw) hv (ih (p.name, v) (Mfs.alookup_mem hv))
    refine ⟨n0, fun n hn _ => ?_⟩
    obtain ⟨w, u, h1, h2, h3, h4⟩ := hn0 n hn
    exact ⟨v, j, w, u, hv, hj, h1, h2, h3, h4⟩
  · exact ⟨0, fun n _ h => absurd h hw⟩

/-- Reading a document with what was written for the properties. -/
theorem doc_good (L : Trip J.S Q) {c : String} {s : List (String × Val)} {d js : List (Comp × Val)} {n : Nat}
    (hnd : ((J.S.cls c).props.map (·.name)).Nodup)
    (hd : ∀ p q k, p ∈ (J.S.cls c).props → q ∈ (J.S.cls c).props → Named J c p (some k) → Named J c q (some k) → p = q)
    (hm : ∀ p ∈ (J.S.cls c).props, MayMiss J e c s p)
    (hf : ∀ p ∈ (J.S.cls c).props, FieldGood Q J e true c s p n)
    (hdoc : recordOut J e c (outs J e s) = .ok d) (hjs : (js.map (·.1)).Nodup)
    (hsame : ∀ p ∈ (J.S.cls c).props, ∀ k, Named J c p (some k) → alookup js (.str k) = alookup d (.str k))
    (hu : KeepsUnknown J c ∨ ∀ k ∈ js.map (·.1), Claimed J c k) :
    ∃ kw s', initKwargs J (make J n) c (.dict js) [] = .ok kw ∧ initRecord J (make J n) c kw = .ok (.rcd c s') ∧
      Q (.rcd c s') (.rcd c s) := by
  refine named_good L hnd hjs hd hm (fun p hp k hk => ?_) hu
  obtain ⟨h1, h2⟩ := recordOut_doc hdoc hm hd hp hk
  rw [hsame p hp k hk]
  refine ⟨h2, fun hw => ?_⟩
  obtain ⟨v, j, w, u, i1, i2, i3, _, i5, i6⟩ := hf p hp hw
  exact ⟨v, j, w, u, i1, h1 j hw i2, i3 k rfl, i5, i6⟩

theorem doc_read {c : String} {s : List (String × Val)} {js : List (Comp × Val)} {m : Bool} {n0 : Nat}
    (hc : (J.S.cls c).coll = none) (hJ : J.isJson c = true ∨ m = true)
    (h : ∀ n, n0 ≤ n → ∃ kw s', initKwargs J (make J n) c (.dict js) [] = .ok kw ∧
      initRecord J (make J n) c kw = .ok (.rcd c s') ∧ Q (.rcd c s') (.rcd c s)) :
    ∀ n, n0 + 1 ≤ n → ∃ w, readWith J (make J n) m c (.dict js) = .ok w ∧ clsOf w = some c ∧
      Q w (.rcd c s) := by
  intro n hn
  cases hJc : J.isJson c with
  | true =>
    obtain ⟨k, rfl⟩ : ∃ k, n = k + 1 := ⟨n - 1, by omega⟩
    obtain ⟨kw, s', h1, h2, h3⟩ := h k (by omega)
    have hmake : make J (k + 1) c (.dict js) = .ok (.rcd c s') := by
      simp [make, construct, hc, hJc, mkJson, decode_dict, h1, h2]
    refine ⟨_, ?_, rfl, h3⟩
    cases m <;> simp [readWith, fromJsonWith, decode_dict, hJc, hmake]
  | false =>
    have hm : m = true := by simpa [hJc] using hJ
    subst hm
    obtain ⟨kw, s', h1, h2, h3⟩ := h n (by omega)
    refine ⟨_, ?_, rfl, h3⟩
    simp [readWith, fromJsonWith, decode_dict, hJc, fromPlain, h1, hc, h2]

theorem fieldGood_converts {m : Bool} {c : String} {s : List (String × Val)} {n : Nat}
    (hf : ∀ p ∈ (J.S.cls c).props, FieldGood Q J e m c s p n) :
    ∀ p ∈ (J.S.cls c).props, Written J e c s p → ∃ j, Converts J e c s p (.ok j) := by
  intro p hp hw
  obtain ⟨v, j, w, u, _, h, _⟩ := hf p hp hw
  exact ⟨j, h⟩

/-- `json_data` of a `JsonRecord`. -/
theorem dataOut_doc {c : String} {s : List (String × Val)} {d : List (Comp × Val)} (hJ : J.isJson c = true)
    (hu : UnknownOk J e c s) (hd : recordOut J e c (outs J e s) = .ok d) :
    ∃ js, dataOut J e c (outs J e s) = .ok js ∧ (js.map (·.1)).Nodup ∧
      ∀ k, Claimed J c k → alookup js k = alookup d k := by
  have hdn := recordOut_nodup hd
  simp only [dataOut, hd, hJ, if_true, addUnknown, outs_lookup]
  cases hs : alookup s unknownKeys with
  | none => exact ⟨d, rfl, hdn, fun _ _ => rfl⟩
  | some u =>
    obtain ⟨us, rfl, hn, hx⟩ := hu u hs
    simp only [Option.map, outOf, entriesOf]
    split
    · obtain ⟨js, hjs⟩ := merge_total (eachEntry J e us) d (fun x hx' => by
        rw [eachEntry_eq, List.mem_map] at hx'
        obtain ⟨y, hy, rfl⟩ := hx'
        exact (hx y hy).2)
      refine ⟨js, hjs, mergeUnknown_nodup _ _ _ hjs hdn, fun k hk => ?_⟩
      rw [mergeUnknown_lookup _ _ _ hjs (by simpa [eachEntry_eq, List.map_map, Function.comp_def] using hn) k]
      have : alookup (eachEntry J e us) k = none := by
        rw [alookup_none_iff, eachEntry_eq, List.map_map]
        intro hm
        obtain ⟨y, hy, rfl⟩ := List.mem_map.mp hm
        exact (hx y hy).1 hk
      rw [this]
      cases alookup d k <;> rfl
    · exact ⟨d, rfl, hdn, fun _ _ => rfl⟩

/-- The document as keyword arguments. -/
theorem namedArgs_ok : ∀ (d : List (Comp × Val)), (∀ k ∈ d.map (·.1), ∃ nm, k = .str nm) →
    ∃ kw, namedArgs d = .ok kw ∧ d = kw.map (fun x => (.str x.1, x.2)) := by
  intro d
  induction d with
  | nil => intro _; exact ⟨[], rfl, rfl⟩
  | cons x d ih =>
    obtain ⟨k, v⟩ := x
    intro h
    obtain ⟨nm, rfl⟩ := h k (by simp)
    obtain ⟨kw, h1, h2⟩ := ih (fun k hk => h k (by simp [hk]))
    exact ⟨(nm, v) :: kw, by simp [namedArgs, h1], by rw [List.map_cons, ← h2]⟩

theorem alookup_str (kw : List (String × Val)) (nm : String) :
    alookup (kw.map (fun x => (Comp.str x.1, x.2))) (.str nm) = alookup kw nm := by
  induction kw with
  | nil => rfl
  | cons x kw ih => obtain ⟨k, v⟩ := x; simp [alookup, ih]

theorem raw_good (L : Trip J.S Q) {c : String} {s : List (String × Val)} {d : List (Comp × Val)} {n : Nat}
    (hJ : J.isJson c = false) (hc : (J.S.cls c).coll = none)
    (hnd : ((J.S.cls c).props.map (·.name)).Nodup)
    (hname : ∀ p k, p ∈ (J.S.cls c).props → Named J c p (some k) → k = p.name)
    (hm : ∀ p ∈ (J.S.cls c).props, MayMiss J e c s p)
    (hf : ∀ p ∈ (J.S.cls c).props, FieldGood Q J e false c s p n)
    (hdoc : recordOut J e c (outs J e s) = .ok d) :
    ∃ s', make J (n + 1) c (.dict d) = .ok (.rcd c s') ∧ Q (.rcd c s') (.rcd c s) := by
  have same : ∀ p ∈ (J.S.cls c).props, ∀ q ∈ (J.S.cls c).props, p.name = q.name → p = q := by
    intro p hp q hq h
    have h1 := findProp_of_mem hnd hp
    rw [h, findProp_of_mem hnd hq] at h1
    exact (Option.some.inj h1).symm
  have hd : ∀ p q k, p ∈ (J.S.cls c).props → q ∈ (J.S.cls c).props → Named J c p (some k) →
      Named J c q (some k) → p = q := fun p q k hp hq h1 h2 =>
    same p hp q hq ((hname p k hp h1).symm.trans (hname q k hq h2))
  have hkeys : ∀ k ∈ d.map (·.1), ∃ p ∈ (J.S.cls c).props, Named J c p (some p.name) ∧ k = .str p.name := by
    intro k hk
    obtain ⟨p, hp, nm, h1, h2⟩ := written_claimed hdoc (alookup_isSome_iff.mpr hk)
    have := hname p nm hp h1
    subst this
    exact ⟨p, hp, h1, h2⟩
  obtain ⟨kw, hkw, hdk⟩ := namedArgs_ok d (fun k hk => by
    obtain ⟨p, _, _, h⟩ := hkeys k hk
    exact ⟨_, h⟩)
  have hlk : ∀ nm, alookup kw nm = alookup d (.str nm) := fun nm => by rw [hdk, alookup_str]
  have hkn : (kw.map (·.1)).Nodup := by
    have := recordOut_nodup hdoc
    rw [hdk, List.map_map] at this
    refine List.Nodup.of_map Comp.str ?_
    simpa [List.map_map, Function.comp_def] using this
  have hwritten : ∀ p ∈ (J.S.cls c).props, (alookup kw p.name).isSome = true → Written J e c s p := by
    intro p hp h
    rw [hlk] at h
    obtain ⟨q, hq, h1, h2⟩ := hkeys _ (alookup_isSome_iff.mp h)
    have := same p hp q hq (by injection h2)
    subst this
    by_contra hw
    rw [(recordOut_doc hdoc hm hd hp h1).2 hw] at h
    cases h
  have hval : ∀ p ∈ (J.S.cls c).props, Written J e c s p → ∃ v w u, alookup s p.name = some v ∧
      alookup kw p.name = some w ∧ typeSafe J (make J n) (J.info c p.name) p.types w = .ok (some u) ∧
      Q u v := by
    intro p hp hw
    obtain ⟨k, hk⟩ := hw.2.2
    have := hname p k hp hk
    subst this
    obtain ⟨v, j, w, u, i1, i2, _, i4, i5, i6⟩ := hf p hp hw
    have := i4 rfl
    subst this
    exact ⟨v, w, u, i1, by rw [hlk]; exact (recordOut_doc hdoc hm hd hp hk).1 w hw i2, i5, i6⟩
  obtain ⟨s', h1, h2⟩ := initRecord_good (e := e) (s := s) L (mk := make J n) (kw := kw) hnd hkn hm
    (fun x hx => by
      have hl : alookup kw x.1 = some x.2 := Ident.alookup_of_mem hkn hx
      have hx1 : (alookup d (.str x.1)).isSome = true := by rw [← hlk, hl]; rfl
      obtain ⟨p, hp, _, h⟩ := hkeys _ (alookup_isSome_iff.mp hx1)
      injection h with h
      have hw := hwritten p hp (by rw [← h, hl]; rfl)
      obtain ⟨v, w, u, _, i2, i3, _⟩ := hval p hp hw
      rw [← h, hl] at i2
      cases i2
      exact ⟨p, u, by rw [h]; exact findProp_of_mem hnd hp, i3⟩)
    (fun p hp _ hw => hval p hp hw)
    (fun p hp hw => by
      obtain ⟨_, w, _, _, h, _⟩ := hval p hp hw
      rw [h]; rfl)
    (fun p hp _ hw => by
      cases h : alookup kw p.name with
      | none => rfl
      | some w => exact absurd (hwritten p hp (by rw [h]; rfl)) hw)
  refine ⟨s', ?_, h2⟩
  simp only [make, construct, hc, hJ]
  simp only [Bool.false_eq_true, if_false, mkPlain, hkw, h1]
  split
  · next hfal =>
    have : d = [] := by simpa [falsy] using hfal
    rw [this] at hkw
    cases hkw
    exact h1
  · rfl

/-- The value can be written, and read back. -/
theorem back_good (L : Trip J.S Q) : ∀ v m, Back J e m v → Good Q J e m v := by
  refine Val.ind ?_ ?_ ?_ ?_ ?_ ?_
  · intro a m h; cases h
  · intro xs _ m h; cases h
  · intro xs _ m h; cases h
  · intro c s ih m h
    cases h with
    | record hJ hc hnd hd hk hu hm hf =>
      obtain ⟨n0, hn0⟩ := fields_good L hf ih
      obtain ⟨d, hdoc⟩ := recordOut_total hm (fieldGood_converts (hn0 n0 (Nat.le_refl _)))
      have hjs : ∃ js, dataOut J e c (outs J e s) = .ok js ∧ (js.map (·.1)).Nodup ∧
          (∀ k, Claimed J c k → alookup js k = alookup d k) ∧
          (KeepsUnknown J c ∨ ∀ k ∈ js.map (·.1), Claimed J c k) := by
        cases hJc : J.isJson c with
        | true =>
          obtain ⟨js, h1, h2, h3⟩ := dataOut_doc hJc (hu hJc) hdoc
          exact ⟨js, h1, h2, h3, .inl (hk hJc)⟩
        | false =>
          exact ⟨d, by simp [dataOut, hdoc, hJc], recordOut_nodup hdoc, fun _ _ => rfl,
            .inr (fun k hk => written_claimed hdoc (alookup_isSome_iff.mpr hk))⟩
      obtain ⟨js, h1, h2, h3, h4⟩ := hjs
      refine ⟨c, .dict js, rfl, by simp [jsonData, h1, Except.map], .inl ⟨js, rfl⟩, n0 + 1, ?_⟩
      exact doc_read hc hJ (fun n hn => doc_good L hnd hd hm (hn0 n hn) hdoc h2
        (fun p hp k hk => h3 _ ⟨p, hp, k, hk, rfl⟩) h4)
    | raw hJ hc hnd hname hm hf =>
      obtain ⟨n0, hn0⟩ := fields_good L hf ih
      obtain ⟨d, hdoc⟩ := recordOut_total hm (fieldGood_converts (hn0 n0 (Nat.le_refl _)))
      refine ⟨c, .dict d, rfl, by simp [jsonData, dataOut, hdoc, hJ, Except.map], .inl ⟨d, rfl⟩, n0 + 1, ?_⟩
      intro n hn
      obtain ⟨k, rfl⟩ : ∃ k, n = k + 1 := ⟨n - 1, by omega⟩
      obtain ⟨s', h1, h2⟩ := raw_good L hJ hc hnd hname hm (hn0 k (by omega)) hdoc
      exact ⟨_, by simpa [readWith] using h1, rfl, h2⟩
  · intro c xs ih m h
    cases h with
    | jlist hJ hc hx => exact list_good L hc hJ (fun h => (by cases h)) (fun _ => ⟨_, rfl⟩) hx ih
    | list hJ hc hx => exact list_good L hc hJ (fun _ => rfl) (fun h => (by cases h)) hx ih
  · intro c xs ih m h
    cases h with
    | jdict hJ hc hn hx => exact dict_good L hc hJ (fun h => (by cases h)) (fun _ => ⟨_, rfl⟩) hn hx ih
    | dict hJ hc hn hx => exact dict_good L hc hJ (fun _ => rfl) (fun h => (by cases h)) hn hx ih

/-- `Back` is a special case of the literal condition. -/
theorem back_rep : ∀ v m, Back J e m v → Rep J e v := by
  have field : ∀ {m c p v}, (∀ m, Back J e m v → Rep J e v) → BackField J e m c p v → RepField J e c p v := by
    intro m c p v ih h
    cases h with
    | plain h1 h2 h3 h4 => exact .plain h1 h2 h3 h4
    | conv h1 h2 h3 h4 h5 h6 h7 h8 => exact .conv h1 h2 h3 h4 h5 h6 h7 h8
    | record h1 h2 h3 h4 h5 h6 => exact .record h1 h2 h3 h4 h5 (ih _ h6)
  have member : ∀ {m it v}, (∀ m, Back J e m v → Rep J e v) → BackMember J e m it v → RepMember J e it v := by
    intro m it v ih h
    cases h with
    | record h1 h2 => exact .record h1 (ih _ h2)
    | plain h1 h2 => exact .plain h1 h2
    | jplain h1 h2 => exact .plain h1 (by simp [isItem, instOf, h2])
  refine Val.ind ?_ ?_ ?_ ?_ ?_ ?_
  · intro a m h; cases h
  · intro xs _ m h; cases h
  · intro xs _ m h; cases h
  · intro c s ih m h
    cases h with
    | record hJ hc hnd hd hk hu hm hf =>
      exact .record hc hnd hd hk hu hm (fun p v hp hv hw => field (ih (p.name, v) (Mfs.alookup_mem hv)) (hf p v hp hv hw))
    | raw hJ hc hnd hname hm hf =>
      refine .record hc hnd ?_ (fun h => ?_) (fun h => ?_) hm
        (fun p v hp hv hw => field (ih (p.name, v) (Mfs.alookup_mem hv)) (hf p v hp hv hw))
      · intro p q k hp hq h1 h2
        have he : p.name = q.name := (hname p k hp h1).symm.trans (hname q k hq h2)
        have h1 := findProp_of_mem hnd hp
        rw [he, findProp_of_mem hnd hq] at h1
        exact (Option.some.inj h1).symm
      · rw [hJ] at h; cases h
      · rw [hJ] at h; cases h
  · intro c xs ih m h
    cases h with
    | jlist hJ hc hx => exact .list hc (fun x hx' => member (ih x hx') (hx x hx'))
    | list hJ hc hx => exact .list hc (fun x hx' => member (ih x hx') (hx x hx'))
  · intro c xs ih m h
    cases h with
    | jdict hJ hc hn hx => exact .dict hc hn (fun x hx' => member (ih x hx') (hx x hx'))
    | dict hJ hc hn hx => exact .dict hc hn (fun x hx' => member (ih x hx') (hx x hx'))

/-- C48 as stated: a `JsonRecord` with representable slots is read back from what `to_json` gives. -/
def C48_statement : Prop :=
  ∀ (J : Setup) (e : Bool) (c : String) (s : List (String × Val)), AtomLaws J.S → J.isJson c = true →
    Rep J e (.rcd c s) → ∃ j, toJson J e (.rcd c s) = .ok j ∧ ReadsBack J c j (.rcd c s)

/-- What is written for a record is read back to something that is related to it in every such way. -/
theorem back_trip (L : Trip J.S Q) {c : String} {s : List (String × Val)} (h : Back J e true (.rcd c s)) :
    (∃ j, toJson J e (.rcd c s) = .ok j ∧
      ∃ n0, ∀ n, n0 ≤ n → ∃ w, fromJson J n c j = .ok w ∧ clsOf w = some c ∧ Q w (.rcd c s)) ∧
    ∃ j, jsonData J e (.rcd c s) = .ok j ∧
      ∃ n0, ∀ n, n0 ≤ n → ∃ w, fromJson J n c j = .ok w ∧ clsOf w = some c ∧ Q w (.rcd c s) := by
  constructor
  · cases h with
    | record hJ hc hnd hd hk hu hm hf =>
      obtain ⟨n0, hn0⟩ := fields_good L hf (fun x _ m h => back_good L x.2 m h)
      obtain ⟨d, hdoc⟩ := recordOut_total hm (fieldGood_converts (hn0 n0 (Nat.le_refl _)))
      refine ⟨.dict d, by simp [toJson, hdoc, Except.map], n0 + 1, ?_⟩
      exact doc_read (m := true) (Q := Q) hc (.inr rfl) (fun n hn => doc_good L hnd hd hm (hn0 n hn) hdoc
        (recordOut_nodup hdoc) (fun _ _ _ _ => rfl)
        (.inr (fun k hk => written_claimed hdoc (alookup_isSome_iff.mpr hk))))
  · obtain ⟨d, j, hd, hj, _, n0, hn0⟩ := (back_good L _ _ h).ex
    cases hd
    exact ⟨j, hj, n0, hn0⟩

/-- C48, corrected: a record is written, by `to_json` and by `json_data`, and reading either gives an equal record of
the same class.  What is missing from the full statement: a plain `Record` or `ListCollection` inside is not read
with `from_json` but with its constructor, so its properties must not be renamed or converted; see `Back`. -/
theorem C48_partial (L : AtomLaws J.S) {c : String} {s : List (String × Val)} (h : Back J e true (.rcd c s)) :
    (∃ j, toJson J e (.rcd c s) = .ok j ∧ ReadsBack J c j (.rcd c s)) ∧
    ∃ j, jsonData J e (.rcd c s) = .ok j ∧ ReadsBack J c j (.rcd c s) :=
  back_trip (trip_veq L) h

/-- C48 for `JsonRecordList` and `JsonRecordDict`, which `to_json` writes as an array and an object. -/
theorem C48_collections_partial (L : AtomLaws J.S) {c : String} {v : Val} (hv : clsOf v = some c)
    (hc : (J.S.cls c).coll ≠ none) (h : Back J e true v) :
    ∃ j, toJson J e v = .ok j ∧ ReadsBack J c j v := by
  obtain ⟨d, j, hd, hj, _, n0, hn0⟩ := (back_good (trip_veq L) _ _ h).ex
  rw [hv] at hd
  cases hd
  cases v with
  | rcd c' s =>
    cases hv
    cases h with
    | record _ hc' => exact absurd hc' hc
  | lcoll c' xs => exact ⟨j, by simpa [toJson, jsonData] using hj, n0, hn0⟩
  | dcoll c' xs => exact ⟨j, by simpa [toJson, jsonData] using hj, n0, hn0⟩
  | atom a => cases hv
  | list xs => cases hv
  | dict xs => cases hv

/-! ## Examples -/

/-- A post has a renamed title, a converted time, a list of tags, a plain record as author, and a `JsonRecordList` of
comments, each with a reply to it, maybe. -/
def backCls : String → Ident.ICls
  | "Post" => { props := [⟨"unknown_json_keys", true, [], none⟩, ⟨"title", false, [], none⟩, ⟨"when", false, [], none⟩,
      ⟨"tags", false, [.other 0], none⟩, ⟨"author", false, [.cls "Author"], none⟩,
      ⟨"comments", false, [.cls "Comments"], none⟩, ⟨"draft", false, [], none⟩] }
  | "Author" => { props := [⟨"name", false, [], none⟩, ⟨"id", false, [], none⟩] }
  | "Comments" => { coll := some (.list, .one (.cls "Comment")) }
  | "Comment" => { props := [⟨"unknown_json_keys", true, [], none⟩, ⟨"text", false, [], none⟩,
      ⟨"reply", false, [.cls "Comment"], none⟩] }
  | _ => {}

def timeOut (v : Val) : Except Exc Val := if v = .atom (.opq 7) then .ok (.str "noon") else .error .typeError
def timeIn (v : Val) : Except Exc Val := if v = .str "noon" then .ok (.atom (.opq 7)) else .error .typeError

def backInfo : String → String → JInfo
  | _, "unknown_json_keys" => { json := some { jsonName := some none } }
  | "Post", "title" => { json := some { jsonName := some (some "Title") } }
  | "Post", "when" => { json := some { jin := some timeIn, jout := some timeOut } }
  | _, _ => {}

def isList : Val → Bool
  | .list _ => true
  | _ => false

def backJ : Setup :=
  { S := exSchema backCls, info := backInfo, isJson := fun c => c == "Post" || c == "Comments" || c == "Comment"
    isa := fun _ v => isList v
    make := fun _ _ => .error .typeError, loads := fun _ => .error .valueCheck }

def backComment : Val := .rcd "Comment" [("text", .str "yes")]

def backPost : List (String × Val) :=
  [("unknown_json_keys", .dict [(.str "lang", .str "en")]), ("title", .str "hello"), ("when", .atom (.opq 7)),
    ("tags", .list [.str "a", .int 3]), ("author", .rcd "Author" [("name", .str "ann")]),
    ("comments", .lcoll "Comments" [.rcd "Comment" [("text", .str "no"), ("reply", backComment)], backComment])]

theorem backLaws : AtomLaws backJ.S where
  refl a := by simp [backJ, exSchema]
  symm a b h := by simp [backJ, exSchema] at h ⊢; exact h.symm
  trans a b c h h' := by simp [backJ, exSchema] at h h' ⊢; exact h.trans h'

theorem atomWF {S : Ident.Schema} (a : Atom) : WF S (.atom a) := by
  intro x hx
  cases hx
  trivial

theorem exMayMiss {J : Setup} {e : Bool} {c : String} {s : List (String × Val)} {p : IProp}
    (h1 : jsonName J c p = none → p.extraneous = true) (h2 : (J.info c p.name).empty = .skip)
    (h3 : (J.info c p.name).required = false) (h4 : (J.info c p.name).default = none) : MayMiss J e c s p where
  hidden _ _ h := h1 (named_iff.mp h)
  unset _ := h2
  eager h := by rcases h with ⟨_, h | h⟩; · rw [h3] at h; cases h
                · exact absurd h4 h

theorem exKeepsOf {J : Setup} {c : String} (hi : J.info c "unknown_json_keys" = { json := some { jsonName := some none } })
    (hp : ∃ p ∈ (J.S.cls c).props, p.name = "unknown_json_keys" ∧ p.extraneous = true ∧ p.types = [])
    (hn : ((J.S.cls c).props.map (·.name)).Nodup) : KeepsUnknown J c := by
  refine ⟨hp, hn, ?_, by rw [hi], by rw [hi], by rw [hi]⟩
  intro p _ h
  rw [named_iff]
  unfold jsonName
  rw [h, hi]

theorem exDistinct {J : Setup} {c : String} (h : ∀ p ∈ (J.S.cls c).props, ∀ q ∈ (J.S.cls c).props,
    jsonName J c p = jsonName J c q → p = q ∨ jsonName J c p = none) :
    ∀ p q k, p ∈ (J.S.cls c).props → q ∈ (J.S.cls c).props → Named J c p (some k) → Named J c q (some k) → p = q := by
  intro p q k hp hq h1 h2
  rw [named_iff] at h1 h2
  rcases h p hp q hq (h1.trans h2.symm) with h | h
  · exact h
  · rw [h] at h1; cases h1

theorem exPlainField {J : Setup} {e m : Bool} {c : String} {p : IProp} {v : Val} (h1 : NoConverters (J.info c p.name))
    (h2 : p.types = []) (h3 : JsonLit J v) (h4 : (J.info c p.name).check = none)
    (h5 : (J.info c p.name).required = false) : BackField J e m c p v := by
  refine .plain h1 ⟨?_, ?_⟩ h3 ⟨.inl h2, ?_, ?_⟩
  · intro d h; rw [h2] at h; cases h
  · intro d h; rw [h2] at h; cases h
  · intro f h; rw [h4] at h; cases h
  · rintro ⟨_, h, _⟩; rw [h5] at h; cases h

theorem exStr {J : Setup} (s : String) : JsonLit J (.str s) := ⟨.str, atomWF _⟩

theorem backComments (s : List (String × Val)) (h0 : alookup s "unknown_json_keys" = none)
    (h1 : ∀ v, alookup s "text" = some v → ∃ t, v = .str t)
    (h2 : ∀ v, alookup s "reply" = some v → clsOf v = some "Comment" ∧ Back backJ e false v) (m : Bool) :
    Back backJ e m (.rcd "Comment" s) := by
  refine .record (.inl rfl) rfl (by decide +kernel) (exDistinct (by decide +kernel))
    (fun _ => exKeepsOf rfl ⟨_, List.mem_cons_self, rfl, rfl, rfl⟩ (by decide +kernel)) (fun _ u hu => ?_) ?_ ?_
  · rw [h0] at hu; cases hu
  · intro p hp
    simp only [backJ, exSchema, backCls, List.mem_cons, List.not_mem_nil, or_false] at hp
    rcases hp with rfl | rfl | rfl <;> exact exMayMiss (by decide +kernel) rfl rfl rfl
  · intro p v hp hv hw
    simp only [backJ, exSchema, backCls, List.mem_cons, List.not_mem_nil, or_false] at hp
    rcases hp with rfl | rfl | rfl
    · rw [h0] at hv; cases hv
    · obtain ⟨t, rfl⟩ := h1 v hv
      exact exPlainField (fun o h => by cases h) rfl (exStr t) rfl rfl
    · obtain ⟨h3, h4⟩ := h2 v hv
      exact .record (fun o h => by cases h) rfl h3 rfl (fun f w h => by cases h) h4

theorem backCommentBack (m : Bool) : Back backJ e m backComment := by
  refine backComments _ rfl (fun v h => ⟨"yes", ?_⟩) (fun v h => ?_) m
  · simp [alookup] at h; exact h.symm
  · simp [alookup] at h

theorem backAuthor : Back backJ e false (.rcd "Author" [("name", .str "ann")]) := by
  refine .raw rfl rfl (by decide +kernel) ?_ ?_ ?_
  · intro p k hp hk
    rw [named_iff] at hk
    simp only [backJ, exSchema, backCls, List.mem_cons, List.not_mem_nil, or_false] at hp
    rcases hp with rfl | rfl <;> exact (Option.some.inj hk).symm
  · intro p hp
    simp only [backJ, exSchema, backCls, List.mem_cons, List.not_mem_nil, or_false] at hp
    rcases hp with rfl | rfl <;> exact exMayMiss (by decide +kernel) rfl rfl rfl
  · intro p v hp hv hw
    simp only [backJ, exSchema, backCls, List.mem_cons, List.not_mem_nil, or_false] at hp
    rcases hp with rfl | rfl
    · simp [alookup] at hv; subst hv
      exact exPlainField (fun o h => by cases h) rfl (exStr _) rfl rfl
    · simp [alookup] at hv

theorem exTags : JsonLit backJ (.list [.str "a", .int 3]) := by
  refine ⟨.list ?_, ?_⟩
  · intro x hx
    simp only [List.mem_cons, List.not_mem_nil, or_false] at hx
    rcases hx with rfl | rfl
    · exact .str
    · exact .int (by decide) (by decide)
  · intro w hw
    cases hw with
    | self => trivial
    | list hx hs =>
      simp only [List.mem_cons, List.not_mem_nil, or_false] at hx
      rcases hx with rfl | rfl <;> (cases hs; trivial)

/-- The conditions of `C48_partial` are met by `backPost`. -/
theorem backPostBack : Back backJ true true (.rcd "Post" backPost) := by
  refine .record (.inl rfl) rfl (by decide +kernel) (exDistinct (by decide +kernel))
    (fun _ => exKeepsOf rfl ⟨_, List.mem_cons_self, rfl, rfl, rfl⟩ (by decide +kernel)) (fun _ u hu => ?_) ?_ ?_
  · have hu : some (Val.dict [(.str "lang", .str "en")]) = some u := hu
    cases hu
    refine ⟨_, rfl, by decide +kernel, fun x hx => ?_⟩
    simp only [List.mem_cons, List.not_mem_nil, or_false] at hx
    subst hx
    refine ⟨?_, _, rfl⟩
    rw [claimed_iff]
    rintro ⟨p, hp, nm, h1, h2⟩
    cases h2
    have : ∀ p ∈ (backJ.S.cls "Post").props, ¬ jsonName backJ "Post" p = some "lang" := by decide +kernel
    exact this p hp h1
  · intro p hp
    simp only [backJ, exSchema, backCls, List.mem_cons, List.not_mem_nil, or_false] at hp
    rcases hp with rfl | rfl | rfl | rfl | rfl | rfl | rfl <;> exact exMayMiss (by decide +kernel) rfl rfl rfl
  · intro p v hp hv hw
    simp only [backJ, exSchema, backCls, List.mem_cons, List.not_mem_nil, or_false] at hp
    rcases hp with rfl | rfl | rfl | rfl | rfl | rfl | rfl
    · obtain ⟨_, _, k, hk⟩ := hw
      rw [named_iff] at hk
      have : none = some k := hk
      cases this
    · have hv : some (Val.str "hello") = some v := hv
      cases hv
      exact exPlainField (fun o h => by cases h; exact ⟨rfl, rfl⟩) rfl (exStr _) rfl rfl
    · have hv : some (Val.atom (.opq 7)) = some v := hv
      cases hv
      exact .conv rfl rfl rfl (f := timeOut) (g := timeIn) (j := .str "noon") (by decide +kernel) (by decide +kernel)
        ⟨fun d h => (by cases h), fun d h => by cases h⟩ (atomWF _)
        ⟨.inl rfl, fun f h => (by cases h), fun h => by cases h.2.1⟩
    · have hv : some (Val.list [.str "a", .int 3]) = some v := hv
      cases hv
      exact .plain (fun o h => by cases h) ⟨fun d h => (by cases h), fun _ _ => rfl⟩ exTags
        ⟨.inr ⟨.other 0, List.mem_cons_self, rfl⟩, fun f h => (by cases h), fun h => by cases h.2.1⟩
    · have hv : some (Val.rcd "Author" [("name", .str "ann")]) = some v := hv
      cases hv
      exact .record (fun o h => by cases h) rfl rfl rfl (fun f w h => by cases h) backAuthor
    · have hv : some (Val.lcoll "Comments" [.rcd "Comment" [("text", .str "no"), ("reply", backComment)], backComment]) =
        some v := hv
      cases hv
      refine .record (fun o h => by cases h) rfl rfl rfl (fun f w h => by cases h) (.jlist rfl rfl ?_)
      intro x hx
      simp only [List.mem_cons, List.not_mem_nil, or_false] at hx
      rcases hx with rfl | rfl
      · refine .record rfl (backComments _ rfl (fun v h => ⟨"no", ?_⟩) (fun v h => ?_) _)
        · simp [alookup] at h; exact h.symm
        · simp [alookup] at h; subst h; exact ⟨rfl, backCommentBack _⟩
      · exact .record rfl (backCommentBack _)
    · have hv : none = some v := hv
      cases hv

-- so it is read back; here is what is written, and what is read
example : (∃ j, toJson backJ true (.rcd "Post" backPost) = .ok j ∧ ReadsBack backJ "Post" j (.rcd "Post" backPost)) ∧
    ∃ j, jsonData backJ true (.rcd "Post" backPost) = .ok j ∧ ReadsBack backJ "Post" j (.rcd "Post" backPost) :=
  C48_partial backLaws backPostBack

def backDoc : Val := .dict [(.str "Title", .str "hello"), (.str "when", .str "noon"),
  (.str "tags", .list [.str "a", .int 3]), (.str "author", .dict [(.str "name", .str "ann")]),
  (.str "comments", .list [.dict [(.str "text", .str "no"), (.str "reply", .dict [(.str "text", .str "yes")])],
    .dict [(.str "text", .str "yes")]]), (.str "lang", .str "en")]

example : jsonData backJ true (.rcd "Post" backPost) = .ok backDoc := by decide +kernel

example : fromJson backJ 5 "Post" backDoc = .ok (.rcd "Post" [("title", .str "hello"), ("when", .atom (.opq 7)),
    ("tags", .list [.str "a", .int 3]), ("author", .rcd "Author" [("name", .str "ann")]),
    ("comments", .lcoll "Comments" [.rcd "Comment" [("text", .str "no"), ("reply", backComment)], backComment]),
    ("unknown_json_keys", .dict [(.str "lang", .str "en")])]) := by decide +kernel

/-! ## The literal statement is false -/

/-- A `JsonRecord` that holds a plain record one of whose properties is renamed. -/
def renCls : String → Ident.ICls
  | "Outer" => { props := [⟨"unknown_json_keys", true, [], none⟩, ⟨"inner", false, [.cls "Inner"], none⟩] }
  | "Inner" => { props := [⟨"name", false, [], none⟩] }
  | _ => {}

def renInfo : String → String → JInfo
  | _, "unknown_json_keys" => { json := some { jsonName := some none } }
  | "Inner", "name" => { json := some { jsonName := some (some "Name") } }
  | _, _ => {}

def renJ : Setup :=
  { S := exSchema renCls, info := renInfo, isJson := fun c => c == "Outer", isa := fun _ _ => false
    make := fun _ _ => .error .typeError, loads := fun _ => .error .valueCheck }

theorem renLaws : AtomLaws renJ.S where
  refl a := by simp [renJ, exSchema]
  symm a b h := by simp [renJ, exSchema] at h ⊢; exact h.symm
  trans a b c h h' := by simp [renJ, exSchema] at h h' ⊢; exact h.trans h'

theorem renInner : Rep renJ false (.rcd "Inner" [("name", .str "ann")]) := by
  refine .record rfl (by decide +kernel) (exDistinct (by decide +kernel)) (fun h => by cases h) (fun h => by cases h) ?_ ?_
  · intro p hp
    simp only [renJ, exSchema, renCls, List.mem_cons, List.not_mem_nil, or_false] at hp
    subst hp
    exact exMayMiss (by decide +kernel) rfl rfl rfl
  · intro p v hp hv hw
    simp only [renJ, exSchema, renCls, List.mem_cons, List.not_mem_nil, or_false] at hp
    subst hp
    have hv : some (Val.str "ann") = some v := hv
    cases hv
    exact .plain (fun o h => by cases h; exact ⟨rfl, rfl⟩) ⟨fun d h => (by cases h), fun d h => by cases h⟩ (exStr _)
      ⟨.inl rfl, fun f h => (by cases h), fun h => by cases h.2.1⟩

theorem renOuter : Rep renJ false (.rcd "Outer" [("inner", .rcd "Inner" [("name", .str "ann")])]) := by
  refine .record rfl (by decide +kernel) (exDistinct (by decide +kernel))
    (fun _ => exKeepsOf rfl ⟨_, List.mem_cons_self, rfl, rfl, rfl⟩ (by decide +kernel))
    (fun _ u hu => by have hu : none = some u := hu; cases hu) ?_ ?_
  · intro p hp
    simp only [renJ, exSchema, renCls, List.mem_cons, List.not_mem_nil, or_false] at hp
    rcases hp with rfl | rfl <;> exact exMayMiss (by decide +kernel) rfl rfl rfl
  · intro p v hp hv hw
    simp only [renJ, exSchema, renCls, List.mem_cons, List.not_mem_nil, or_false] at hp
    rcases hp with rfl | rfl
    · have hv : none = some v := hv
      cases hv
    · have hv : some (Val.rcd "Inner" [("name", .str "ann")]) = some v := hv
      cases hv
      exact .record (fun o h => by cases h) rfl rfl rfl (fun f w h => by cases h) renInner

/-- C48 is violated: the plain record inside is written as `{"Name": …}`, which its constructor does not take. -/
theorem C48_violated : ¬ C48_statement := by
  intro h
  obtain ⟨j, hj, n0, hn0⟩ := h renJ false "Outer" _ renLaws rfl renOuter
  have hj' : toJson renJ false (.rcd "Outer" [("inner", .rcd "Inner" [("name", .str "ann")])]) =
      .ok (.dict [(.str "inner", .dict [(.str "Name", .str "ann")])]) := by decide +kernel
  rw [hj'] at hj
  cases hj
  obtain ⟨w, hw, _⟩ := hn0 (n0 + 2) (by omega)
  have : fromJson renJ (n0 + 2) "Outer" (.dict [(.str "inner", .dict [(.str "Name", .str "ann")])]) =
      .error (.raw .coerceError) := by
    simp [fromJson, fromJsonWith, decode, make, construct, mkJson, mkPlain, initKwargs, structOf, kwProps, kwProp,
      jsonName, renJ, renInfo, exSchema, renCls, alookup, takeArg, convertIn, propIn, valueInit, boxing, removeKey,
      withUnknown, initRecord, initArgs, findProp, initProp, typeSafe, instOf, clsOf, coerceVal, callTy, falsy,
      namedArgs]
  rw [this] at hw
  cases hw

end Normalize.Json
