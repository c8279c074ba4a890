import Verif.Spec.JsonValid
import Verif.Props.JsonBack

/-!
# C64: records that are made are valid
-/

namespace Normalize.Json
open Ident (IProp Schema Ty ItemTy CollKind)
open Spec (Declared Complete Valid Wellmade Accepted)

variable {J : Setup} {mk : Mk} {c : String}

/-- What is assumed of the constructors of other classes. -/
def MkOK (J : Setup) (mk : Mk) : Prop := ∀ c v w, mk c v = .ok w → Valid J v → clsOf w = some c ∧ Valid J w

theorem callTy_valid (H : Wellmade J) (hm : MkOK J mk) {t : Ty} {v w : Val} (h : callTy J mk t v = .ok w) (hv : Valid J v) :
    instOf J t w = true ∧ Valid J w := by
  cases t with
  | cls d =>
    obtain ⟨h1, h2⟩ := hm d v w h hv
    exact ⟨instOf_cls h1, h2⟩
  | other n =>
    simp only [callTy, lift] at h
    cases hmk : J.make n v with
    | error e => rw [hmk] at h; cases h
    | ok w' =>
      rw [hmk] at h
      cases h
      exact ⟨H.isa n v w hmk, H.make n v w hmk hv⟩

theorem coerceVal_valid (H : Wellmade J) (hm : MkOK J mk) {nm : String} {types : List Ty} {v w : Val}
    (h : coerceVal J mk (J.info c nm) types v = .ok w) (hv : Valid J v) : Valid J w := by
  unfold coerceVal at h
  cases hc : (J.info c nm).coerce with
  | some f =>
    rw [hc] at h
    simp only [lift] at h
    cases hf : f v with
    | error e => rw [hf] at h; cases h
    | ok w' => rw [hf] at h; cases h; exact H.coerce c nm f v w hc hf hv
  | none =>
    rw [hc] at h
    simp only at h
    split at h
    · exact (callTy_valid H hm h hv).2
    · cases h

theorem runCheck_ok {i : JInfo} {v : Val} {r : Option Val} (h : runCheck i v = .ok r) :
    r = some v ∧ ∀ f, i.check = some f → f v = .ok true := by
  unfold runCheck at h
  cases hc : i.check with
  | none => rw [hc] at h; cases h; exact ⟨rfl, fun f hf => by cases hf⟩
  | some f =>
    rw [hc] at h
    simp only at h
    split at h
    · cases h
    · rename_i hf
      cases h
      exact ⟨rfl, fun g hg => by cases hg; exact hf⟩
    · cases h

theorem typeSafe_valid (H : Wellmade J) (hm : MkOK J mk) {nm : String} {types : List Ty} {v w : Val}
    (h : typeSafe J mk (J.info c nm) types v = .ok (some w)) (hv : Valid J v) :
    Accepted J (J.info c nm) types w ∧ Valid J w := by
  unfold typeSafe at h
  split at h
  · cases h
  · rename_i h0
    split at h
    · rename_i h1
      have hne : types ≠ [] := by
        rintro rfl
        simp at h1
      split at h
      · cases h
      · rename_i u hu
        split at h
        · rename_i h2
          obtain ⟨h3, h4⟩ := runCheck_ok h
          cases h3
          simp only [List.any_eq_true] at h2
          exact ⟨⟨.inr h2, h4, fun h => hne h.2.2⟩, coerceVal_valid H hm hu hv⟩
        · split at h <;> cases h
    · rename_i h1
      obtain ⟨h3, h4⟩ := runCheck_ok h
      cases h3
      refine ⟨⟨?_, h4, h0⟩, hv⟩
      by_cases he : types = []
      · exact .inl he
      · right
        have : types.isEmpty = false := by cases types with
          | nil => exact absurd rfl he
          | cons _ _ => rfl
        simpa [this] using h1

/-- What holds of the instance dict while a record is made. -/
def SlotsOK (J : Setup) (c : String) (s : List (String × Val)) : Prop :=
  ∀ nm v, alookup s nm = some v → Declared J c nm v ∧ Valid J v

theorem initProp_valid (H : Wellmade J) (hm : MkOK J mk) {p : IProp} (hp : p ∈ (J.S.cls c).props) {v : Val}
    {s s' : List (String × Val)} (h : initProp J mk c p v s = .ok s') (hv : Valid J v) (hs : SlotsOK J c s) :
    SlotsOK J c s' ∧ (∀ nm, (alookup s nm).isSome = true → (alookup s' nm).isSome = true) ∧
      ((J.info c p.name).required = true → (alookup s' p.name).isSome = true) := by
  unfold initProp at h
  split at h
  · cases h
  · rename_i w hw
    cases h
    obtain ⟨ha, hwv⟩ := typeSafe_valid H hm hw hv
    refine ⟨fun nm u hu => ?_, fun nm hnm => ?_, fun _ => ?_⟩
    · rw [alookup_aset] at hu
      split at hu
      · rename_i hnm
        cases hu
        subst hnm
        exact ⟨⟨p, hp, rfl, ha⟩, hwv⟩
      · exact hs nm u hu
    · rw [alookup_aset]
      split
      · rfl
      · exact hnm
    · rw [alookup_aset, if_pos rfl]; rfl
  · split at h
    · cases h
    · rename_i hr
      cases h
      exact ⟨hs, fun _ h => h, fun h => absurd h hr⟩

theorem initArgs_valid (H : Wellmade J) (hm : MkOK J mk) : ∀ (kw s s' : List (String × Val)),
    initArgs J mk c kw s = .ok s' → (∀ x ∈ kw, Valid J x.2) → SlotsOK J c s →
    SlotsOK J c s' ∧ (∀ nm, (alookup s nm).isSome = true → (alookup s' nm).isSome = true) ∧
      ∀ p ∈ (J.S.cls c).props, (J.info c p.name).required = true → (alookup kw p.name).isSome = true →
        (alookup s' p.name).isSome = true
  | [], s, s', h, _, hs => by cases h; exact ⟨hs, fun _ h => h, fun _ _ _ h => by cases h⟩
  | (k, v) :: kw, s, s', h, hv, hs => by
    unfold initArgs at h
    split at h
    · cases h
    · rename_i p hp
      obtain ⟨hpm, hpn⟩ := findProp_name hp
      split at h
      · cases h
      · rename_i s1 hs1
        obtain ⟨h1, h2, h3⟩ := initProp_valid H hm hpm hs1 (hv _ List.mem_cons_self) hs
        obtain ⟨i1, i2, i3⟩ := initArgs_valid H hm kw s1 s' h (fun x hx => hv x (List.mem_cons_of_mem _ hx)) h1
        refine ⟨i1, fun nm hnm => i2 nm (h2 nm hnm), fun q hq hr hk => ?_⟩
        by_cases hqk : k = q.name
        · have : q = p := by
            have := findProp_of_mem (H.names c) hq
            rw [← hqk, hp] at this
            cases this
            rfl
          subst this
          exact i2 _ (h3 hr)
        · refine i3 q hq hr ?_
          simpa [alookup, hqk] using hk

theorem initMissing_valid (H : Wellmade J) (hm : MkOK J mk) : ∀ (ps : List IProp) (s s' : List (String × Val)),
    initMissing J mk c ps s = .ok s' → (∀ p ∈ ps, p ∈ (J.S.cls c).props) → SlotsOK J c s →
    SlotsOK J c s' ∧ (∀ nm, (alookup s nm).isSome = true → (alookup s' nm).isSome = true) ∧
      ∀ p ∈ ps, (J.info c p.name).required = true → (alookup s' p.name).isSome = true
  | [], s, s', h, _, hs => by cases h; exact ⟨hs, fun _ h => h, fun _ h => by cases h⟩
  | p :: ps, s, s', h, hps, hs => by
    unfold initMissing at h
    split at h
    · cases h
    · rename_i s1 hs1
      have key : SlotsOK J c s1 ∧ (∀ nm, (alookup s nm).isSome = true → (alookup s1 nm).isSome = true) ∧
          ((J.info c p.name).required = true → (alookup s1 p.name).isSome = true) := by
        unfold initDefault at hs1
        split at hs1
        · split at hs1
          · cases hs1
          · rename_i hr
            cases hs1
            exact ⟨hs, fun _ h => h, fun h => absurd h hr⟩
        · rename_i v hd
          exact initProp_valid H hm (hps p List.mem_cons_self) hs1 (H.default c _ v hd) hs
      obtain ⟨i1, i2, i3⟩ := initMissing_valid H hm ps s1 s' h (fun q hq => hps q (List.mem_cons_of_mem _ hq)) key.1
      refine ⟨i1, fun nm hnm => i2 nm (key.2.1 nm hnm), fun q hq hr => ?_⟩
      rcases List.mem_cons.1 hq with rfl | hq
      · exact i2 _ (key.2.2 hr)
      · exact i3 q hq hr

/-- C64 for keyword arguments. -/
theorem initRecord_valid (H : Wellmade J) (hm : MkOK J mk) {kw : List (String × Val)} {w : Val}
    (h : initRecord J mk c kw = .ok w) (hv : ∀ x ∈ kw, Valid J x.2) : clsOf w = some c ∧ Valid J w := by
  unfold initRecord at h
  split at h
  · cases h
  · rename_i s1 hs1
    split at h
    · cases h
    · rename_i s2 hs2
      cases h
      obtain ⟨i1, i2, i3⟩ := initArgs_valid H hm kw [] s1 hs1 hv (fun nm v h => by cases h)
      obtain ⟨j1, j2, j3⟩ := initMissing_valid H hm _ s1 s2 hs2 (fun p hp => (List.mem_filter.1 hp).1) i1
      refine ⟨rfl, .rcd (fun nm v h => (j1 nm v h).1) ?_ (fun nm v h => (j1 nm v h).2)⟩
      intro p hp hr hl
      cases hk : alookup kw p.name with
      | some v => exact j2 _ (i3 p hp hr (by rw [hk]; rfl))
      | none =>
        refine j3 p (List.mem_filter.2 ⟨hp, ?_⟩) hr
        simp [eager, hr, hl, hk]

theorem valueInit_valid (H : Wellmade J) (hm : MkOK J mk) {types : List Ty} {v w : Val}
    (h : valueInit J mk types v = .ok w) (hv : Valid J v) : Valid J w := by
  unfold valueInit at h
  split at h
  · split at h
    · exact (hm _ _ _ h hv).2
    · cases h; exact hv
  · split at h
    · rename_i f hf
      cases hw : f v with
      | error e => rw [hw] at h; cases h
      | ok w' => rw [hw] at h; cases h; exact H.fromJson _ f v w hf hw hv
    · cases h; exact hv
  · cases h; exact hv

theorem convertIn_valid (H : Wellmade J) (hm : MkOK J mk) {p : IProp} {k : String} {j w : Val}
    (h : convertIn J mk c p k j = .ok w) (hv : Valid J j) : Valid J w := by
  unfold convertIn boxing at h
  split at h
  · rename_i w' hw
    cases h
    cases hp : propIn (J.info c p.name) j with
    | error e => rw [hp] at hw; cases hw
    | ok u =>
      rw [hp] at hw
      refine valueInit_valid H hm hw ?_
      unfold propIn at hp
      cases hj : (J.info c p.name).json with
      | none => rw [hj] at hp; cases hp; exact hv
      | some o =>
        rw [hj] at hp
        simp only [Option.bind] at hp
        cases hi : o.jin with
        | none => rw [hi] at hp; cases hp; exact hv
        | some f =>
          rw [hi] at hp
          simp only [lift] at hp
          cases hf : f j with
          | error e => rw [hf] at hp; cases hp
          | ok u' => rw [hf] at hp; cases hp; exact H.jin c p.name o f j u hj hi hf hv
  · cases h

theorem takeArg_valid (H : Wellmade J) (hm : MkOK J mk) {p : IProp} {k : String} {j : Val} {args args' : List (String × Val)}
    (h : takeArg J mk c p k j args = .ok args') (hv : Valid J j) (ha : ∀ x ∈ args, Valid J x.2) :
    ∀ x ∈ args', Valid J x.2 := by
  unfold takeArg at h
  split at h
  · cases h; exact ha
  · split at h
    · cases h
    · rename_i v hc
      cases h
      intro x hx
      rcases List.mem_append.1 hx with hx | hx
      · exact ha x hx
      · rw [List.mem_singleton] at hx
        subst hx
        exact convertIn_valid H hm hc hv

theorem kwProp_valid (H : Wellmade J) (hm : MkOK J mk) {js : List (Comp × Val)} (hj : ∀ x ∈ js, Valid J x.2) {p : IProp}
    {w w' : Kw} (h : kwProp J mk c js p w = .ok w') (hw : ∀ x ∈ w.args, Valid J x.2) : ∀ x ∈ w'.args, Valid J x.2 := by
  unfold kwProp at h
  split at h
  · cases h; exact hw
  · split at h
    · cases h; exact hw
    · rename_i j hl
      have hjv := hj _ (Mfs.alookup_mem hl)
      split at h
      · split at h
        · cases h
        · rename_i args ha
          split at h
          · cases h
          · cases h; exact takeArg_valid H hm ha hjv hw
      · split at h
        · cases h
        · split at h
          · cases h
          · rename_i args ha
            cases h; exact takeArg_valid H hm ha hjv hw

theorem kwProps_valid (H : Wellmade J) (hm : MkOK J mk) {js : List (Comp × Val)} (hj : ∀ x ∈ js, Valid J x.2) :
    ∀ (ps : List IProp) (w w' : Kw), kwProps J mk c js ps w = .ok w' → (∀ x ∈ w.args, Valid J x.2) →
      ∀ x ∈ w'.args, Valid J x.2
  | [], w, w', h, hw => by cases h; exact hw
  | p :: ps, w, w', h, hw => by
    unfold kwProps at h
    split at h
    · cases h
    · rename_i w1 h1
      exact kwProps_valid H hm hj ps w1 w' h (kwProp_valid H hm hj h1 hw)

theorem initKwargs_valid (H : Wellmade J) (hm : MkOK J mk) {j : Val} {kw kw' : List (String × Val)}
    (h : initKwargs J mk c j kw = .ok kw') (hv : Valid J j) (hk : ∀ x ∈ kw, Valid J x.2) : ∀ x ∈ kw', Valid J x.2 := by
  unfold initKwargs at h
  split at h
  · cases h
  · rename_i js hjs
    have hj : ∀ x ∈ js, Valid J x.2 := by
      unfold structOf at hjs
      split at hjs
      · cases hjs; intro x hx; cases hx
      · cases hjs; cases hv; assumption
      · cases hjs
    split at h
    · cases h
    · rename_i w hw
      cases h
      have ha := kwProps_valid H hm hj _ _ _ hw hk
      unfold withUnknown
      split
      · exact ha
      · intro x hx
        rcases aset_mem hx with hx | hx
        · exact ha x hx
        · rw [hx]
          exact .dict (fun y hy => hj y (List.mem_filter.1 hy).1)

theorem decode_valid (H : Wellmade J) {v j : Val} (h : decode J v = .ok j) (hv : Valid J v) : Valid J j := by
  unfold decode at h
  split at h
  · rename_i s
    cases hl : J.loads s with
    | error e => rw [hl] at h; cases h
    | ok u => rw [hl] at h; cases h; exact H.loads s j hl
  · cases h; exact hv

theorem mkJson_valid (H : Wellmade J) (hm : MkOK J mk) {v w : Val} (h : mkJson J mk c v = .ok w) (hv : Valid J v) :
    clsOf w = some c ∧ Valid J w := by
  unfold mkJson at h
  split at h
  · cases h
  · exact initRecord_valid H hm h (fun x hx => by cases hx)
  · rename_i j _ hj
    split at h
    · cases h
    · rename_i j' hj'
      split at h
      · cases h
      · rename_i kw hkw
        exact initRecord_valid H hm h (initKwargs_valid H hm hkw (decode_valid H hj' (decode_valid H hj hv))
          (fun x hx => by cases hx))

theorem namedArgs_valid : ∀ (xs : List (Comp × Val)) (kw : List (String × Val)), namedArgs xs = .ok kw →
    (∀ x ∈ xs, Valid J x.2) → ∀ x ∈ kw, Valid J x.2
  | [], kw, h, _ => by cases h; intro x hx; cases hx
  | (.str k, v) :: xs, kw, h, hv => by
    unfold namedArgs at h
    split at h
    · cases h
    · rename_i r hr
      cases h
      intro x hx
      rcases List.mem_cons.1 hx with rfl | hx
      · exact hv _ List.mem_cons_self
      · exact namedArgs_valid xs r hr (fun y hy => hv y (List.mem_cons_of_mem _ hy)) x hx
  | (.int i, v) :: xs, kw, h, _ => by cases h
  | (.none, v) :: xs, kw, h, _ => by cases h

theorem mkPlain_valid (H : Wellmade J) (hm : MkOK J mk) {v w : Val} (h : mkPlain J mk c v = .ok w) (hv : Valid J v) :
    clsOf w = some c ∧ Valid J w := by
  unfold mkPlain at h
  split at h
  · exact initRecord_valid H hm h (fun x hx => by cases hx)
  · split at h
    · split at h
      · cases h
      · rename_i hk
        cases hv with
        | dict hv => exact initRecord_valid H hm h (namedArgs_valid _ _ hk hv)
    · split at h
      · cases h
      · rename_i hk
        cases hv with
        | dcoll _ _ hv => exact initRecord_valid H hm h (namedArgs_valid _ _ hk hv)
    · cases h

theorem coerceItem_valid (H : Wellmade J) (hm : MkOK J mk) {it : ItemTy} {v w : Val}
    (h : coerceItem J mk it v = .ok w) (hv : Valid J v) : isItem J it w = true ∧ Valid J w := by
  unfold coerceItem at h
  split at h
  · rename_i hi; cases h; exact ⟨hi, hv⟩
  · split at h
    · cases h
    · split at h
      · rename_i w' hw
        cases h
        exact callTy_valid H hm hw hv
      · cases h

theorem mapE_ok {α β ε : Type} {g : α → Except ε β} : ∀ {xs : List α} {ys : List β}, mapE g xs = .ok ys →
    ∀ y ∈ ys, ∃ x ∈ xs, g x = .ok y
  | [], ys, h, y, hy => by cases h; cases hy
  | x :: xs, ys, h, y, hy => by
    unfold mapE at h
    split at h
    · cases h
    · rename_i z hz
      split at h
      · cases h
      · rename_i zs hzs
        cases h
        rcases List.mem_cons.1 hy with rfl | hy
        · exact ⟨x, List.mem_cons_self, hz⟩
        · obtain ⟨x', hx', h'⟩ := mapE_ok hzs y hy
          exact ⟨x', List.mem_cons_of_mem _ hx', h'⟩

theorem listItems_valid {v : Val} {xs : List Val} (h : listItems J v = .ok xs) (hv : Valid J v) : ∀ x ∈ xs, Valid J x := by
  unfold listItems at h
  split at h
  · cases h
  · split at h
    · cases h
      cases hv with
      | dict hv =>
        intro x hx
        obtain ⟨y, hy, rfl⟩ := List.mem_map.1 hx
        rw [List.mem_insertionSort] at hy
        exact hv y hy
    · cases h
  · cases h; cases hv; assumption
  · cases h; cases hv; assumption
  · cases h
    intro x hx
    obtain ⟨y, hy, rfl⟩ := List.mem_map.1 hx
    cases y.1 <;> exact .atom
  · split at h
    · cases h; intro x hx; cases hx
    · cases h
  · cases h

theorem enum_valid {xs : List Val} (h : ∀ x ∈ xs, Valid J x) : ∀ y ∈ Ident.enum xs, Valid J y.2 := by
  intro y hy
  simp only [Ident.enum, List.mem_map] at hy
  obtain ⟨z, hz, rfl⟩ := hy
  exact h _ (by rw [(List.mem_zipIdx' hz).2]; exact List.getElem_mem _)

theorem dictItems_valid {v : Val} {xs : List (Comp × Val)} (h : dictItems v = .ok xs) (hv : Valid J v) :
    ∀ x ∈ xs, Valid J x.2 := by
  unfold dictItems at h
  split at h
  · cases h
  · cases h; cases hv; assumption
  · cases h
    cases hv with
    | list hv => exact enum_valid hv
  · cases h; intro x hx; cases hx

theorem coerceEntry_valid (H : Wellmade J) (hm : MkOK J mk) {it : ItemTy} {x y : Comp × Val}
    (h : coerceEntry J mk it x = .ok y) (hv : Valid J x.2) : isItem J it y.2 = true ∧ Valid J y.2 := by
  unfold coerceEntry at h
  split at h
  · cases h
  · rename_i w hw
    cases h
    exact coerceItem_valid H hm hw hv

theorem mkList_valid (H : Wellmade J) (hm : MkOK J mk) {it : ItemTy} (hc : (J.S.cls c).coll = some (.list, it)) {v w : Val}
    (h : mkList J mk c it v = .ok w) (hv : Valid J v) : clsOf w = some c ∧ Valid J w := by
  unfold mkList at h
  split at h
  · cases h
  · rename_i xs hxs
    split at h
    · cases h
    · rename_i ys hys
      cases h
      have key : ∀ y ∈ ys, isItem J it y = true ∧ Valid J y := by
        intro y hy
        obtain ⟨x, hx, h⟩ := mapE_ok hys y hy
        exact coerceItem_valid H hm h (listItems_valid hxs hv x hx)
      exact ⟨rfl, .lcoll hc (fun y hy => (key y hy).1) (fun y hy => (key y hy).2)⟩

theorem mkDict_valid (H : Wellmade J) (hm : MkOK J mk) {it : ItemTy} (hc : (J.S.cls c).coll = some (.dict, it)) {v w : Val}
    (h : mkDict J mk c it v = .ok w) (hv : Valid J v) : clsOf w = some c ∧ Valid J w := by
  unfold mkDict at h
  split at h
  · cases h
  · rename_i xs hxs
    split at h
    · cases h
    · rename_i ys hys
      cases h
      have key : ∀ y ∈ ys, isItem J it y.2 = true ∧ Valid J y.2 := by
        intro y hy
        obtain ⟨x, hx, h⟩ := mapE_ok hys y hy
        exact coerceEntry_valid H hm h (dictItems_valid hxs hv x hx)
      exact ⟨rfl, .dcoll hc (fun y hy => (key y hy).1) (fun y hy => (key y hy).2)⟩

theorem fromPlain_valid (H : Wellmade J) (hm : MkOK J mk) {j w : Val} (h : fromPlain J mk c j = .ok w) (hv : Valid J j) :
    clsOf w = some c ∧ Valid J w := by
  unfold fromPlain at h
  split at h
  · cases h
  · rename_i kw hkw
    split at h
    · exact initRecord_valid H hm h (initKwargs_valid H hm hkw hv (fun x hx => by cases hx))
    · rename_i hc
      split at h
      · cases h; exact ⟨rfl, .lcoll hc (fun x hx => by cases hx) (fun x hx => by cases hx)⟩
      · cases h
    · rename_i hc
      split at h
      · cases h; exact ⟨rfl, .dcoll hc (fun x hx => by cases hx) (fun x hx => by cases hx)⟩
      · cases h

theorem fromJsonWith_valid (H : Wellmade J) (hm : MkOK J mk) {v w : Val} (h : fromJsonWith J mk c v = .ok w)
    (hv : Valid J v) : clsOf w = some c ∧ Valid J w := by
  unfold fromJsonWith at h
  split at h
  · cases h
  · rename_i j hj
    have hjv := decode_valid H hj hv
    split at h
    · exact hm _ _ _ h hjv
    · exact fromPlain_valid H hm h hjv

theorem memberIn_valid (H : Wellmade J) (hm : MkOK J mk) {it : ItemTy} {f : Val → Except JErr Val}
    (h : memberIn J mk it = .ok (some f)) {v w : Val} (hf : f v = .ok w) (hv : Valid J v) : Valid J w := by
  unfold memberIn at h
  split at h
  · cases h
  · cases h
    simp only at hf
    split at hf
    · cases hf; exact hv
    · split at hf
      · exact (hm _ _ _ hf hv).2
      · exact (fromJsonWith_valid H hm hf hv).2
  · split at h
    · rename_i g hg
      cases h
      simp only at hf
      split at hf
      · cases hf; exact hv
      · cases hw : g v with
        | error e => rw [hw] at hf; cases hf
        | ok u => rw [hw] at hf; cases hf; exact H.fromJson _ g v w hg hw hv
    · cases h

theorem memberEntry_valid {f : Val → Except JErr Val} {x y : Comp × Val} (h : memberEntry f x = .ok y) :
    f x.2 = .ok y.2 ∧ x.1 = y.1 := by
  unfold memberEntry boxing at h
  cases hf : f x.2 with
  | error e => rw [hf] at h; cases h
  | ok w => rw [hf] at h; cases h; exact ⟨rfl, rfl⟩

theorem listValues_valid (H : Wellmade J) (hm : MkOK J mk) {it : ItemTy} {j : Val} {xs : List Val}
    (h : listValues J mk it j = .ok xs) (hv : Valid J j) : ∀ x ∈ xs, Valid J x := by
  unfold listValues at h
  split at h
  · rename_i zs
    have hz : ∀ x ∈ zs, Valid J x := by cases hv; assumption
    split at h
    · cases h
    · cases h; exact hz
    · rename_i f hf
      split at h
      · cases h
      · rename_i ys hys
        cases h
        intro x hx
        obtain ⟨y, hy, rfl⟩ := List.mem_map.1 hx
        obtain ⟨z, hz', h⟩ := mapE_ok hys y hy
        exact memberIn_valid H hm hf (memberEntry_valid h).1 (enum_valid hz z hz')
  · cases h

theorem dictValues_valid (H : Wellmade J) (hm : MkOK J mk) {it : ItemTy} {j : Val} {xs : List (Comp × Val)}
    (h : dictValues J mk it j = .ok xs) (hv : Valid J j) : ∀ x ∈ xs, Valid J x.2 := by
  unfold dictValues at h
  split at h
  · rename_i zs
    have hz : ∀ x ∈ zs, Valid J x.2 := by cases hv; assumption
    split at h
    · cases h
    · cases h; exact hz
    · rename_i f hf
      intro y hy
      obtain ⟨z, hz', h⟩ := mapE_ok h y hy
      exact memberIn_valid H hm hf (memberEntry_valid h).1 (hz z hz')
  · cases h

theorem mkJsonList_valid (H : Wellmade J) (hm : MkOK J mk) {it : ItemTy} (hc : (J.S.cls c).coll = some (.list, it)) {v w : Val}
    (h : mkJsonList J mk c it v = .ok w) (hv : Valid J v) : clsOf w = some c ∧ Valid J w := by
  unfold mkJsonList at h
  split at h
  · cases h
  · cases h; exact ⟨rfl, .lcoll hc (fun x hx => by cases hx) (fun x hx => by cases hx)⟩
  · rename_i j _ hj
    split at h
    · cases h
    · rename_i xs hxs
      exact mkList_valid H hm hc h (.list (listValues_valid H hm hxs (decode_valid H hj hv)))

theorem mkJsonDict_valid (H : Wellmade J) (hm : MkOK J mk) {it : ItemTy} (hc : (J.S.cls c).coll = some (.dict, it)) {v w : Val}
    (h : mkJsonDict J mk c it v = .ok w) (hv : Valid J v) : clsOf w = some c ∧ Valid J w := by
  unfold mkJsonDict at h
  split at h
  · cases h
  · cases h; exact ⟨rfl, .dcoll hc (fun x hx => by cases hx) (fun x hx => by cases hx)⟩
  · rename_i j _ hj
    split at h
    · cases h
    · rename_i xs hxs
      exact mkDict_valid H hm hc h (.dict (dictValues_valid H hm hxs (decode_valid H hj hv)))

theorem construct_valid (H : Wellmade J) (hm : MkOK J mk) {v w : Val} (h : construct J mk c v = .ok w) (hv : Valid J v) :
    clsOf w = some c ∧ Valid J w := by
  unfold construct at h
  split at h
  · split at h
    · exact mkJson_valid H hm h hv
    · exact mkPlain_valid H hm h hv
  · rename_i hc
    split at h
    · exact mkJsonList_valid H hm hc h hv
    · exact mkList_valid H hm hc h hv
  · rename_i hc
    split at h
    · exact mkJsonDict_valid H hm hc h hv
    · exact mkDict_valid H hm hc h hv

theorem make_valid (H : Wellmade J) : ∀ n, MkOK J (make J n)
  | 0 => fun c v w h _ => by cases h
  | n + 1 => fun c v w h hv => construct_valid H (make_valid H n) h hv

/-! ## C64 -/

/-- C64: `from_json` returns an instance of the class that is valid, with all it contains. -/
theorem C64 (H : Wellmade J) {n : Nat} {v w : Val} (h : fromJson J n c v = .ok w) (hv : Valid J v) :
    clsOf w = some c ∧ Valid J w := fromJsonWith_valid H (make_valid H n) h hv

/-- C64 for the constructor, called with one positional argument. -/
theorem C64_constructor (H : Wellmade J) {n : Nat} {v w : Val} (h : make J n c v = .ok w) (hv : Valid J v) :
    clsOf w = some c ∧ Valid J w := make_valid H n c v w h hv

/-- C64 for the constructor of a record class, called with keyword arguments. -/
theorem C64_keywords (H : Wellmade J) {n : Nat} {kw : List (String × Val)} {w : Val}
    (h : initRecord J (make J n) c kw = .ok w) (hv : ∀ x ∈ kw, Valid J x.2) : clsOf w = some c ∧ Valid J w :=
  initRecord_valid H (make_valid H n) h hv

/-! A schema with a required, checked and coerced number, and a list of such records. -/

def numInt : Val → Option Int
  | .atom (.int i) => some i
  | _ => none

/-- `int("5")` -/
def toInt (v : Val) : Except Exc Val :=
  if v = .str "5" then .ok (.int 5) else if v = .str "-5" then .ok (.int (-5)) else .error .valueCheck

def numCls : String → Ident.ICls
  | "Item" => { props := [⟨"unknown_json_keys", true, [], none⟩, ⟨"price", false, [.other 0], none⟩,
      ⟨"parts", false, [.cls "Items"], none⟩] }
  | "Items" => { coll := some (.list, .one (.cls "Item")) }
  | _ => {}

def numInfo : String → String → JInfo
  | _, "unknown_json_keys" => { json := some { jsonName := some none } }
  | _, "price" => { required := true, check := some (fun v => .ok (decide (0 < (numInt v).getD 0))) }
  | _, _ => {}

def numJ : Setup :=
  { S := exSchema numCls, info := numInfo, isJson := fun _ => true, isa := fun _ v => (numInt v).isSome
    make := fun _ v => toInt v, loads := fun _ => .error .valueCheck }

theorem toInt_ok {v w : Val} (h : toInt v = .ok w) : ∃ i, w = .int i := by
  unfold toInt at h
  split at h
  · cases h; exact ⟨_, rfl⟩
  · split at h <;> cases h
    exact ⟨_, rfl⟩

theorem numInfo_coerce (c nm : String) : (numInfo c nm).coerce = none ∧ (numInfo c nm).default = none ∧
    ∀ o, (numInfo c nm).json = some o → o.jin = none := by
  unfold numInfo
  split <;> refine ⟨rfl, rfl, fun o h => ?_⟩ <;> cases h
  rfl

theorem numWellmade : Wellmade numJ where
  names c := by
    show ((numCls c).props.map (·.name)).Nodup
    unfold numCls
    split <;> decide +kernel
  isa n v w h := by
    obtain ⟨i, rfl⟩ := toInt_ok h
    rfl
  make n v w h _ := by
    obtain ⟨i, rfl⟩ := toInt_ok h
    exact .atom
  coerce c nm f v w h := by
    have h : (numInfo c nm).coerce = some f := h
    rw [(numInfo_coerce c nm).1] at h; cases h
  jin c nm o f v w h h' := by
    have h : (numInfo c nm).json = some o := h
    rw [(numInfo_coerce c nm).2.2 o h] at h'; cases h'
  fromJson n f v w h := by cases h
  loads s v h := by cases h
  default c nm v h := by
    have h : (numInfo c nm).default = some v := h
    rw [(numInfo_coerce c nm).2.1] at h; cases h

def numDoc (p : String) : Val := .dict [(.str "price", .int 7), (.str "parts", .list [.dict [(.str "price", .str p)]])]

-- a part with a good price
example : fromJson numJ 9 "Item" (numDoc "5") = .ok (.rcd "Item" [("price", .int 7),
    ("parts", .lcoll "Items" [.rcd "Item" [("price", .int 5)]])]) := by decide +kernel

-- parts with a price that is not positive, or not a number, or no price
example : fromJson numJ 9 "Item" (numDoc "-5") = .error (.boxed [.str "parts", .int 0] .valueCheck) ∧
    fromJson numJ 9 "Item" (numDoc "x") = .error (.boxed [.str "parts", .int 0] .coerceError) ∧
    fromJson numJ 9 "Item" (.dict []) = .error (.raw .propertyRequired) := by decide +kernel

example : Valid numJ (.rcd "Item" [("price", .int 7), ("parts", .lcoll "Items" [.rcd "Item" [("price", .int 5)]])]) := by
  have : fromJson numJ 9 "Item" (numDoc "5") = .ok (.rcd "Item" [("price", .int 7),
    ("parts", .lcoll "Items" [.rcd "Item" [("price", .int 5)]])]) := by decide +kernel
  refine (C64 numWellmade this ?_).2
  refine .dict (fun x hx => ?_)
  simp only [List.mem_cons, List.not_mem_nil, or_false] at hx
  rcases hx with rfl | rfl
  · exact .atom
  · refine .list (fun x hx => ?_)
    simp only [List.mem_cons, List.not_mem_nil, or_false] at hx
    subst hx
    refine .dict (fun x hx => ?_)
    simp only [List.mem_cons, List.not_mem_nil, or_false] at hx
    subst hx
    exact .atom

-- and this one is not
example : ¬ Valid numJ (.rcd "Item" [("price", .int (-7))]) := by
  intro h
  cases h with
  | rcd h1 h2 h3 =>
    obtain ⟨p, hp, hn, ha⟩ := h1 "price" (.int (-7)) rfl
    simp only [numJ, exSchema, numCls, List.mem_cons, List.not_mem_nil, or_false] at hp
    rcases hp with rfl | rfl | rfl
    · simp at hn
    · have := ha.check _ rfl
      simp [numInt, Val.int] at this
    · simp at hn

end Normalize.Json
