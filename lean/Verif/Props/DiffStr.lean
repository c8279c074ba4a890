import Verif.Spec.DiffStr
import Verif.Model.DiffStr
import Verif.Lemmas.Access
import Verif.Lemmas.AutoJson
import Verif.Props.SelectorPath
import Verif.Props.DiffEx
import Verif.Props.JsonDiff
import Mathlib.Data.List.Induction

/-!
# C92: the text of a diff mentions every difference
-/

namespace Normalize.Diff
open Normalize.Spec

/-! ## The components of a `MultiFieldSelector` -/

/-- All the components of an argument satisfy `P`. -/
def ArgComps (P : Comp → Prop) (a : MArg) : Prop := ∀ q ∈ Mfs.argPaths a, ∀ c ∈ q, P c

theorem entry_comps {P : Comp → Prop} {args : List MArg} (h : ∀ a ∈ args, ArgComps P a) {c : Comp} {t : Mfs.Tail}
    (he : (c, t) ∈ Mfs.entries args) (hne : ∀ s, MArg.mfs s ∉ args) :
    P c ∧ ∀ a, t = .arg a → ArgComps P a ∧ ∃ q, a = .fs q := by
  rcases Mfs.mem_entries.1 he with ⟨q, hq, e⟩ | ⟨s, hs, _⟩
  · have hp := h _ hq
    simp only [ArgComps, Mfs.argPaths, List.mem_singleton, forall_eq] at hp
    match q, e with
    | [], e =>
      simp only [Mfs.fsEntry, Prod.mk.injEq] at e
      exact ⟨e.1 ▸ hp .none (by simp [nonNil]), fun a ha => by rw [e.2] at ha; cases ha⟩
    | [d], e =>
      simp only [Mfs.fsEntry, Prod.mk.injEq] at e
      exact ⟨e.1 ▸ hp d (by simp [nonNil]), fun a ha => by rw [e.2] at ha; cases ha⟩
    | d :: d' :: r, e =>
      simp only [Mfs.fsEntry, Prod.mk.injEq] at e
      refine ⟨e.1 ▸ hp d (by simp [nonNil]), fun a ha => ?_⟩
      rw [e.2] at ha
      cases ha
      refine ⟨?_, _, rfl⟩
      intro q hq c hc
      simp only [Mfs.argPaths, List.mem_singleton] at hq
      subst hq
      exact hp c (by simp only [nonNil] at hc ⊢; exact List.mem_cons_of_mem _ hc)
  · exact absurd hs (hne s)

theorem build_comps {P : Comp → Prop} {ord : List MArg → List MArg} (ho : Mfs.OrdOK ord) : ∀ (n : Nat) (args : List MArg) (h : Heads),
    (∀ a ∈ args, ArgComps P a) → (∀ s, MArg.mfs s ∉ args) → Mfs.buildN ord n args = .ok h →
    ∀ q ∈ Mfs.iter h, ∀ c ∈ q, P c
  | 0, args, h, _, _, hb => by simp [Mfs.buildN] at hb
  | n + 1, args, h, ha, hne, hb => by
    obtain ⟨hk, _, ht⟩ := Mfs.buildN_ok hb
    intro q hq
    obtain ⟨c, t, hm, hq⟩ := Mfs.mem_iter.1 hq
    have hc : c ∈ Mfs.headKeys (Mfs.entries args) := by rw [← hk]; exact List.mem_map.2 ⟨_, hm, rfl⟩
    obtain ⟨t', he⟩ := Mfs.mem_headKeys.1 hc
    have hp := (entry_comps ha he hne).1
    rcases ht c t hm with ⟨_, rfl⟩ | ⟨_, s, rfl, hs⟩
    · rcases Mfs.mem_iterT.1 hq with ⟨_, rfl⟩ | ⟨_, _, e, _⟩
      · simpa using hp
      · cases e
    · rcases Mfs.mem_iterT.1 hq with ⟨e, _⟩ | ⟨s', x, e, hx, rfl⟩
      · cases e
      · cases e
        have hin : ∀ a ∈ ord (Mfs.tailArgs (Mfs.tailsOf (Mfs.entries args) c)), ArgComps P a ∧ ∃ q, a = .fs q := by
          intro a ha'
          rw [ho, Mfs.mem_tailArgs, Mfs.mem_tailsOf] at ha'
          exact (entry_comps ha ha' hne).2 a rfl
        have := build_comps ho n _ s (fun a h => (hin a h).1) (fun s' hs' => by obtain ⟨q, e⟩ := (hin _ hs').2; cases e) hs x hx
        intro d hd
        rcases List.mem_cons.1 hd with rfl | hd
        · exact hp
        · exact this d hd

/-- The selectors a `MultiFieldSelector` yields have no components but those it was built from. -/
theorem iter_comps {P : Comp → Prop} {ord : List MArg → List MArg} (ho : Mfs.OrdOK ord) {qs : List FS} {h : Heads}
    (hb : Mfs.init ord (qs.map MArg.fs) = .ok h) (hq : ∀ q ∈ qs, q ≠ [] ∧ ∀ c ∈ q, P c) :
    ∀ q ∈ Mfs.iter h, ∀ c ∈ q, P c := by
  refine build_comps ho _ _ h ?_ ?_ hb
  · intro a ha
    obtain ⟨q, hm, rfl⟩ := List.mem_map.1 ha
    intro q' hq' c hc
    simp only [Mfs.argPaths, List.mem_singleton] at hq'
    subst hq'
    have : nonNil q = q := by
      cases q with
      | nil => exact absurd rfl (hq _ hm).1
      | cons _ _ => rfl
    rw [this] at hc
    exact (hq _ hm).2 c hc
  · intro s hs
    obtain ⟨q, _, e⟩ := List.mem_map.1 hs
    cases e

/-! ## The groups -/

theorem keys_aset {α : Type} {gs : List (String × α)} {k : String} {v : α} (h : (gs.map (·.1)).Nodup) :
    ((aset gs k v).map (·.1)).Nodup := by
  exact AutoJson.aset_keys h

/-- `q` is in the group `k`. -/
def InGroup (gs : List (String × List FS)) (k : String) (q : FS) : Prop := ∃ qs, alookup gs k = some qs ∧ q ∈ qs

theorem inGroup_addTo {gs : List (String × List FS)} {k : String} {p : FS} (k' : String) (q : FS) :
    InGroup (addTo gs k p) k' q ↔ InGroup gs k' q ∨ (k' = k ∧ q = p) := by
  unfold InGroup addTo
  rw [alookup_aset]
  by_cases hk : k' = k
  · subst hk
    cases hl : alookup gs k' with
    | none => simp
    | some qs => simp
  · have hk' : ¬ k = k' := fun e => hk e.symm
    simp [hk, hk']

/-- What holds of the groups of `ds`. -/
structure GroupsOK (ds : List DInfo) (gs : List (String × List FS)) : Prop where
  nodup : (gs.map (·.1)).Nodup
  full : ∀ k qs, alookup gs k = some qs → qs ≠ []
  exact : ∀ k q, InGroup gs k q ↔ Mentioned ds k q

theorem full_addTo {gs : List (String × List FS)} {k : String} {p : FS} (h : ∀ k qs, alookup gs k = some qs → qs ≠ []) :
    ∀ k' qs, alookup (addTo gs k p) k' = some qs → qs ≠ [] := by
  intro k' qs hq
  unfold addTo at hq
  rw [alookup_aset] at hq
  split at hq
  · cases hq; simp
  · exact h _ _ hq

theorem mentioned_append {ds : List DInfo} {d : DInfo} {k : String} {q : FS} :
    Mentioned (ds ++ [d]) k q ↔ Mentioned ds k q ∨ Mentioned [d] k q := by
  constructor
  · intro h
    cases h with
    | new h => rcases List.mem_append.1 h with h | h <;> [exact .inl (.new h); exact .inr (.new h)]
    | old h => rcases List.mem_append.1 h with h | h <;> [exact .inl (.old h); exact .inr (.old h)]
    | changed h => rcases List.mem_append.1 h with h | h <;> [exact .inl (.changed h); exact .inr (.changed h)]
    | was h n => rcases List.mem_append.1 h with h | h <;> [exact .inl (.was h n); exact .inr (.was h n)]
    | became h n => rcases List.mem_append.1 h with h | h <;> [exact .inl (.became h n); exact .inr (.became h n)]
    | same h => rcases List.mem_append.1 h with h | h <;> [exact .inl (.same h); exact .inr (.same h)]
  · rintro (h | h)
    · cases h with
      | new h => exact .new (List.mem_append_left _ h)
      | old h => exact .old (List.mem_append_left _ h)
      | changed h => exact .changed (List.mem_append_left _ h)
      | was h n => exact .was (List.mem_append_left _ h) n
      | became h n => exact .became (List.mem_append_left _ h) n
      | same h => exact .same (List.mem_append_left _ h)
    · cases h with
      | new h => exact .new (List.mem_append_right _ h)
      | old h => exact .old (List.mem_append_right _ h)
      | changed h => exact .changed (List.mem_append_right _ h)
      | was h n => exact .was (List.mem_append_right _ h) n
      | became h n => exact .became (List.mem_append_right _ h) n
      | same h => exact .same (List.mem_append_right _ h)

/-- Equal texts are equal places. -/
def TextsTell (cc : CharClass) (d : DInfo) : Prop := FS.path cc d.base = FS.path cc d.other → d.base = d.other

theorem mentioned_one {cc : CharClass} {d : DInfo} (hd : TextsTell cc d) (gs : List (String × List FS)) (k : String) (q : FS) :
    InGroup (group cc gs d) k q ↔ InGroup gs k q ∨ Mentioned [d] k q := by
  obtain ⟨t, b, o⟩ := d
  cases t with
  | noChange =>
    simp only [group, inGroup_addTo]
    refine or_congr_right ⟨fun h => by rw [h.1, h.2]; exact .same (o := o) (by simp), fun h => ?_⟩
    cases h <;> simp_all
  | added =>
    simp only [group, inGroup_addTo]
    refine or_congr_right ⟨fun h => by rw [h.1, h.2]; exact .new (b := b) (by simp), fun h => ?_⟩
    cases h <;> simp_all
  | removed =>
    simp only [group, inGroup_addTo]
    refine or_congr_right ⟨fun h => by rw [h.1, h.2]; exact .old (o := o) (by simp), fun h => ?_⟩
    cases h <;> simp_all
  | moved =>
    simp only [group]
    refine ⟨.inl, fun h => h.resolve_right fun h => ?_⟩
    cases h <;> simp_all
  | modified =>
    simp only [group]
    split
    · next he =>
      have hbo : b = o := hd he
      subst hbo
      rw [inGroup_addTo]
      refine or_congr_right ⟨fun h => by rw [h.1, h.2]; exact .changed (by simp), fun h => ?_⟩
      cases h <;> simp_all
    · next he =>
      have hbo : b ≠ o := fun e => he (by rw [e])
      rw [inGroup_addTo, inGroup_addTo, or_assoc]
      refine or_congr_right ⟨?_, fun h => ?_⟩
      · rintro (⟨h1, h2⟩ | ⟨h1, h2⟩)
        · rw [h1, h2]; exact .was (o := o) (by simp) hbo
        · rw [h1, h2]; exact .became (b := b) (by simp) hbo
      · cases h <;> simp_all [and_comm]
        rename_i h
        exact hbo (h.1.symm.trans h.2)

theorem groups_ok {cc : CharClass} {ds : List DInfo} (hd : ∀ d ∈ ds, TextsTell cc d) : GroupsOK ds (groups cc ds) := by
  induction ds using List.reverseRecOn with
  | nil =>
    refine ⟨by simp [groups], by simp [groups, alookup], ?_⟩
    intro k q
    refine ⟨fun h => ?_, fun h => ?_⟩
    · obtain ⟨qs, h, _⟩ := h; simp [groups, alookup] at h
    · cases h <;> simp_all
  | append_singleton ds d ih =>
    have ih := ih fun e he => hd e (List.mem_append_left _ he)
    have e : groups cc (ds ++ [d]) = group cc (groups cc ds) d := by simp [groups]
    rw [e]
    refine ⟨?_, ?_, ?_⟩
    · obtain ⟨t, b, o⟩ := d
      have := ih.nodup
      cases t <;> simp only [group]
      · exact keys_aset this
      · exact keys_aset this
      · exact keys_aset this
      · split
        · exact keys_aset this
        · exact keys_aset (keys_aset this)
      · exact this
    · obtain ⟨t, b, o⟩ := d
      have := ih.full
      cases t <;> simp only [group]
      · exact full_addTo this
      · exact full_addTo this
      · exact full_addTo this
      · split
        · exact full_addTo this
        · exact full_addTo (full_addTo this)
      · exact this
    · intro k q
      rw [mentioned_one (hd d (by simp)), ih.exact, mentioned_append]

/-! ## The text -/

theorem mem_alookup {gs : List (String × List FS)} (nd : (gs.map (·.1)).Nodup) {k : String} {qs : List FS} (h : (k, qs) ∈ gs) :
    alookup gs k = some qs := by
  induction gs with
  | nil => cases h
  | cons e gs ih =>
    obtain ⟨k', qs'⟩ := e
    simp only [List.map_cons, List.nodup_cons] at nd
    rcases List.mem_cons.1 h with h | h
    · cases h; simp [alookup]
    · have : k' ≠ k := fun e => nd.1 (e ▸ List.mem_map.2 ⟨_, h, rfl⟩)
      simp [alookup, this, ih nd.2 h]

/-- The text for the places of a group. -/
def pathOf (cc : CharClass) (ord : List MArg → List MArg) (g : String × List FS) : List Char :=
  match Mfs.init ord (g.2.map MArg.fs) with
  | .error _ => []
  | .ok h => Mfs.path cc h

theorem joinSemi_eq (ws : List (List Char)) : joinSemi ws = List.intercalate "; ".toList ws := by
  induction ws with
  | nil => rfl
  | cons w ws ih =>
    cases ws with
    | nil => simp [joinSemi, List.intercalate]
    | cons v ws =>
      rw [joinSemi, ih]
      · simp [List.intercalate]
      · simp

theorem what_eq (a b : List Char) : whatText a b = if a = b then a else a ++ " vs ".toList ++ b := by
  unfold whatText
  by_cases h : a = b
  · rw [if_neg (fun hn => hn h), if_pos h]
  · rw [if_pos h, if_neg h]

theorem line_text (a b : List Char) (n : Nat) (parts : List (String × List Char)) :
    "<Diff [".toList ++ whatText a b ++ "]; ".toList ++ (toString n).toList ++ " diff(s)".toList ++
      (if (parts.map fun p => p.1.toList ++ '(' :: p.2 ++ [')']).isEmpty then []
        else ": ".toList ++ joinSemi (parts.map fun p => p.1.toList ++ '(' :: p.2 ++ [')'])) ++ ['>'] = diffLine a b n parts := by
  have hr : (fun p : String × List Char => p.1.toList ++ "(".toList ++ p.2 ++ ")".toList)
      = fun p => p.1.toList ++ '(' :: p.2 ++ [')'] := by
    funext p
    rw [show "(".toList = ['('] from rfl, show ")".toList = [')'] from rfl, List.append_assoc _ ['('] p.2]
    rfl
  unfold diffLine
  rw [hr, what_eq, joinSemi_eq]
  cases parts with
  | nil => rfl
  | cons p ps => simp only [List.map_cons, List.isEmpty_cons, Bool.false_eq_true, if_false, reduceCtorEq]; rfl

/-- Without wildcards nothing clashes. -/
theorem no_clash {qs : List FS} (h : ∀ q ∈ qs, q ≠ [] ∧ ∀ c ∈ q, c ≠ .none) : ¬ Clash qs := by
  rintro ⟨w, c, r₁, r₂, h1, _, _, _⟩
  obtain ⟨q, hq, e⟩ := List.mem_map.1 h1
  obtain ⟨hne, hc⟩ := h q hq
  have : nonNil q = q := by
    cases q with
    | nil => exact absurd rfl hne
    | cons _ _ => rfl
  rw [this] at e
  exact hc .none (by rw [e]; simp) rfl

/-- `MultiFieldSelector(*qs)` is built from `qs`. -/
theorem built_of_init {ord : List MArg → List MArg} {qs : List FS} {h : Heads} (hb : Mfs.init ord (qs.map MArg.fs) = .ok h) :
    Normalize.Built ord h qs := by
  refine .mk ?_ hb
  clear hb
  induction qs with
  | nil => exact .nil
  | cons q qs ih => exact .fs ih

/-- **C92.** The text of a diff has the number of the differences, and says for each kind of difference the places, so
that `MultiFieldSelector.from_path` reads it as a selector that covers exactly these.  Missing: differences of the kind
MOVED, which are not mentioned; places that have a wildcard (a key `None`), or components whose text cannot be read
back (C02). -/
theorem C92_partial (cc : CharClass) (hcc : cc.Lawful) (ord ord' : List MArg → List MArg) (ho : Mfs.OrdOK ord)
    (ho' : Mfs.OrdOK ord') (a b : List Char) (ds : List DInfo)
    (hr : ∀ d ∈ ds, (∀ c ∈ d.base, Representable cc c) ∧ ∀ c ∈ d.other, Representable cc c)
    (hp : ∀ k q, Mentioned ds k q → q ≠ [] ∧ ∀ c ∈ q, c ≠ .none) :
    ∃ parts : List (String × List Char), diffStr cc ord a b ds = .ok (diffLine a b ds.length parts) ∧
      (parts.map (·.1)).Nodup ∧ (∀ k, k ∈ parts.map (·.1) ↔ ∃ q, Mentioned ds k q) ∧
      ∀ k t, (k, t) ∈ parts → ∃ h, Mfs.fromPath cc ord' t = .ok h ∧
        ∀ p, Mfs.containsPath h p = true ↔ ∃ q, Mentioned ds k q ∧ Covers q p := by
  have ht : ∀ d ∈ ds, TextsTell cc d := fun d hd he => C02_path_injective cc hcc _ _ (hr d hd).1 (hr d hd).2 he
  have hg := groups_ok ht
  have hrep : ∀ k q, Mentioned ds k q → ∀ c ∈ q, Representable cc c := by
    intro k q h
    cases h with
    | new h => exact (hr _ h).2
    | old h => exact (hr _ h).1
    | changed h => exact (hr _ h).1
    | was h _ => exact (hr _ h).1
    | became h _ => exact (hr _ h).2
    | same h => exact (hr _ h).1
  have hin : ∀ g ∈ groups cc ds, ∀ q, q ∈ g.2 ↔ Mentioned ds g.1 q := by
    rintro ⟨k, qs⟩ hm q
    rw [← hg.exact]
    have := mem_alookup hg.nodup hm
    exact ⟨fun h => ⟨qs, this, h⟩, fun ⟨qs', h1, h2⟩ => by rw [this] at h1; cases h1; exact h2⟩
  have hinit : ∀ g ∈ groups cc ds, ∃ h, Mfs.init ord (g.2.map MArg.fs) = .ok h := by
    intro g hm
    cases hi : Mfs.init ord (g.2.map MArg.fs) with
    | ok h => exact ⟨h, rfl⟩
    | error e => exact absurd ((C16_raises_iff ho g.2 e).1 hi).2 (no_clash fun q hq => hp g.1 q ((hin g hm q).1 hq))
  have hmap : mapE (groupText cc ord) (groups cc ds)
      = .ok ((groups cc ds).map fun g => g.1.toList ++ '(' :: pathOf cc ord g ++ [')']) := by
    refine Json.mapE_all fun g hm => ?_
    obtain ⟨h, hi⟩ := hinit g hm
    simp only [groupText, pathOf, hi]
  refine Exists.intro ((groups cc ds).map fun g => (g.1, pathOf cc ord g)) (And.intro ?_ (And.intro ?_ (And.intro ?_ ?_)))
  · have e : ((groups cc ds).map fun g => g.1.toList ++ '(' :: pathOf cc ord g ++ [')'])
        = ((groups cc ds).map fun g => (g.1, pathOf cc ord g)).map fun p => p.1.toList ++ '(' :: p.2 ++ [')'] := by
      rw [List.map_map]; rfl
    unfold diffStr
    rw [hmap, e]
    exact congrArg Except.ok (line_text a b _ _)
  · simpa [List.map_map, Function.comp_def] using hg.nodup
  · intro k
    simp only [List.map_map, Function.comp_def, List.mem_map]
    constructor
    · rintro ⟨g, hm, rfl⟩
      have := hg.full g.1 g.2 (mem_alookup hg.nodup hm)
      obtain ⟨q, hq⟩ := List.exists_mem_of_ne_nil _ this
      exact ⟨q, (hin g hm q).1 hq⟩
    · rintro ⟨q, hq⟩
      obtain ⟨qs, h1, _⟩ := (hg.exact k q).2 hq
      exact ⟨(k, qs), AutoJson.alookup_mem h1, rfl⟩
  · intro k t hm
    obtain ⟨g, hg', e⟩ := List.mem_map.1 hm
    clear hm
    cases e
    have hm := hg'
    obtain ⟨h, hi⟩ := hinit g hm
    have hb := built_of_init hi
    have hne : g.2 ≠ [] := hg.full g.1 g.2 (mem_alookup hg.nodup hm)
    have hcomps := iter_comps (P := Representable cc) ho hi fun q hq =>
      ⟨(hp g.1 q ((hin g hm q).1 hq)).1, hrep g.1 q ((hin g hm q).1 hq)⟩
    obtain ⟨_, h', hf, hc⟩ := C17_roundtrip_partial cc hcc ho ho' hb hne hcomps
    refine ⟨h', by simpa only [pathOf, hi] using hf, fun p => ?_⟩
    rw [hc p, C13_contains ho hb]
    exact exists_congr fun q => and_congr_left fun _ => hin g hm q

/-! ## What is missing -/

/-- C92 for every diff: there is a text, and some part of it covers the place of each difference. -/
def C92_statement : Prop :=
  ∀ (cc : CharClass), cc.Lawful → ∀ ord : List MArg → List MArg, Mfs.OrdOK ord → ∀ (D : Setup) (o : Opts) (n : Nat) (x y : Val)
    (a b : List Char), (diff D.hooks o n x y).exc = none →
    ∃ parts : List (String × List Char),
      diffStr cc ord a b (diff D.hooks o n x y).out = .ok (diffLine a b (diff D.hooks o n x y).out.length parts) ∧
      ∀ d ∈ (diff D.hooks o n x y).out, ∃ k t h, (k, t) ∈ parts ∧ Mfs.fromPath cc ord t = .ok h ∧
        (Mfs.containsPath h d.base = true ∨ Mfs.containsPath h d.other = true)

theorem colon_mem {a b : List Char} {n : Nat} {parts : List (String × List Char)} (h : parts ≠ []) : ':' ∈ diffLine a b n parts := by
  unfold diffLine
  rw [if_neg h]
  refine List.mem_append_left _ (List.mem_append_right _ (List.mem_append_left _ ?_))
  decide

open Ex in
/-- Two people who changed places. -/
def exMoved : Gen := diff (setup {}).hooks { moved := true } 9 (.lcoll "People" [person 1 "Ann", person 2 "Bob"])
  (.lcoll "People" [person 2 "Bob", person 1 "Ann"])

/-- It is false: items that moved are counted but not mentioned. -/
theorem C92_violated : ¬ C92_statement := by
  intro hs
  have hx : exMoved.exc = none := by decide +kernel
  have ht : diffStr .ascii id "People".toList "People".toList exMoved.out = .ok "<Diff [People]; 2 diff(s)>".toList := by decide +kernel
  obtain ⟨parts, h1, h2⟩ := hs .ascii CharClass.ascii_lawful id ordOK_id (Ex.setup {}) { moved := true } 9
    (.lcoll "People" [Ex.person 1 "Ann", Ex.person 2 "Bob"]) (.lcoll "People" [Ex.person 2 "Bob", Ex.person 1 "Ann"])
    "People".toList "People".toList hx
  have hd : (⟨.moved, [.int 0], [.int 1]⟩ : DInfo) ∈ exMoved.out := by decide +kernel
  obtain ⟨k, t, h, hm, _⟩ := h2 _ hd
  have h1' : diffStr .ascii id "People".toList "People".toList exMoved.out
      = .ok (diffLine "People".toList "People".toList exMoved.out.length parts) := h1
  rw [ht] at h1'
  injection h1' with h1'
  have := colon_mem (a := "People".toList) (b := "People".toList) (n := exMoved.out.length) (List.ne_nil_of_mem hm)
  rw [← h1'] at this
  exact absurd this (by decide +kernel)

/-- Two dicts, one with the key `None`. -/
def exNone : Gen := diff (Ex.setup {}).hooks {} 9 (.dict [(.none, .int 1), (.str "a", .int 2)]) (.dict [])

/-- The text cannot be had at all if a dict has the key `None`, which is taken for a wildcard. -/
theorem C92_raises : exNone.exc = none ∧
    exNone.out = [⟨.removed, [.none], []⟩, ⟨.removed, [.str "a"], []⟩] ∧
    diffStr .ascii id "dict".toList "dict".toList exNone.out = .error .valueError := by
  refine ⟨by decide +kernel, by decide +kernel, by decide +kernel⟩

/-! ## One difference -/

theorem startsWith_ok {a b : FS} (h : b.length < a.length) : FS.startsWith a b = .ok (decide (b <+: a)) := by
  induction b generalizing a with
  | nil => simp [FS.startsWith]
  | cons y b ih =>
    cases a with
    | nil => simp at h
    | cons x a =>
      simp only [List.length_cons, Nat.add_lt_add_iff_right] at h
      rw [FS.startsWith]
      by_cases hxy : y = x
      · simp [hxy, ih h]
      · simp [hxy]

/-- **C92**, for one difference: the text has the name of the kind and the place; the longer one if one place is within
the other, both if neither is. -/
theorem C92_info (cc : CharClass) (hcc : cc.Lawful) (d : DInfo)
    (hb : ∀ c ∈ d.base, Representable cc c) (ho : ∀ c ∈ d.other, Representable cc c) :
    ∃ p, infoStr cc d = .ok ("<DiffInfo: ".toList ++ (displayName d.kind).toList ++ ' ' :: p ++ ['>']) ∧
      (d.base <+: d.other → FS.fromPath cc p = d.other) ∧ (d.other <+: d.base → FS.fromPath cc p = d.base) ∧
      (¬ d.base <+: d.other → ¬ d.other <+: d.base →
        ∃ t u, p = '(' :: t ++ '/' :: u ++ [')'] ∧ FS.fromPath cc t = d.base ∧ FS.fromPath cc u = d.other) := by
  have rb := C02_roundtrip_partial cc hcc d.base hb
  have ro := C02_roundtrip_partial cc hcc d.other ho
  have inj := C02_path_injective cc hcc d.base d.other hb ho
  have key : ∃ p, pathInfo cc d = .ok p ∧
      (d.base <+: d.other → FS.fromPath cc p = d.other) ∧ (d.other <+: d.base → FS.fromPath cc p = d.base) ∧
      (¬ d.base <+: d.other → ¬ d.other <+: d.base →
        ∃ t u, p = '(' :: t ++ '/' :: u ++ [')'] ∧ FS.fromPath cc t = d.base ∧ FS.fromPath cc u = d.other) := by
    unfold pathInfo
    by_cases he : FS.path cc d.base = FS.path cc d.other
    · have e := inj he
      rw [if_neg (by simpa using he)]
      exact ⟨_, rfl, fun _ => ro, fun _ => e ▸ ro, fun h => absurd (e ▸ List.prefix_rfl) h⟩
    · have e : d.base ≠ d.other := fun e => he (by rw [e])
      rw [if_pos he]
      by_cases h1 : d.other.length < d.base.length
      · rw [if_pos h1, startsWith_ok h1]
        have hn : ¬ d.base <+: d.other := fun h => absurd h.length_le (by omega)
        by_cases hp : d.other <+: d.base
        · simp only [hp, decide_true]
          exact ⟨_, rfl, fun h => absurd h hn, fun _ => rb, fun _ h => absurd trivial h⟩
        · simp only [hp, decide_false]
          exact ⟨_, rfl, fun h => absurd h hn, fun h => h.elim, fun _ _ => ⟨_, _, rfl, rb, ro⟩⟩
      · rw [if_neg h1]
        by_cases h2 : d.base.length < d.other.length
        · rw [if_pos h2, startsWith_ok h2]
          have hn : ¬ d.other <+: d.base := fun h => absurd h.length_le (by omega)
          by_cases hp : d.base <+: d.other
          · simp only [hp, decide_true]
            exact ⟨_, rfl, fun _ => ro, fun h => absurd h hn, fun h => absurd trivial h⟩
          · simp only [hp, decide_false]
            exact ⟨_, rfl, fun h => h.elim, fun h => absurd h hn, fun _ _ => ⟨_, _, rfl, rb, ro⟩⟩
        · rw [if_neg h2]
          have hl : d.base.length = d.other.length := by omega
          exact ⟨_, rfl, fun h => absurd (h.eq_of_length hl) e, fun h => absurd (h.eq_of_length hl.symm).symm e,
            fun _ _ => ⟨_, _, rfl, rb, ro⟩⟩
  obtain ⟨p, hp, h⟩ := key
  exact ⟨p, by simp only [infoStr, hp], h⟩

/-! ## Examples -/

/-- The text of the differences of two documents. -/
example : diffStr .ascii id "Doc".toList "Doc".toList [⟨.removed, [.str "people", .int 0], [.str "people"]⟩,
      ⟨.modified, [.str "author", .str "name"], [.str "author", .str "name"]⟩, ⟨.added, [.str "people"], [.str "people", .int 2]⟩,
      ⟨.modified, [.str "words", .int 1], [.str "words", .int 2]⟩, ⟨.removed, [.str "people", .int 5], [.str "people"]⟩]
    = .ok ("<Diff [Doc]; 5 diff(s): -OLD(.people([0]|[5])); <>X(.author.name); +NEW(.people[2]); " ++
        "<->OLD(.words[1]); <+>NEW(.words[2])>").toList := by decide +kernel

/-- The hypotheses of `C92_partial` hold for the differences between the two documents of the examples. -/
example : (∀ d ∈ (diff (Ex.hooks {}) {} 9 Ex.docA Ex.docB).out,
      (∀ c ∈ d.base, FS.fromPath .ascii (FS.path .ascii [c]) = [c] ∧ c ≠ .none) ∧
      (∀ c ∈ d.other, FS.fromPath .ascii (FS.path .ascii [c]) = [c] ∧ c ≠ .none)) ∧
    (diff (Ex.hooks {}) {} 9 Ex.docA Ex.docB).out ≠ [] := by
  refine ⟨by decide +kernel, by decide +kernel⟩

example : infoStr .ascii ⟨.added, [.str "people"], [.str "people", .int 2]⟩ = .ok "<DiffInfo: ADDED .people[2]>".toList ∧
    infoStr .ascii ⟨.modified, [.str "words", .int 1], [.str "words", .int 2]⟩
      = .ok "<DiffInfo: MODIFIED (.words[1]/.words[2])>".toList := by
  refine ⟨by decide +kernel, by decide +kernel⟩

end Normalize.Diff
