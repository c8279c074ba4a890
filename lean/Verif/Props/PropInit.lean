import Verif.Lemmas.PropInit
import Verif.Props.Traits

/-!
# C87: `make_property_type`
-/

namespace Normalize.PropInit

open Spec Traits

variable {V : Type} {I : Inits V} {r r' : Reg}

/-- The arguments as the choice of the type sees them. -/
def kinds (I : Inits V) (kw : Kws V) : List (String × Kw) := kw.map (fun e => (e.1, I.kind e.2))

/-- C87: a property type made with defaults can be called, and each argument is the one given, or else the default of
the first type that has one. -/
def C87_statement : Prop := ∀ (V : Type) (I : Inits V) (r r' : Reg) (n P pt : Nat) (ds kw : Kws V), Registry r → MadeAs I r → I.made P = some ds →
  KwOnce (kinds I kw) → call n r P (kinds I kw) = (.ok pt, r') → inits I r' (mroT r' pt) kw ≠ .error .refused →
  ∃ log, inits I r' (mroT r' pt) kw = .ok log ∧ ∀ c ∈ mroT r' pt, ∀ a, TakesArg I r' c a → HandsOn I (mroT r' pt) a →
    ∀ v, Received log c a v ↔ ShouldGet I r' (mroT r' pt) kw a v

theorem mro_ne {i : Nat} (hi : Inv r) (h : mroT r i ≠ []) : ∃ T, TypeAt r i T ∧ mroT r i = T.mro := by
  unfold mroT at h ⊢
  unfold TypeAt
  cases ht : r.types[i]? with
  | none => simp [ht] at h
  | some T => exact ⟨T, rfl, rfl⟩

theorem sublist_antisymm {x y : Nat} : ∀ {l : List Nat}, l.Nodup → List.Sublist [x, y] l → List.Sublist [y, x] l → False
  | [], _, h, _ => by cases h
  | z :: l, hn, h1, h2 => by
    simp only [List.nodup_cons] at hn
    cases h1 with
    | cons _ h1 =>
      cases h2 with
      | cons _ h2 => exact sublist_antisymm hn.2 h1 h2
      | cons_cons _ h2 => exact hn.1 (h1.subset (by simp))
    | cons_cons _ h1 =>
      cases h2 with
      | cons _ h2 => exact hn.1 (h2.subset (by simp))
      | cons_cons _ h2 => exact hn.1 (h1.subset (by simp))

/-- `Property` comes last. -/
theorem root_last (hi : Inv r) {i : Nat} {T : PType} (hT : TypeAt r i T) {pre post : List Nat} (h : T.mro = pre ++ 0 :: post) : post = [] := by
  cases post with
  | nil => rfl
  | cons j post =>
    exfalso
    have hn := hi.nodup i T hT
    have hj : j ∈ T.mro := by simp [h]
    have hlt := hi.lt i T hT j hj
    obtain ⟨S, hS⟩ : ∃ S, TypeAt r j S := ⟨r.types[j], List.getElem?_eq_getElem hlt⟩
    have hsub := (hi.up i j T S hT hj hS).2
    obtain ⟨tl, htl⟩ := hi.head j S hS
    have h0 := hi.root j S hS
    rw [h] at hn
    have hj0 : j ≠ 0 := by
      rintro rfl
      simp [List.nodup_append] at hn
    rw [htl] at h0 hsub
    have h0 : 0 ∈ tl := by
      rcases List.mem_cons.1 h0 with h0 | h0
      · exact absurd h0.symm hj0
      · exact h0
    have hs2 : List.Sublist [j, 0] T.mro := (List.Sublist.cons_cons _ (List.singleton_sublist.2 h0)).trans hsub
    have hs3 : List.Sublist [0, j] T.mro := by
      rw [h]
      exact (List.Sublist.cons_cons _ (List.singleton_sublist.2 List.mem_cons_self)).trans (List.sublist_append_right _ _)
    exact sublist_antisymm (h ▸ hn) hs2 hs3

/-- C87: what the first type that takes an argument gets is the value given, or else the first default among the types
that come before it. -/
theorem C87_exact (hr : Registry r) {i : Nat} {T : PType} (hT : TypeAt r i T) {pre post : List Nat} {c : Nat} (hm : T.mro = pre ++ c :: post) {kw : Kws V}
    {log : List (Nat × Kws V)} (h : inits I r T.mro kw = .ok log) {a : String} (ht : TakesArg I r c a) (hn : ∀ d ∈ pre, ¬ TakesArg I r d a)
    (hp : HandsOn I pre a) (v : V) : Received log c a v ↔ ShouldGet I r pre kw a v := by
  have hi := registry_inv hr
  rw [shouldGet_iff]
  rw [hm] at h
  refine inits_recv ht h (hm ▸ hi.nodup i T hT) ?_ hn hp v
  intro h0
  obtain ⟨p1, p2, hpre⟩ := List.append_of_mem h0
  have := root_last hi hT (pre := p1) (post := p2 ++ c :: post) (by rw [hm, hpre]; simp)
  simp at this

/-- C87: what should be in the way, is: arguments that no type takes, and defaults that are added after the types that
take them. -/
theorem C87_raises (hr : Registry r) {i : Nat} {T : PType} (hT : TypeAt r i T) {kw : Kws V} {a : String} (hp : HandsOn I T.mro a)
    (h : ((alookup kw a).isSome ∧ ∀ c ∈ T.mro, ¬ TakesArg I r c a) ∨
      ∃ pre m post v, T.mro = pre ++ m :: post ∧ HasDefault I r m a v ∧ ∀ c ∈ post, ¬ TakesArg I r c a) (log : List (Nat × Kws V)) :
    inits I r T.mro kw ≠ .ok log := by
  intro hl
  have hi := registry_inv hr
  rcases h with ⟨h1, h2⟩ | ⟨pre, m, post, v, h1, h2, h3⟩
  · rw [inits_unknown hl hp h2] at h1
    cases h1
  · rw [h1] at hl
    refine inits_late hl ?_ h2 (fun c hc => hp c (by simp [h1, hc])) h3
    intro h0
    obtain ⟨p1, p2, hpre⟩ := List.append_of_mem h0
    have := root_last hi hT (pre := p1) (post := p2 ++ m :: post) (by rw [h1, hpre]; simp)
    simp at this

/-- C87: otherwise there is no `TypeError`. -/
theorem C87_accepted (hr : Registry r) {i : Nat} {T : PType} (hT : TypeAt r i T) {kw : Kws V}
    (hu : ∀ a, (alookup kw a).isSome → ∃ c ∈ T.mro, TakesArg I r c a)
    (hm : ∀ pre m post, T.mro = pre ++ m :: post → ∀ a v, HasDefault I r m a v → ∃ c ∈ post, TakesArg I r c a)
    (hp : ∀ pre c post, T.mro = pre ++ c :: post → ∀ own rest, I.pass c own rest ≠ .error .typeError ∧
      ∀ out, I.pass c own rest = .ok out → ∀ a, (alookup out a).isSome → (alookup rest a).isSome ∨ ∃ d ∈ post, TakesArg I r d a) :
    inits I r T.mro kw ≠ .error .typeError :=
  inits_noTypeError (fun _ _ h => root_last (registry_inv hr) hT h) hu hm hp

/-- The types that take an argument, and the defaults, are those of before the call. -/
theorem takes_before (hx : CExt r r') {c : Nat} {a : String} (h : TakesArg I r' c a) : TakesArg I r c a := by
  obtain ⟨T, hT, ho, hm, ha⟩ := h
  obtain ⟨l, hl, hc⟩ := hx.types
  unfold TypeAt at hT
  rw [hl] at hT
  by_cases hlt : c < r.types.length
  · rw [List.getElem?_append_left hlt] at hT
    exact ⟨T, hT, ho, hm, ha⟩
  · rw [List.getElem?_append_right (by omega)] at hT
    obtain ⟨_, _, _, _, hoo⟩ := hc T (List.mem_of_getElem? hT)
    rw [hoo] at ho
    cases ho

theorem default_before (hx : CExt r r') {c : Nat} {a : String} {v : V} (h : HasDefault I r' c a v) : HasDefault I r c a v := by
  obtain ⟨T, ds, hT, ho, hm, ha⟩ := h
  obtain ⟨l, hl, hc⟩ := hx.types
  unfold TypeAt at hT
  rw [hl] at hT
  by_cases hlt : c < r.types.length
  · rw [List.getElem?_append_left hlt] at hT
    exact ⟨T, ds, hT, ho, hm, ha⟩
  · rw [List.getElem?_append_right (by omega)] at hT
    obtain ⟨_, _, _, _, hoo⟩ := hc T (List.mem_of_getElem? hT)
    rw [hoo] at ho
    cases ho

/-- C87: it holds for an argument that one type of the property takes, if the types made with a default for it are based on that type. -/
theorem C87_partial {n P pt : Nat} {kw : Kws V} (hr : Registry r) (hk : KwOnce (kinds I kw)) (h : call n r P (kinds I kw) = (.ok pt, r'))
    {log : List (Nat × Kws V)} (hi : inits I r' (mroT r' pt) kw = .ok log) {a : String} {c : Nat} (hc : c ∈ mroT r' pt) (ht : TakesArg I r c a)
    (hone : ∀ d ∈ mroT r' pt, TakesArg I r d a → d = c) (hb : ∀ m v, HasDefault I r m a v → SubtypeOf r m c) (hp : HandsOn I (mroT r' pt) a) (v : V) :
    Received log c a v ↔ ShouldGet I r' (mroT r' pt) kw a v := by
  have hx := (call_keeps n r P (kinds I kw) (registry_inv hr)).2
  rw [h] at hx
  have hx : CExt r r' := hx
  have hr' := registry_call hr hk h
  have inv' := registry_inv hr'
  obtain ⟨T, hT, hTm⟩ := mro_ne inv' (List.ne_nil_of_mem hc)
  rw [hTm] at hi hc hp hone ⊢
  obtain ⟨pre, post, hm⟩ := List.append_of_mem hc
  have hnd := inv'.nodup pt T hT
  have hpre : c ∉ pre := by
    intro hcp
    rw [hm] at hnd
    simp [List.nodup_append] at hnd
    exact hnd.2.2 c hcp |>.1 rfl
  have ht' : TakesArg I r' c a := by
    obtain ⟨S, hS, h1⟩ := ht
    obtain ⟨l, hl, _⟩ := hx.types
    refine ⟨S, ?_, h1⟩
    unfold TypeAt at hS ⊢
    rw [hl, List.getElem?_append_left (List.getElem?_eq_some_iff.1 hS).1]
    exact hS
  rw [C87_exact hr' hT hm hi ht' (fun d hd hdt => hpre (hone d (by simp [hm, hd]) (takes_before hx hdt) ▸ hd)) (fun d hd => hp d (by simp [hm, hd])) v]
  -- no default comes after the type that takes the argument
  have hlate : ∀ m ∈ c :: post, ∀ w, ¬ HasDefault I r' m a w := by
    intro m hmm w hd
    have hmc : m ≠ c := by
      rintro rfl
      obtain ⟨_, _, _, _, h1, _⟩ := hd
      obtain ⟨_, _, _, h2, _⟩ := ht
      rw [h1] at h2; cases h2
    have hd0 := default_before hx hd
    obtain ⟨S, hS, hcS⟩ := hb m w hd0
    obtain ⟨l, hl, _⟩ := hx.types
    have hS' : TypeAt r' m S := by
      unfold TypeAt at hS ⊢
      rw [hl, List.getElem?_append_left (List.getElem?_eq_some_iff.1 hS).1]
      exact hS
    have hmT : m ∈ T.mro := by rw [hm]; exact List.mem_append_right _ hmm
    have hsub := (inv'.up pt m T S hT hmT hS').2
    obtain ⟨tl, htl⟩ := inv'.head m S hS'
    rw [htl] at hcS hsub
    have hctl : c ∈ tl := by
      rcases List.mem_cons.1 hcS with h | h
      · exact absurd h.symm hmc
      · exact h
    have h1 : List.Sublist [m, c] T.mro := (List.Sublist.cons_cons _ (List.singleton_sublist.2 hctl)).trans hsub
    have h2 : List.Sublist [c, m] T.mro := by
      rcases List.mem_cons.1 hmm with h | h
      · exact absurd h hmc
      · rw [hm]
        exact (List.Sublist.cons_cons _ (List.singleton_sublist.2 h)).trans (List.sublist_append_right _ _)
    exact sublist_antisymm hnd h1 h2
  have hnone : firstDef I r' a (c :: post) = none := by
    by_contra hne
    obtain ⟨w, hw⟩ := Option.ne_none_iff_exists'.1 hne
    obtain ⟨p, m, q, h1, h2, _⟩ := firstDef_iff.1 hw
    exact hlate m (by rw [h1]; simp) w h2
  have happ : ∀ (l l' : List Nat), firstDef I r' a (l ++ l') = (firstDef I r' a l).or (firstDef I r' a l') := by
    intro l l'
    induction l with
    | nil => simp [firstDef]
    | cons x l ih => simp [firstDef, ih, Option.or_assoc]
  rw [shouldGet_iff, shouldGet_iff, hm, happ, hnone, Option.or_none]

/-! ## Cases -/

/-- The library with strings for values, and one made type, number 16. -/
def demoLib : Lib String := ⟨fun _ => .other, fun s => s == "", fun s => s == "None", fun _ => false, "ListCollection", "DictCollection", fun s => s == "ListCollection", fun s => s == "DictCollection", fun of coll isa => isa.or (coll.bind (fun c => of.map (fun o => c ++ " of " ++ o)))⟩

def demoInits (defaults : Kws String) : Inits String := ⟨fun _ => .other, fun c => if c = 16 then some defaults else none, stockPass demoLib⟩

/-- The registry after `make_property_type(…, trait_name=trait, **defaults)`. -/
def demoReg (trait : String) (defaults : Kws String) : Reg := (newType stock (madeDecl (fun _ => Kw.other) trait [0] defaults)).2

theorem demo_registry {trait : String} {defaults : Kws String} (h : (defaults.map (·.1)).Nodup) : Registry (demoReg trait defaults) := by
  refine .decl registry_stock ⟨by simp [madeDecl], ?_⟩
  unfold KwOnce madeDecl
  simpa [List.map_map, Function.comp_def] using h

/-- The registry after the made type was called. -/
def demoAfter (trait : String) (defaults kw : Kws String) : Reg := (call 10 (demoReg trait defaults) 16 (kinds (demoInits defaults) kw)).2

/-- What the `__init__` methods receive. -/
def demoLog (trait : String) (defaults kw : Kws String) : Except IErr (List (Nat × Kws String)) :=
  inits (demoInits defaults) (demoAfter trait defaults kw) (mroT (demoAfter trait defaults kw) 17) kw

theorem demo_made {trait : String} {defaults : Kws String} (h : (demoReg trait defaults).types[16]?.map (fun T => (T.own, T.defaults, T.args)) =
    some (["__init__"], defaults.map (fun e => (e.1, Kw.other)), ["self"])) : MadeAs (demoInits defaults) (demoReg trait defaults) := by
  intro c ds hc
  simp only [demoInits] at hc
  split at hc
  · rename_i h16
    subst h16
    cases hc
    obtain ⟨T, hT, he⟩ := Option.map_eq_some_iff.1 h
    simp only [Prod.mk.injEq] at he
    exact ⟨T, hT, by simp [he.1], he.2.1, he.2.2⟩
  · cases hc

/-- C87: a type made with `json_name` cannot be called: `Property.__init__` gets it. -/
theorem C87_violated : ¬ C87_statement := by
  intro h
  obtain ⟨log, hlog, _⟩ := h String (demoInits [("json_name", "x")]) (demoReg "trait1" [("json_name", "x")]) (demoAfter "trait1" [("json_name", "x")] []) 10 16 17
    [("json_name", "x")] [] (demo_registry (by decide)) (demo_made (by decide +kernel)) rfl (by decide) (by decide +kernel) (by decide +kernel)
  have : demoLog "trait1" [("json_name", "x")] [] = .error .typeError := by decide +kernel
  unfold demoLog at this
  rw [this] at hlog
  cases hlog

-- so does `lazy=True`
example : (call 10 (demoReg "trait1" [("lazy", "yes")]) 16 []).1 = .ok 17 ∧ demoLog "trait1" [("lazy", "yes")] [] = .error .typeError := by decide +kernel

-- with a name of the trait that comes before `json` there is no problem: this is why `DateProperty` works
example : (call 10 (demoReg "date" [("isa", "date"), ("json_out", "iso")]) 16 []).1 = .ok 17 ∧
    mroT (demoAfter "date" [("isa", "date"), ("json_out", "iso")] []) 17 = [17, 16, 13, 12, 4, 0] ∧
    demoLog "date" [("isa", "date"), ("json_out", "iso")] [] = .ok [(12, [("json_out", "iso")]), (0, [("isa", "date")])] := by decide +kernel

-- what is given wins
example : demoLog "trait1" [("isa", "str")] [("isa", "int"), ("required", "x")] = .ok [(0, [("isa", "int"), ("required", "x")])] := by decide +kernel

example : demoLog "trait1" [("isa", "str")] [("required", "x")] = .ok [(0, [("required", "x"), ("isa", "str")])] := by decide +kernel

/-- `C87_partial` says so. -/
example (v : String) : Received [(0, [("required", "x"), ("isa", "str")])] 0 "isa" v ↔
    ShouldGet (demoInits [("isa", "str")]) (demoAfter "trait1" [("isa", "str")] [("required", "x")]) (mroT (demoAfter "trait1" [("isa", "str")] [("required", "x")]) 17)
      [("required", "x")] "isa" v := by
  have hmro : mroT (demoAfter "trait1" [("isa", "str")] [("required", "x")]) 17 = [17, 4, 16, 0] := by decide +kernel
  have h0 : (demoReg "trait1" [("isa", "str")]).types[0]? = stock.types[0]? := by decide +kernel
  refine C87_partial (n := 10) (P := 16) (r := demoReg "trait1" [("isa", "str")]) (demo_registry (by decide)) (by decide) (by decide +kernel)
    (show demoLog "trait1" [("isa", "str")] [("required", "x")] = _ by decide +kernel) (by rw [hmro]; simp)
    ⟨(demoReg "trait1" [("isa", "str")]).types[0]'(by decide +kernel), by unfold TypeAt; simp, by decide +kernel, rfl, by decide +kernel⟩ ?_ ?_ ?_ v
  · rw [hmro]
    rintro d hd ⟨T, hT, h1, h2, h3⟩
    unfold TypeAt at hT
    simp only [List.mem_cons, List.not_mem_nil, or_false] at hd
    rcases hd with rfl | rfl | rfl | rfl
    · rw [show (demoReg "trait1" [("isa", "str")]).types[17]? = none by decide +kernel] at hT; cases hT
    · rw [show (demoReg "trait1" [("isa", "str")]).types[4]? = some ((demoReg "trait1" [("isa", "str")]).types[4]'(by decide +kernel)) by simp] at hT
      cases hT
      exact absurd h3 (by decide +kernel)
    · simp [demoInits] at h2
    · rfl
  · rintro m w ⟨T, ds, hT, h1, h2, h3⟩
    simp only [demoInits] at h2
    split at h2
    · rename_i h16
      subst h16
      exact ⟨(demoReg "trait1" [("isa", "str")]).types[16]'(by decide +kernel), by unfold TypeAt; simp, by decide +kernel⟩
    · cases h2
  · rw [hmro]
    intro c hc own rest out ho
    simp only [List.mem_cons, List.not_mem_nil, or_false] at hc
    rcases hc with rfl | rfl | rfl | rfl <;> (simp only [demoInits, stockPass] at ho; cases ho; rfl)

end Normalize.PropInit
