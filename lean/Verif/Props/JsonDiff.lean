import Verif.Spec.JsonDiff
import Verif.Spec.JsonOut
import Verif.Model.JsonDiff

/-!
# C91: differences survive JSON
-/

namespace Normalize.Json
open Ident (IProp Schema Ty ItemTy CollKind ICls)
open Diff (DType DInfo)
open Normalize.Spec

variable (S : Schema) (loads : String → Except Exc Val)

theorem dt_isa (t : DType) : isDt (dtVal t) = true := by cases t <;> rfl

theorem dt_back (t : DType) : coerceDiff (.str (dtName t)) = .ok (dtVal t) := by cases t <;> decide +kernel

theorem compVal_ok (c : Comp) : isCompVal (compVal c) = true := by cases c <;> rfl

/-- A selector is built from the list of its components. -/
theorem fs_back (fs : FS) : fsMake (.list (fs.map compVal)) = .ok (fsObj (fs.map compVal)) := by
  cases fs with
  | nil => rfl
  | cons a r =>
    have h : ((a :: r).map compVal).any (fun e => !isCompVal e && !untrue e) = false := by
      rw [List.any_eq_false]
      intro x hx
      obtain ⟨c, _, rfl⟩ := List.mem_map.1 hx
      simp [compVal_ok]
    unfold fsMake fsItems
    simp only [h]
    rfl

theorem init_type (mk : Mk) (v : Val) (t : DType) (s : List (String × Val)) (h : v = dtVal t ∨ v = .str (dtName t)) :
    initProp (diffSetup S loads) mk "JsonDiffInfo" { name := "diff_type", types := [.other 0] } v s
      = .ok (aset s "diff_type" (dtVal t)) := by
  rcases h with rfl | rfl <;> cases t <;> with_unfolding_all rfl

theorem typeSafe_inst {J : Setup} {mk : Mk} {i : JInfo} {t : Ty} {v : Val} (h : instOf J t v = true)
    (hc : i.check = none) : typeSafe J mk i [t] v = .ok (some v) := by
  simp [typeSafe, h, runCheck, hc]

theorem typeSafe_coerced {J : Setup} {mk : Mk} {i : JInfo} {t : Ty} {v w : Val} (h : instOf J t v = false)
    (hv : coerceVal J mk i [t] v = .ok w) (hw : instOf J t w = true) (hc : i.check = none) :
    typeSafe J mk i [t] v = .ok (some w) := by
  simp [typeSafe, h, hv, hw, runCheck, hc]

theorem fs_coerced (mk : Mk) {i : JInfo} (hi : i.coerce = none) (fs : FS) :
    coerceVal (diffSetup S loads) mk i [.other 1] (.list (fs.map compVal)) = .ok (fsObj (fs.map compVal)) := by
  have hc : callTy (diffSetup S loads) mk (.other 1) (.list (fs.map compVal)) = .ok (fsObj (fs.map compVal)) := by
    show lift (fsMake (.list (fs.map compVal))) = _
    rw [fs_back]; rfl
  simp only [coerceVal, hi, hc]

theorem init_fs (mk : Mk) (nm : String) (hn : nm = "base" ∨ nm = "other") (fs : FS) (v : Val) (s : List (String × Val))
    (h : v = fsObj (fs.map compVal) ∨ v = .list (fs.map compVal)) :
    initProp (diffSetup S loads) mk "JsonDiffInfo" { name := nm, types := [.other 1] } v s
      = .ok (aset s nm (fsObj (fs.map compVal))) := by
  have hi : (diffSetup S loads).info "JsonDiffInfo" nm = { required := true } := by
    rcases hn with rfl | rfl <;> with_unfolding_all rfl
  have ht : typeSafe (diffSetup S loads) mk { required := true } [.other 1] v = .ok (some (fsObj (fs.map compVal))) := by
    rcases h with rfl | rfl
    · exact typeSafe_inst (by with_unfolding_all rfl) rfl
    · exact typeSafe_coerced (by with_unfolding_all rfl) (fs_coerced S loads mk rfl fs) (by with_unfolding_all rfl) rfl
  simp only [initProp, hi, ht]

/-- Both ways to give the values of a difference lead to the same object. -/
theorem init_info (mk : Mk) (d : DInfo) (t b o : Val) (ht : t = dtVal d.kind ∨ t = .str (dtName d.kind))
    (hb : b = fsObj (d.base.map compVal) ∨ b = .list (d.base.map compVal))
    (ho : o = fsObj (d.other.map compVal) ∨ o = .list (d.other.map compVal)) :
    initRecord (diffSetup S loads) mk "JsonDiffInfo" [("diff_type", t), ("base", b), ("other", o)] = .ok (infoVal d) := by
  have f1 : findProp (diffSetup S loads) "JsonDiffInfo" "diff_type" = some { name := "diff_type", types := [.other 0] } := by with_unfolding_all rfl
  have f2 : findProp (diffSetup S loads) "JsonDiffInfo" "base" = some { name := "base", types := [.other 1] } := by with_unfolding_all rfl
  have f3 : findProp (diffSetup S loads) "JsonDiffInfo" "other" = some { name := "other", types := [.other 1] } := by with_unfolding_all rfl
  unfold initRecord
  simp only [initArgs, f1, f2, f3, init_type S loads mk t d.kind _ ht, init_fs S loads mk "base" (.inl rfl) d.base b _ hb,
    init_fs S loads mk "other" (.inr rfl) d.other o _ ho]
  with_unfolding_all rfl

theorem step_val {b : List Val} {p : FS} (h : List.Forall₂ JsonStep b p) : b = p.map compVal := by
  induction h with
  | nil => rfl
  | cons hx _ ih => cases hx <;> simp [compVal, ih] <;> rfl

theorem word_name {w : String} {t : DType} (h : KindWord w t) : w = dtName t := by cases h <;> rfl

/-- A property that is no `JsonProperty` and is in the JSON object. -/
theorem kw_step {mk : Mk} {es : List (Comp × Val)} {p : IProp} {w : Kw} {v : Val} {t : Ty}
    (hi : ((diffSetup S loads).info "JsonDiffInfo" p.name).json = none) (ht : p.types = [t]) (hn : ∃ n, t = .other n)
    (ha : alookup es (.str p.name) = some v) (hu : .str p.name ∈ w.unknown) (hw : alookup w.args p.name = none) :
    kwProp (diffSetup S loads) mk "JsonDiffInfo" es p w
      = .ok ⟨w.args ++ [(p.name, v)], w.unknown.erase (.str p.name)⟩ := by
  obtain ⟨n, rfl⟩ := hn
  have hf : (diffSetup S loads).typeFromJson n = none := rfl
  simp [kwProp, jsonName, hi, ha, removeKey, hu, takeArg, hw, convertIn, propIn, ht, valueInit, hf, boxing]

theorem mem_of_alookup {es : List (Comp × Val)} {k : Comp} {v : Val} (h : alookup es k = some v) : k ∈ es.map (·.1) := by
  induction es with
  | nil => cases h
  | cons e es ih =>
    obtain ⟨k', v'⟩ := e
    by_cases hk : k' = k
    · exact hk ▸ List.mem_cons_self
    · refine List.mem_cons_of_mem _ (ih ?_)
      simpa [alookup, hk] using h

/-- The keyword arguments from a JSON object that has the three keys. -/
theorem kw_info (mk : Mk) {es : List (Comp × Val)} {t b o : Val} (nd : (es.map (·.1)).Nodup)
    (hk : ∀ k, k ∈ es.map (·.1) → k = .str "diff_type" ∨ k = .str "base" ∨ k = .str "other")
    (ht : alookup es (.str "diff_type") = some t) (hb : alookup es (.str "base") = some b)
    (ho : alookup es (.str "other") = some o) :
    initKwargs (diffSetup S loads) mk "JsonDiffInfo" (.dict es) [] = .ok [("diff_type", t), ("base", b), ("other", o)] := by
  have ne1 : Comp.str "base" ≠ Comp.str "diff_type" := by decide
  have ne2 : Comp.str "other" ≠ Comp.str "diff_type" := by decide
  have ne3 : Comp.str "other" ≠ Comp.str "base" := by decide
  have m1 := mem_of_alookup ht
  have m2 := mem_of_alookup hb
  have m3 := mem_of_alookup ho
  have s1 := kw_step S loads (mk := mk) (es := es) (p := { name := "diff_type", types := [.other 0] }) (w := ⟨[], es.map (·.1)⟩)
    (by with_unfolding_all rfl) rfl ⟨0, rfl⟩ ht m1 rfl
  have s2 := kw_step S loads (mk := mk) (es := es) (p := { name := "base", types := [.other 1] })
    (w := ⟨[] ++ [("diff_type", t)], (es.map (·.1)).erase (.str "diff_type")⟩)
    (by with_unfolding_all rfl) rfl ⟨1, rfl⟩ hb ((List.mem_erase_of_ne ne1).2 m2) (by with_unfolding_all rfl)
  have s3 := kw_step S loads (mk := mk) (es := es) (p := { name := "other", types := [.other 1] })
    (w := ⟨[] ++ [("diff_type", t)] ++ [("base", b)], ((es.map (·.1)).erase (.str "diff_type")).erase (.str "base")⟩)
    (by with_unfolding_all rfl) rfl ⟨1, rfl⟩ ho ((List.mem_erase_of_ne ne3).2 ((List.mem_erase_of_ne ne2).2 m3)) (by with_unfolding_all rfl)
  have s4 : ∀ w, kwProp (diffSetup S loads) mk "JsonDiffInfo" es { name := unknownKeys, extraneous := true } w = .ok w := by
    intro w; with_unfolding_all rfl
  have hp : ((diffSetup S loads).S.cls "JsonDiffInfo").props = diffProps := by with_unfolding_all rfl
  have un : ((((es.map (·.1)).erase (.str "diff_type")).erase (.str "base")).erase (.str "other")) = [] := by
    rw [List.eq_nil_iff_forall_not_mem]
    intro k hm
    have n1 := nd.erase (.str "diff_type")
    have n2 := n1.erase (.str "base")
    rw [n2.mem_erase_iff, n1.mem_erase_iff, nd.mem_erase_iff] at hm
    rcases hk k hm.2.2.2 with h | h | h
    · exact hm.2.2.1 h
    · exact hm.2.1 h
    · exact hm.1 h
  simp only [initKwargs, structOf, hp, diffProps, kwProps, s1, s2, s3, s4, un]
  rfl

/-- `JsonDiffInfo(json)` for JSON that says a difference. -/
theorem info_back (mk : Mk) {j : Val} {d : DInfo} (h : SaysInfo j d) :
    construct (diffSetup S loads) mk "JsonDiffInfo" j = .ok (infoVal d) := by
  obtain ⟨es, w, b, o, rfl, nd, hk, ht, hw, hb, hbs, ho, hos⟩ := h.form
  have k := kw_info S loads mk nd hk ht hb ho
  have h := init_info S loads mk d (.str w) (.list b) (.list o) (.inr (by rw [word_name hw]))
    (.inr (by rw [step_val hbs])) (.inr (by rw [step_val hos]))
  have e : construct (diffSetup S loads) mk "JsonDiffInfo" (.dict es) =
      (match initKwargs (diffSetup S loads) mk "JsonDiffInfo" (.dict es) [] with
      | .error e => .error e
      | .ok kw => initRecord (diffSetup S loads) mk "JsonDiffInfo" kw) := by with_unfolding_all rfl
  rw [e, k]
  exact h

theorem inst_info (d : DInfo) : instOf (diffSetup S loads) (.cls "JsonDiffInfo") (infoVal d) = true := by with_unfolding_all rfl

theorem not_inst (es : List (Comp × Val)) : instOf (diffSetup S loads) (.cls "JsonDiffInfo") (.dict es) = false := rfl

theorem mapE_all {α β ε : Type} {f : α → Except ε β} {g : α → β} : ∀ {l : List α}, (∀ a ∈ l, f a = .ok (g a)) →
    mapE f l = .ok (l.map g)
  | [], _ => rfl
  | a :: l, h => by
    simp only [mapE, h a List.mem_cons_self, mapE_all fun b hb => h b (List.mem_cons_of_mem _ hb), List.map_cons]

/-- How a member of the array is read. -/
def readMember (mk : Mk) (x : Val) : Except JErr Val :=
  if instOf (diffSetup S loads) (.cls "JsonDiffInfo") x then .ok x else mk "JsonDiffInfo" x

theorem member_eq (mk : Mk) : memberIn (diffSetup S loads) mk (.one (.cls "JsonDiffInfo")) = .ok (some (readMember S loads mk)) := by
  with_unfolding_all rfl

theorem enum_vals (l : List Val) : (Ident.enum l).map (·.2) = l := by
  have hz : ∀ (l : List Val) (n : Nat), ((l.zipIdx n).map (fun x => (Comp.int x.2, x.1))).map (·.2) = l := by
    intro l
    induction l with
    | nil => intro n; rfl
    | cons x l ih => intro n; simp only [List.zipIdx_cons, List.map_cons, ih]
  exact hz l 0

theorem members_back (mk : Mk) (hm : ∀ j d, SaysInfo j d → mk "JsonDiffInfo" j = .ok (infoVal d)) {js : List Val}
    {ds : List DInfo} (hs : List.Forall₂ SaysInfo js ds) :
    listValues (diffSetup S loads) mk (.one (.cls "JsonDiffInfo")) (.list js) = .ok (ds.map infoVal) := by
  have h : ∀ (n : Nat), mapE (memberEntry (readMember S loads mk)) ((List.zipIdx js n).map (fun x => (Comp.int x.2, x.1)))
      = .ok ((List.zipIdx (ds.map infoVal) n).map (fun x => (Comp.int x.2, x.1))) := by
    induction hs with
    | nil => intro n; rfl
    | @cons j d js ds hj _ ih =>
      intro n
      obtain ⟨es, _, _, _, rfl, _⟩ := hj.form
      have hr : readMember S loads mk (.dict es) = .ok (infoVal d) := by
        unfold readMember
        rw [not_inst]
        exact hm _ _ hj
      simp only [List.map_cons, List.zipIdx_cons, mapE, memberEntry, hr, boxing, ih (n + 1)]
  have h0 := h 0
  have hz := enum_vals (ds.map infoVal)
  unfold Ident.enum at hz
  unfold listValues Ident.enum
  simp only [member_eq, h0, hz]

/-- A collection of differences, from differences. -/
theorem coll_back (mk : Mk) (ds : List DInfo) :
    mkList (diffSetup S loads) mk "JsonDiff" (.one (.cls "JsonDiffInfo")) (.list (ds.map infoVal)) = .ok (diffVal ds) := by
  have hc : mapE (coerceItem (diffSetup S loads) mk (.one (.cls "JsonDiffInfo"))) (ds.map infoVal)
      = .ok ((ds.map infoVal).map id) := by
    refine mapE_all fun v hv => ?_
    obtain ⟨d, _, rfl⟩ := List.mem_map.1 hv
    simp [coerceItem, isItem, inst_info]
  simp only [mkList, listItems, hc, List.map_id]
  rfl

theorem steps_val (p : FS) : List.Forall₂ JsonStep (p.map compVal) p := by
  induction p with
  | nil => exact .nil
  | cons c p ih => exact .cons (by cases c <;> constructor) ih

/-- **C91**, the output: it says the differences. -/
theorem C91_says (ds : List DInfo) : SaysDiff (diffJson ds) ds := by
  refine ⟨ds.map infoJson, rfl, ?_⟩
  induction ds with
  | nil => exact .nil
  | cons d ds ih =>
    refine .cons ⟨⟨_, dtName d.kind, d.base.map compVal, d.other.map compVal, rfl, ?_, ?_, ?_, ?_, ?_, steps_val _, ?_, steps_val _⟩⟩ ih
    · simp only [List.map_cons, List.map_nil]; decide
    · intro k hk; simpa using hk
    · with_unfolding_all rfl
    · cases d.kind <;> constructor
    · with_unfolding_all rfl
    · with_unfolding_all rfl

/-- **C91**, the input: JSON that says differences, whoever wrote it and in whatever order of keys, is read as them.  The
number stands for python's recursion limit. -/
theorem C91_reads (n : Nat) (j : Val) (ds : List DInfo) (h : SaysDiff j ds) :
    make (diffSetup S loads) (n + 2) "JsonDiff" j = .ok (diffVal ds) := by
  obtain ⟨js, rfl, hs⟩ := h
  have hv := members_back S loads (make (diffSetup S loads) (n + 1)) (fun j d h => info_back S loads _ h) hs
  have e : decode (diffSetup S loads) (.list js) = .ok (.list js) := rfl
  have c : make (diffSetup S loads) (n + 2) "JsonDiff" (.list js)
      = mkJsonList (diffSetup S loads) (make (diffSetup S loads) (n + 1)) "JsonDiff" (.one (.cls "JsonDiffInfo")) (.list js) := by
    with_unfolding_all rfl
  simp only [c, mkJsonList, e, hv, coll_back]

/-- **C91.** What `json_data()` of a `JsonDiff` gives is read back as the same differences. -/
theorem C91 (n : Nat) (ds : List DInfo) : make (diffSetup S loads) (n + 2) "JsonDiff" (diffJson ds) = .ok (diffVal ds) :=
  C91_reads S loads n _ _ (C91_says ds)

/-- **C91**, for JSON text. -/
theorem C91_text (n : Nat) (ds : List DInfo) (t : String) (h : loads t = .ok (diffJson ds)) :
    make (diffSetup S loads) (n + 2) "JsonDiff" (.str t) = .ok (diffVal ds) := by
  have e : decode (diffSetup S loads) (.str t) = .ok (diffJson ds) := by
    show lift (loads t) = _
    rw [h]; rfl
  have c : ∀ v, make (diffSetup S loads) (n + 2) "JsonDiff" v
      = mkJsonList (diffSetup S loads) (make (diffSetup S loads) (n + 1)) "JsonDiff" (.one (.cls "JsonDiffInfo")) v := by
    intro v; with_unfolding_all rfl
  have e' : decode (diffSetup S loads) (diffJson ds) = .ok (diffJson ds) := rfl
  have h1 := C91 S loads n ds
  rw [c] at h1 ⊢
  unfold mkJsonList at h1 ⊢
  rw [e]
  rw [e'] at h1
  exact h1

/-- **C91**, the differences: `diff` of a `JsonRecord` gives the same ones as that of a `Record`. -/
theorem C91_diff (mk : Mk) (ds : List DInfo) : jsonDiff (diffSetup S loads) mk ds = .ok (diffVal ds) := by
  have h : mapE (rewrap (diffSetup S loads) mk) ds = .ok (ds.map infoVal) :=
    mapE_all fun d _ => init_info S loads mk d _ _ _ (.inl rfl) (.inl rfl) (.inl rfl)
  simp only [jsonDiff, h, coll_back]

/-- Different differences are different objects. -/
theorem C91_distinct (ds es : List DInfo) (h : diffVal ds = diffVal es) : ds = es := by
  have ci : Function.Injective compVal := by
    intro a b hab
    cases a <;> cases b <;> simp_all [compVal, Val.str, Val.int, Val.none]
  have ii : Function.Injective infoVal := by
    rintro ⟨k, b, o⟩ ⟨k', b', o'⟩ hab
    simp only [infoVal, fsObj, dtVal, Val.rcd.injEq, List.cons.injEq, Prod.mk.injEq, true_and, and_true, Val.list.injEq,
      Val.atom.injEq, Atom.opq.injEq] at hab
    obtain ⟨h1, h2, h3⟩ := hab
    have h1' : k = k' := by cases k <;> cases k' <;> simp_all [dtIndex]
    rw [h1', List.map_injective_iff.2 ci h2, List.map_injective_iff.2 ci h3]
  simp only [diffVal, Val.lcoll.injEq, true_and] at h
  exact List.map_injective_iff.2 ii h

/-- A word that is none of the five is refused. -/
theorem word_refused {w : String} (h : ∀ t, ¬ KindWord w t) : ∃ e, coerceDiff (.str w) = .error e := by
  have hn : ∀ t, dtName t ≠ w := by
    intro t ht
    refine h t ?_
    rw [← ht]
    cases t <;> constructor
  have hf : dtypes.find? (fun t => Val.str (dtName t) = Val.str w) = none := by
    rw [List.find?_eq_none]
    intro t _ ht
    simp only [decide_eq_true_eq] at ht
    exact hn t (by simpa [Val.str] using ht)
  have e : coerceDiff (.str w) = fromCanonical (.str w) := rfl
  exact ⟨.keyError, by rw [e]; simp only [fromCanonical, hf]⟩

theorem mapE_fails {α β ε : Type} {f : α → Except ε β} {a : α} (h : ∃ e, f a = .error e) : ∀ {l : List α}, a ∈ l →
    ∃ e, mapE f l = .error e
  | b :: l, hm => by
    unfold mapE
    cases hb : f b with
    | error e => exact ⟨e, rfl⟩
    | ok c =>
      rcases List.mem_cons.1 hm with rfl | hm
      · rw [hb] at h; obtain ⟨e, he⟩ := h; cases he
      · obtain ⟨e, he⟩ := mapE_fails h hm
        exact ⟨e, by rw [he]⟩

theorem kwProp_mem {J : Setup} {mk : Mk} {c : String} {es : List (Comp × Val)} {p : IProp} {w w' : Kw} {x : String × Val}
    (h : kwProp J mk c es p w = .ok w') (hx : x ∈ w.args) : x ∈ w'.args := by
  have ht : ∀ {k j args r}, takeArg J mk c p k j args = .ok r → x ∈ args → x ∈ r := by
    intro k j args r hr hx
    unfold takeArg at hr
    split at hr
    · cases hr; exact hx
    · split at hr
      · cases hr
      · cases hr; exact List.mem_append_left _ hx
  unfold kwProp at h
  split at h
  · cases h; exact hx
  · split at h
    · cases h; exact hx
    · split at h
      · split at h
        · cases h
        · split at h
          · cases h
          · cases h; exact ht ‹_› hx
      · split at h
        · cases h
        · split at h
          · cases h
          · cases h; exact ht ‹_› hx

theorem kwProps_mem {J : Setup} {mk : Mk} {c : String} {es : List (Comp × Val)} {x : String × Val} :
    ∀ {ps : List IProp} {w w' : Kw}, kwProps J mk c es ps w = .ok w' → x ∈ w.args → x ∈ w'.args
  | [], w, w', h, hx => by cases h; exact hx
  | p :: ps, w, w', h, hx => by
    unfold kwProps at h
    split at h
    · cases h
    · exact kwProps_mem h (kwProp_mem ‹_› hx)

theorem mem_aset_other {l : List (String × Val)} {k : String} {v : Val} {x : String × Val} (hk : x.1 ≠ k) (hx : x ∈ l) :
    x ∈ aset l k v := by
  induction l with
  | nil => cases hx
  | cons e l ih =>
    obtain ⟨a, b⟩ := e
    unfold aset
    split
    · next he =>
      rcases List.mem_cons.1 hx with rfl | hx
      · exact absurd (by simpa using he) hk
      · exact List.mem_cons_of_mem _ hx
    · rcases List.mem_cons.1 hx with rfl | hx
      · exact List.mem_cons_self
      · exact List.mem_cons_of_mem _ (ih hx)

theorem initArgs_fails {J : Setup} {mk : Mk} {c k : String} {v : Val} {p : IProp} (hp : findProp J c k = some p)
    (hf : ∀ s, ∃ e, initProp J mk c p v s = .error e) :
    ∀ {kw : List (String × Val)} {s : List (String × Val)}, (k, v) ∈ kw → ∃ e, initArgs J mk c kw s = .error e
  | (k', v') :: kw, s, hm => by
    unfold initArgs
    rcases List.mem_cons.1 hm with heq | hm
    · cases heq
      obtain ⟨e, he⟩ := hf s
      exact ⟨e, by simp only [hp, he]⟩
    · split
      · exact ⟨_, rfl⟩
      · split
        · exact ⟨_, rfl⟩
        · exact initArgs_fails hp hf hm

/-- **C91**, other words: an entry whose kind is none of the five words is refused. -/
theorem C91_refused (n : Nat) (js : List Val) (es : List (Comp × Val)) (w : String) (hm : .dict es ∈ js)
    (hw : alookup es (.str "diff_type") = some (.atom (.str w))) (hk : ∀ t, ¬ KindWord w t) :
    ∃ e, make (diffSetup S loads) (n + 2) "JsonDiff" (.list js) = .error e := by
  -- the entry itself
  have hi : ∀ mk, ∃ e, construct (diffSetup S loads) mk "JsonDiffInfo" (.dict es) = .error e := by
    intro mk
    have e : construct (diffSetup S loads) mk "JsonDiffInfo" (.dict es) =
        (match initKwargs (diffSetup S loads) mk "JsonDiffInfo" (.dict es) [] with
        | .error e => .error e
        | .ok kw => initRecord (diffSetup S loads) mk "JsonDiffInfo" kw) := by with_unfolding_all rfl
    rw [e]
    cases hkw : initKwargs (diffSetup S loads) mk "JsonDiffInfo" (.dict es) [] with
    | error x => exact ⟨x, rfl⟩
    | ok kw =>
      have hx : ("diff_type", Val.atom (.str w)) ∈ kw := by
        have hp : ((diffSetup S loads).S.cls "JsonDiffInfo").props = diffProps := by with_unfolding_all rfl
        have s1 := kw_step S loads (mk := mk) (es := es) (p := { name := "diff_type", types := [.other 0] })
          (w := ⟨[], es.map (·.1)⟩) (by with_unfolding_all rfl) rfl ⟨0, rfl⟩ hw (mem_of_alookup hw) rfl
        simp only [initKwargs, structOf, hp, diffProps] at hkw
        rw [kwProps, s1] at hkw
        split at hkw
        · cases hkw
        · next w' h' =>
          cases hkw
          have hm := kwProps_mem h' (x := ("diff_type", Val.atom (.str w))) (by simp)
          unfold withUnknown
          split
          · exact hm
          · exact mem_aset_other (show "diff_type" ≠ unknownKeys by decide) hm
      have hp : ∀ s, ∃ e, initProp (diffSetup S loads) mk "JsonDiffInfo" { name := "diff_type", types := [.other 0] }
          (.atom (.str w)) s = .error e := by
        intro s
        obtain ⟨x, hx⟩ := word_refused hk
        have hinst : instOf (diffSetup S loads) (.other 0) (.atom (.str w)) = false := rfl
        have hinfo : (diffSetup S loads).info "JsonDiffInfo" "diff_type" = { coerce := some coerceDiff, required := true } := by
          with_unfolding_all rfl
        have hx' : coerceDiff (.atom (.str w)) = .error x := hx
        refine ⟨.raw .coerceError, ?_⟩
        simp [initProp, hinfo, typeSafe, hinst, coerceVal, hx', lift]
      obtain ⟨x, hx⟩ := initArgs_fails (J := diffSetup S loads) (mk := mk) (s := []) (by with_unfolding_all rfl) hp hx
      exact ⟨x, by simp only [initRecord, hx]⟩
  have hr : ∀ k mk, mk = make (diffSetup S loads) (n + 1) → ∃ e, memberEntry (readMember S loads mk) (k, .dict es) = .error e := by
    intro k mk hmk
    obtain ⟨x, hx⟩ := hi (make (diffSetup S loads) n)
    have hx' : mk "JsonDiffInfo" (.dict es) = .error x := by rw [hmk]; exact hx
    exact ⟨box k x, by simp only [memberEntry, readMember, not_inst, Bool.false_eq_true, if_false, hx', boxing]⟩
  obtain ⟨i, hi'⟩ : ∃ k, (k, Val.dict es) ∈ Ident.enum js := by
    rw [← enum_vals js] at hm
    obtain ⟨⟨k, v⟩, hk, rfl⟩ := List.mem_map.1 hm
    exact ⟨k, hk⟩
  obtain ⟨x, hx⟩ := mapE_fails (hr i _ rfl) hi'
  have e : decode (diffSetup S loads) (.list js) = .ok (.list js) := rfl
  have c : make (diffSetup S loads) (n + 2) "JsonDiff" (.list js)
      = mkJsonList (diffSetup S loads) (make (diffSetup S loads) (n + 1)) "JsonDiff" (.one (.cls "JsonDiffInfo")) (.list js) := by
    with_unfolding_all rfl
  exact ⟨x, by simp only [c, mkJsonList, e, listValues, member_eq, hx]⟩

/-! ## Examples -/

/-- A removed item, a changed name behind an index, and a wildcard. -/
def exDiffs : List DInfo :=
  [⟨.removed, [.str "tags", .int 3], [.str "tags"]⟩, ⟨.modified, [.str "people", .int 0, .str "it's"], [.str "people", .int 1, .str "it's"]⟩,
   ⟨.noChange, [.none], []⟩]

/-- `diffJson` says it in the words of JSON. -/
example : diffJson (exDiffs.take 1) =
    .list [.dict [(.str "diff_type", .str "removed"), (.str "base", .list [.str "tags", .int 3]), (.str "other", .list [.str "tags"])]] := by
  decide +kernel

/-- It is read back. -/
example : make (diffSetup S loads) 2 "JsonDiff" (diffJson exDiffs) = .ok (diffVal exDiffs) := C91 S loads 0 exDiffs

/-- The keys may be in any order. -/
example : SaysDiff (.list [.dict [(.str "other", .list []), (.str "diff_type", .atom (.str "moved")), (.str "base", .list [.atom (.int 1)])]])
    [⟨.moved, [.int 1], []⟩] :=
  ⟨_, rfl, .cons ⟨⟨_, "moved", [.atom (.int 1)], [], rfl, by decide, by simp, by with_unfolding_all rfl, .moved,
    by with_unfolding_all rfl, .cons (.index 1) .nil, by with_unfolding_all rfl, .nil⟩⟩ .nil⟩

/-- A word that is none of the five. -/
example : ∀ t, ¬ KindWord "changed" t := by
  intro t h
  have := word_name h
  cases t <;> simp [dtName] at this

end Normalize.Json
