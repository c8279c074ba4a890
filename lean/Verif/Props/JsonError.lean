import Verif.Spec.JsonValid
import Verif.Props.JsonBack

/-!
# C65: what a `JsonConversionError` points at
-/

namespace Normalize.Json
open Ident (IProp Schema Ty ItemTy CollKind)
open Spec (InDoc Blamed)

variable {J : Setup} {mk : Mk} {c : String}

theorem lift_raw {α : Type} {x : Except Exc α} {e : JErr} (h : lift x = .error e) : ∃ x', x = .error x' ∧ e = .raw x' := by
  cases x with
  | ok a => cases h
  | error x' => cases h; exact ⟨x', rfl, rfl⟩

theorem typeSafe_raw {i : JInfo} {types : List Ty} {v : Val} {e : JErr} (h : typeSafe J mk i types v = .error e) :
    ∃ x, e = .raw x := by
  have hc : ∀ {w}, runCheck i w = .error e → ∃ x, e = .raw x := by
    intro w h
    unfold runCheck at h
    repeat' split at h
    all_goals cases h
    all_goals exact ⟨_, rfl⟩
  unfold typeSafe at h
  split at h
  · cases h; exact ⟨_, rfl⟩
  · split at h
    · split at h
      · cases h; exact ⟨_, rfl⟩
      · split at h
        · exact hc h
        · split at h
          · cases h
          · cases h; exact ⟨_, rfl⟩
    · exact hc h

theorem initProp_raw {p : IProp} {v : Val} {s : List (String × Val)} {e : JErr} (h : initProp J mk c p v s = .error e) :
    ∃ x, e = .raw x := by
  unfold initProp at h
  split at h
  · rename_i e' he
    cases h
    exact typeSafe_raw he
  · cases h
  · split at h
    · cases h; exact ⟨_, rfl⟩
    · cases h

theorem initArgs_raw : ∀ (kw s : List (String × Val)) {e : JErr}, initArgs J mk c kw s = .error e → ∃ x, e = .raw x
  | [], s, e, h => by cases h
  | (k, v) :: kw, s, e, h => by
    unfold initArgs at h
    split at h
    · cases h; exact ⟨_, rfl⟩
    · split at h
      · rename_i he; cases h; exact initProp_raw he
      · exact initArgs_raw kw _ h

theorem initMissing_raw : ∀ (ps : List IProp) (s : List (String × Val)) {e : JErr}, initMissing J mk c ps s = .error e →
    ∃ x, e = .raw x
  | [], s, e, h => by cases h
  | p :: ps, s, e, h => by
    unfold initMissing at h
    split at h
    · rename_i he
      cases h
      unfold initDefault at he
      split at he
      · split at he
        · cases he; exact ⟨_, rfl⟩
        · cases he
      · exact initProp_raw he
    · exact initMissing_raw ps _ h

theorem initRecord_raw {kw : List (String × Val)} {e : JErr} (h : initRecord J mk c kw = .error e) : ∃ x, e = .raw x := by
  unfold initRecord at h
  split at h
  · rename_i he; cases h; exact initArgs_raw _ _ he
  · split at h
    · rename_i he; cases h; exact initMissing_raw _ _ he
    · cases h

/-- What is assumed of the constructors of other classes. -/
structure Points (J : Setup) (mk : Mk) : Prop where
  boxed : ∀ c v fs e, mk c v = .error (.boxed fs e) → fs ≠ [] ∧ ∃ u, InDoc J v fs u ∧ Blamed J u e
  raw : ∀ c v e, mk c v = .error (.raw e) → Blamed J v e

/-- The error is about the place `k`, where `j` is. -/
theorem Points.at (P : Points J mk) {d : String} {v : Val} {e : JErr} (h : mk d v = .error e) {k : Comp} {fs : FS} {x : Exc}
    (hb : box k e = .boxed fs x) : ∃ fs' u, fs = k :: fs' ∧ InDoc J v fs' u ∧ Blamed J u x := by
  cases e with
  | raw e => cases hb; exact ⟨[], v, rfl, .here, P.raw d v x h⟩
  | boxed gs e =>
    cases hb
    obtain ⟨_, u, h1, h2⟩ := P.boxed d v gs x h
    exact ⟨gs, u, rfl, h1, h2⟩

theorem convertIn_points (P : Points J mk) {p : IProp} (hp : p ∈ (J.S.cls c).props) {k : String} {js : List (Comp × Val)}
    {j : Val} (hj : (.str k, j) ∈ js) {e : JErr} (h : convertIn J mk c p k j = .error e) :
    ∃ fs x u, e = .boxed (.str k :: fs) x ∧ InDoc J (.dict js) (.str k :: fs) u ∧ Blamed J u x := by
  unfold convertIn boxing at h
  split at h
  · cases h
  · rename_i e' he
    cases h
    cases hpi : propIn (J.info c p.name) j with
    | error x =>
      rw [hpi] at he
      cases he
      unfold propIn at hpi
      cases hjs : (J.info c p.name).json with
      | none => rw [hjs] at hpi; cases hpi
      | some o =>
        rw [hjs] at hpi
        simp only [Option.bind] at hpi
        cases hi : o.jin with
        | none => rw [hi] at hpi; cases hpi
        | some f =>
          rw [hi] at hpi
          obtain ⟨y, hy, rfl⟩ := lift_raw hpi
          exact ⟨[], y, j, rfl, .key hj .here, .converter hjs hi hy⟩
    | ok v =>
      rw [hpi] at he
      simp only at he
      have hin : ∀ fs u, InDoc J v fs u → InDoc J (.dict js) (.str k :: fs) u := by
        intro fs u hd
        unfold propIn at hpi
        cases hjs : (J.info c p.name).json with
        | none => rw [hjs] at hpi; cases hpi; exact .key hj hd
        | some o =>
          rw [hjs] at hpi
          simp only [Option.bind] at hpi
          cases hi : o.jin with
          | none => rw [hi] at hpi; cases hpi; exact .key hj hd
          | some f =>
            rw [hi] at hpi
            simp only [lift] at hpi
            cases hf : f j with
            | error y => rw [hf] at hpi; cases hpi
            | ok v' => rw [hf] at hpi; cases hpi; exact .converted hp hjs hi hj hf hd
      unfold valueInit at he
      split at he
      · split at he
        · cases hb : box (.str k) e' with
          | raw y => cases e' <;> cases hb
          | boxed fs x =>
            obtain ⟨fs', u, rfl, h1, h2⟩ := P.at he hb
            exact ⟨fs', x, u, rfl, hin _ _ h1, h2⟩
        · cases he
      · split at he
        · rename_i f hf
          obtain ⟨y, hy, rfl⟩ := lift_raw he
          exact ⟨[], y, v, rfl, hin _ _ .here, .type hf hy⟩
        · cases he
      · cases he

theorem takeArg_points (P : Points J mk) {p : IProp} (hp : p ∈ (J.S.cls c).props) {k : String} {js : List (Comp × Val)}
    {j : Val} (hj : (.str k, j) ∈ js) {args : List (String × Val)} {fs : FS} {x : Exc}
    (h : takeArg J mk c p k j args = .error (.boxed fs x)) : fs ≠ [] ∧ ∃ u, InDoc J (.dict js) fs u ∧ Blamed J u x := by
  unfold takeArg at h
  split at h
  · cases h
  · split at h
    · rename_i he
      cases h
      obtain ⟨fs', x', u, h1, h2, h3⟩ := convertIn_points P hp hj he
      cases h1
      exact ⟨List.cons_ne_nil _ _, u, h2, h3⟩
    · cases h

theorem removeKey_raw {us : List Comp} {k : Comp} {e : JErr} (h : removeKey us k = .error e) : ∃ x, e = .raw x := by
  unfold removeKey at h
  split at h
  · cases h
  · cases h; exact ⟨_, rfl⟩

theorem kwProps_points (P : Points J mk) {js : List (Comp × Val)} {fs : FS} {x : Exc} : ∀ (ps : List IProp) (w : Kw),
    (∀ p ∈ ps, p ∈ (J.S.cls c).props) → kwProps J mk c js ps w = .error (.boxed fs x) →
    fs ≠ [] ∧ ∃ u, InDoc J (.dict js) fs u ∧ Blamed J u x
  | [], w, _, h => by cases h
  | p :: ps, w, hps, h => by
    unfold kwProps at h
    split at h
    · rename_i he
      cases h
      unfold kwProp at he
      split at he
      · cases he
      · split at he
        · cases he
        · rename_i hl
          have hj := Mfs.alookup_mem hl
          have hp := hps p List.mem_cons_self
          split at he
          · split at he
            · rename_i he'; cases he; exact takeArg_points P hp hj he'
            · split at he
              · rename_i he'
                cases he
                obtain ⟨_, h⟩ := removeKey_raw he'
                cases h
              · cases he
          · split at he
            · rename_i he'
              cases he
              obtain ⟨_, h⟩ := removeKey_raw he'
              cases h
            · split at he
              · rename_i he'; cases he; exact takeArg_points P hp hj he'
              · cases he
    · exact kwProps_points P ps _ (fun q hq => hps q (List.mem_cons_of_mem _ hq)) h

theorem initKwargs_points (P : Points J mk) {j : Val} {kw : List (String × Val)} {fs : FS} {x : Exc}
    (h : initKwargs J mk c j kw = .error (.boxed fs x)) : fs ≠ [] ∧ ∃ u, InDoc J j fs u ∧ Blamed J u x := by
  unfold initKwargs at h
  split at h
  · rename_i he
    cases h
    unfold structOf at he
    split at he <;> cases he
  · rename_i js hjs
    split at h
    · rename_i he
      cases h
      unfold structOf at hjs
      split at hjs
      · cases hjs
        obtain ⟨h1, u, h2, _⟩ := kwProps_points P _ _ (fun _ h => h) he
        cases h2 with
        | here => exact absurd rfl h1
        | key hm _ => cases hm
        | converted _ _ _ hm _ _ => cases hm
      · cases hjs
        exact kwProps_points P _ _ (fun _ h => h) he
      · cases hjs
    · cases h

theorem decode_raw {v : Val} {e : JErr} (h : decode J v = .error e) : ∃ x, e = .raw x := by
  unfold decode at h
  split at h
  · obtain ⟨x, _, rfl⟩ := lift_raw h; exact ⟨x, rfl⟩
  · cases h

theorem decode_in {v j : Val} (h : decode J v = .ok j) {fs : FS} {u : Val} (hd : InDoc J j fs u) : InDoc J v fs u := by
  unfold decode at h
  split at h
  · rename_i s
    cases hl : J.loads s with
    | error e => rw [hl] at h; cases h
    | ok w => rw [hl] at h; cases h; exact .text hl hd
  · cases h; exact hd

theorem mkJson_points (P : Points J mk) {v : Val} {fs : FS} {x : Exc} (h : mkJson J mk c v = .error (.boxed fs x)) :
    fs ≠ [] ∧ ∃ u, InDoc J v fs u ∧ Blamed J u x := by
  unfold mkJson at h
  split at h
  · rename_i he; cases h; obtain ⟨_, h⟩ := decode_raw he; cases h
  · obtain ⟨_, h⟩ := initRecord_raw h; cases h
  · rename_i hj
    split at h
    · rename_i he; cases h; obtain ⟨_, h⟩ := decode_raw he; cases h
    · rename_i hj'
      split at h
      · rename_i he
        cases h
        obtain ⟨h1, u, h2, h3⟩ := initKwargs_points P he
        exact ⟨h1, u, decode_in hj (decode_in hj' h2), h3⟩
      · obtain ⟨_, h⟩ := initRecord_raw h; cases h

theorem namedArgs_raw : ∀ (xs : List (Comp × Val)) {e : JErr}, namedArgs xs = .error e → ∃ x, e = .raw x
  | [], e, h => by cases h
  | (.str k, v) :: xs, e, h => by
    unfold namedArgs at h
    split at h
    · rename_i he; cases h; exact namedArgs_raw xs he
    · cases h
  | (.int i, v) :: xs, e, h => by cases h; exact ⟨_, rfl⟩
  | (.none, v) :: xs, e, h => by cases h; exact ⟨_, rfl⟩

theorem mkPlain_raw {v : Val} {e : JErr} (h : mkPlain J mk c v = .error e) : ∃ x, e = .raw x := by
  unfold mkPlain at h
  split at h
  · exact initRecord_raw h
  · split at h
    · split at h
      · rename_i he; cases h; exact namedArgs_raw _ he
      · exact initRecord_raw h
    · split at h
      · rename_i he; cases h; exact namedArgs_raw _ he
      · exact initRecord_raw h
    · cases h; exact ⟨_, rfl⟩

theorem mapE_error {α β ε : Type} {g : α → Except ε β} {e : ε} : ∀ {xs : List α}, mapE g xs = .error e →
    ∃ x ∈ xs, g x = .error e
  | [], h => by cases h
  | x :: xs, h => by
    unfold mapE at h
    split at h
    · rename_i he; cases h; exact ⟨x, List.mem_cons_self, he⟩
    · split at h
      · rename_i he
        cases h
        obtain ⟨y, hy, h⟩ := mapE_error he
        exact ⟨y, List.mem_cons_of_mem _ hy, h⟩
      · cases h

theorem coerceItem_raw {it : ItemTy} {v : Val} {e : JErr} (h : coerceItem J mk it v = .error e) : ∃ x, e = .raw x := by
  unfold coerceItem at h
  split at h
  · cases h
  · split at h
    · cases h; exact ⟨_, rfl⟩
    · split at h
      · cases h
      · cases h; exact ⟨_, rfl⟩

theorem mkList_raw {it : ItemTy} {v : Val} {e : JErr} (h : mkList J mk c it v = .error e) : ∃ x, e = .raw x := by
  unfold mkList at h
  split at h
  · rename_i he
    cases h
    unfold listItems at he
    split at he
    · cases he; exact ⟨_, rfl⟩
    · split at he
      · cases he
      · cases he; exact ⟨_, rfl⟩
    · cases he
    · cases he
    · cases he
    · split at he
      · cases he
      · cases he; exact ⟨_, rfl⟩
    · cases he; exact ⟨_, rfl⟩
  · split at h
    · rename_i he
      cases h
      obtain ⟨_, _, h⟩ := mapE_error he
      exact coerceItem_raw h
    · cases h

theorem mkDict_raw {it : ItemTy} {v : Val} {e : JErr} (h : mkDict J mk c it v = .error e) : ∃ x, e = .raw x := by
  unfold mkDict at h
  split at h
  · rename_i he
    cases h
    unfold dictItems at he
    split at he <;> cases he
    exact ⟨_, rfl⟩
  · split at h
    · rename_i he
      cases h
      obtain ⟨_, _, h⟩ := mapE_error he
      unfold coerceEntry at h
      split at h
      · rename_i he'; cases h; exact coerceItem_raw he'
      · cases h
    · cases h

theorem fromPlain_points (P : Points J mk) {j : Val} {fs : FS} {x : Exc} (h : fromPlain J mk c j = .error (.boxed fs x)) :
    fs ≠ [] ∧ ∃ u, InDoc J j fs u ∧ Blamed J u x := by
  unfold fromPlain at h
  split at h
  · rename_i he; cases h; exact initKwargs_points P he
  · split at h
    · obtain ⟨_, h⟩ := initRecord_raw h; cases h
    · split at h <;> cases h
    · split at h <;> cases h

theorem fromJsonWith_points (P : Points J mk) {v : Val} {fs : FS} {x : Exc}
    (h : fromJsonWith J mk c v = .error (.boxed fs x)) : fs ≠ [] ∧ ∃ u, InDoc J v fs u ∧ Blamed J u x := by
  unfold fromJsonWith at h
  split at h
  · rename_i he; cases h; obtain ⟨_, h⟩ := decode_raw he; cases h
  · rename_i hj
    have key : ∀ {d : String} {w : Val}, decode J v = .ok w →
        (fs ≠ [] ∧ ∃ u, InDoc J w fs u ∧ Blamed J u x) → fs ≠ [] ∧ ∃ u, InDoc J v fs u ∧ Blamed J u x := by
      rintro d w hw ⟨h1, u, h2, h3⟩
      exact ⟨h1, u, decode_in hw h2, h3⟩
    split at h
    · exact key (d := c) hj (P.boxed _ _ _ _ h)
    · exact key (d := c) hj (fromPlain_points P h)

/-- A member that is not read. -/
theorem memberIn_points {n : Nat} (P : Points J (make J n)) {it : ItemTy} {f : Val → Except JErr Val}
    (h : memberIn J (make J n) it = .ok (some f)) {k : Comp} {v : Val} {e : JErr} (hf : f v = .error e) {fs : FS} {x : Exc}
    (hb : box k e = .boxed fs x) : ∃ fs' u, fs = k :: fs' ∧ InDoc J v fs' u ∧ Blamed J u x := by
  unfold memberIn at h
  split at h
  · cases h
  · rename_i d
    cases h
    simp only at hf
    split at hf
    · cases hf
    · split at hf
      · exact P.at hf hb
      · cases e with
        | raw y => cases hb; exact ⟨[], v, rfl, .here, .fromJson (n := n) hf⟩
        | boxed gs y =>
          cases hb
          obtain ⟨_, u, h1, h2⟩ := fromJsonWith_points P hf
          exact ⟨gs, u, rfl, h1, h2⟩
  · split at h
    · rename_i g hg
      cases h
      simp only at hf
      split at hf
      · cases hf
      · obtain ⟨y, hy, rfl⟩ := lift_raw hf
        cases hb
        exact ⟨[], v, rfl, .here, .type hg hy⟩
    · cases h

theorem memberEntry_error {f : Val → Except JErr Val} {y : Comp × Val} {e : JErr} (h : memberEntry f y = .error e) :
    ∃ e', f y.2 = .error e' ∧ e = box y.1 e' := by
  unfold memberEntry boxing at h
  cases hf : f y.2 with
  | ok w => rw [hf] at h; cases h
  | error e' => rw [hf] at h; cases h; exact ⟨e', rfl, rfl⟩

theorem memberIn_raw {it : ItemTy} {e : JErr} (h : memberIn J mk it = .error e) : ∃ x, e = .raw x := by
  unfold memberIn at h
  split at h
  · cases h; exact ⟨_, rfl⟩
  · cases h
  · split at h <;> cases h

theorem listValues_points {n : Nat} (P : Points J (make J n)) {it : ItemTy} {j : Val} {fs : FS} {x : Exc}
    (h : listValues J (make J n) it j = .error (.boxed fs x)) : fs ≠ [] ∧ ∃ u, InDoc J j fs u ∧ Blamed J u x := by
  unfold listValues at h
  split at h
  · rename_i xs
    split at h
    · rename_i he; cases h; obtain ⟨_, h⟩ := memberIn_raw he; cases h
    · cases h
    · rename_i f hf
      split at h
      · rename_i he
        cases h
        obtain ⟨y, hy, h⟩ := mapE_error he
        obtain ⟨e', h1, h2⟩ := memberEntry_error h
        obtain ⟨fs', u, rfl, h3, h4⟩ := memberIn_points P hf h1 h2.symm
        refine ⟨List.cons_ne_nil _ _, u, ?_, h4⟩
        simp only [Ident.enum, List.mem_map] at hy
        obtain ⟨z, hz, rfl⟩ := hy
        have := List.mem_zipIdx' hz
        exact .index (by rw [List.getElem?_eq_getElem this.1, ← this.2]) h3
      · cases h
  · cases h

theorem dictValues_points {n : Nat} (P : Points J (make J n)) {it : ItemTy} {j : Val} {fs : FS} {x : Exc}
    (h : dictValues J (make J n) it j = .error (.boxed fs x)) : fs ≠ [] ∧ ∃ u, InDoc J j fs u ∧ Blamed J u x := by
  unfold dictValues at h
  split at h
  · rename_i xs
    split at h
    · rename_i he; cases h; obtain ⟨_, h⟩ := memberIn_raw he; cases h
    · cases h
    · rename_i f hf
      obtain ⟨y, hy, h⟩ := mapE_error h
      obtain ⟨e', h1, h2⟩ := memberEntry_error h
      obtain ⟨fs', u, rfl, h3, h4⟩ := memberIn_points P hf h1 h2.symm
      exact ⟨List.cons_ne_nil _ _, u, .key hy h3, h4⟩
  · cases h

theorem construct_points {n : Nat} (P : Points J (make J n)) {v : Val} {fs : FS} {x : Exc}
    (h : construct J (make J n) c v = .error (.boxed fs x)) : fs ≠ [] ∧ ∃ u, InDoc J v fs u ∧ Blamed J u x := by
  unfold construct at h
  split at h
  · split at h
    · exact mkJson_points P h
    · obtain ⟨_, h⟩ := mkPlain_raw h; cases h
  · split at h
    · unfold mkJsonList at h
      split at h
      · rename_i he; cases h; obtain ⟨_, h⟩ := decode_raw he; cases h
      · cases h
      · rename_i hj
        split at h
        · rename_i he
          cases h
          obtain ⟨h1, u, h2, h3⟩ := listValues_points P he
          exact ⟨h1, u, decode_in hj h2, h3⟩
        · obtain ⟨_, h⟩ := mkList_raw h; cases h
    · obtain ⟨_, h⟩ := mkList_raw h; cases h
  · split at h
    · unfold mkJsonDict at h
      split at h
      · rename_i he; cases h; obtain ⟨_, h⟩ := decode_raw he; cases h
      · cases h
      · rename_i hj
        split at h
        · rename_i he
          cases h
          obtain ⟨h1, u, h2, h3⟩ := dictValues_points P he
          exact ⟨h1, u, decode_in hj h2, h3⟩
        · obtain ⟨_, h⟩ := mkDict_raw h; cases h
    · obtain ⟨_, h⟩ := mkDict_raw h; cases h

theorem make_points : ∀ n, Points J (make J n)
  | 0 => ⟨fun c v fs e h => by (cases h), fun c v e h => .construct (n := 0) h⟩
  | n + 1 => ⟨fun c v fs e h => construct_points (make_points n) h, fun c v e h => .construct (n := n + 1) h⟩

/-! ## C65 -/

/-- C65: if `from_json` raises a `JsonConversionError`, its `error_fs` is the path in the document of the value for which
`sub_exception` was raised, and it is not empty. -/
theorem C65 {n : Nat} {v : Val} {fs : FS} {e : Exc} (h : fromJson J n c v = .error (.boxed fs e)) :
    fs ≠ [] ∧ ∃ u, InDoc J v fs u ∧ Blamed J u e := fromJsonWith_points (make_points n) h

/-- C65 for the constructors of JSON classes. -/
theorem C65_constructor {n : Nat} {v : Val} {fs : FS} {e : Exc} (h : make J n c v = .error (.boxed fs e)) :
    fs ≠ [] ∧ ∃ u, InDoc J v fs u ∧ Blamed J u e := (make_points n).boxed _ _ _ _ h

/-- A thread has a list of comments, with a time that is converted. -/
def errCls : String → Ident.ICls
  | "Thread" => { props := [⟨"unknown_json_keys", true, [], none⟩, ⟨"comments", false, [.cls "Comments"], none⟩] }
  | "Comments" => { coll := some (.list, .one (.cls "Comment")) }
  | "Comment" => { props := [⟨"unknown_json_keys", true, [], none⟩, ⟨"text", false, [], none⟩, ⟨"when", false, [], none⟩,
      ⟨"replies", false, [.cls "Comments"], none⟩] }
  | _ => {}

def errInfo : String → String → JInfo
  | _, "unknown_json_keys" => { json := some { jsonName := some none } }
  | "Comment", "when" => { json := some { jsonName := some (some "at"), jin := some timeIn } }
  | "Comment", "text" => { required := true }
  | _, _ => {}

def errJ : Setup :=
  { S := exSchema errCls, info := errInfo, isJson := fun _ => true, isa := fun _ v => isList v
    make := fun _ _ => .error .typeError, loads := fun _ => .error .valueCheck }

def okComment : Val := .dict [(.str "text", .str "yes"), (.str "at", .str "noon")]

/-- The second comment's second reply has a time that cannot be read. -/
def errDoc : Val := .dict [(.str "comments", .list [okComment, .dict [(.str "text", .str "a"),
  (.str "replies", .list [okComment, .dict [(.str "text", .str "b"), (.str "at", .str "soon")]])]])]

example : fromJson errJ 9 "Thread" errDoc = .error (.boxed
    [.str "comments", .int 1, .str "replies", .int 1, .str "at"] .typeError) := by decide +kernel

/-- The second comment has no text. -/
example : fromJson errJ 9 "Thread" (.dict [(.str "comments", .list [okComment, .dict [(.str "at", .str "noon")]])]) =
    .error (.boxed [.str "comments", .int 1] .propertyRequired) := by decide +kernel

end Normalize.Json
