import Verif.Spec.IdentityTells
import Verif.Props.Hashing
import Verif.Props.Identity

/-!
# C114: different records have different identities
-/

namespace Normalize.Props

open Normalize.Ident Normalize.Spec

/-- Without primary keys, and with values of their declared types in all properties, two records of one class with the
same identity (`__pk__`) are equal: for classes and records with `P`. -/
def TellsApart (P : Schema → Val → Prop) : Prop :=
  ∀ (S : Schema), AtomLaws S → HashLaws S → ClassesOk S → NoRecordUnions S → NoPrimaryKeys S →
    ∀ (n : Nat) (c : String) (s t : List (String × Val)) (k l : Key),
    WF S (.rcd c s) → WF S (.rcd c t) → OfDeclared S (.rcd c s) → OfDeclared S (.rcd c t) →
    NoneLeftOut S (.rcd c s) → NoneLeftOut S (.rcd c t) → P S (.rcd c s) → P S (.rcd c t) →
    recordId S n (.rcd c s) = .ok k → recordId S n (.rcd c t) = .ok l → keyEq S k l = .ok true →
    veq S (.rcd c s) (.rcd c t) = .ok true

/-- C114: for all of them. -/
def C114_statement : Prop := TellsApart (fun _ _ => True)

/-- The identity of a property of one class is that of its value as an object of this class, unless that has no
parts. -/
theorem slotKey_cls {S : Schema} {n : Nat} {v w : Val} {p : IProp} {d : String} {x : Key}
    (hr : readAttr S v p.name = some w) (hw : w ≠ Val.none) (ht : p.types = [.cls d])
    (h : slotKey S .none (fun c' s w => rid S .none n (.cls c') s w) (fun k => khash S n k) .none v p = .ok x) :
    ∃ k, rid S .none n (.cls d) .none w = .ok k ∧
      ((k.members = [] ∧ x = .raw w) ∨ (k.members ≠ [] ∧ x = .tup k.members)) := by
  simp only [slotKey, runHook, hr, Option.getD_some, ht, ne_eq, hw, not_false_eq_true, List.cons_ne_nil,
    and_self, if_true, bestKey, subSel] at h
  cases hk : rid S .none n (.cls d) .none w with
  | error e => rw [hk] at h; cases h
  | ok k =>
    refine ⟨k, rfl, ?_⟩
    rw [hk] at h
    simp only [List.isEmpty_nil, Bool.true_or, if_true] at h
    unfold checkedKey at h
    split at h
    · cases hm : k.members with
      | nil => left; rw [hm] at h; simp at h; exact ⟨rfl, h.symm⟩
      | cons y ys => right; rw [hm] at h; simp at h; exact ⟨List.cons_ne_nil _ _, h.symm⟩
    · split at h <;> cases h

/-- `record_id` as an object of a record class is a tuple. -/
theorem rid_cls_tup {S : Schema} {n : Nat} {c : String} {v : Val} {k : Key}
    (h : rid S .none n (.cls c) .none v = .ok k) : k = .tup k.members := by
  have ht : ∀ {r : Except Exc (List Key)}, asTuple r = .ok k → k = .tup k.members := by
    intro r hr
    cases r with
    | error e => cases hr
    | ok ks => cases hr; rfl
  cases n with
  | zero => cases h
  | succ n =>
    simp only [rid] at h
    split at h
    · split at h
      · cases h
      · exact ht h
    · exact ht h

theorem noneLeftOut_sub {S : Schema} {v w : Val} (h : NoneLeftOut S v) (hs : ∀ u, Sub u w → Sub u v) :
    NoneLeftOut S w := fun d s hd => h d s (hs _ hd)

/-- Equal tuples have equal members. -/
theorem forall₂_of_keyEq {S : Schema} {α : Type} {f g : α → Except Exc Key} {xs ys : List α} {ks ls : List Key}
    (f1 : List.Forall₂ (fun x k => f x = .ok k) xs ks) (f2 : List.Forall₂ (fun x k => g x = .ok k) ys ls)
    (h : keyEq S (.tup ks) (.tup ls) = .ok true) : xs.length = ys.length ∧
    ∀ (i : Nat) x y, xs[i]? = some x → ys[i]? = some y → ∃ k l, f x = .ok k ∧ g y = .ok l ∧ keyEq S k l = .ok true := by
  simp only [keyEq] at h
  split at h
  · rename_i hl
    refine ⟨f1.length_eq.trans (hl.trans f2.length_eq.symm), fun i x y hx hy => ?_⟩
    have hi : i < ks.length := f1.length_eq ▸ (List.getElem?_eq_some_iff.1 hx).1
    have hj : i < ls.length := hl ▸ hi
    exact ⟨ks[i], ls[i], forall₂_get f1 hx (List.getElem?_eq_getElem hi),
      forall₂_get f2 hy (List.getElem?_eq_getElem hj),
      keyEqL_get hl h i _ _ (List.getElem?_eq_getElem hi) (List.getElem?_eq_getElem hj)⟩
  · cases h

theorem enum_get {xs : List Val} {i : Nat} {x : Val} (h : xs[i]? = some x) : (enum xs)[i]? = some (Comp.int i, x) := by
  simp [enum, h]

theorem told {S : Schema} (hpk : NoPrimaryKeys S) {ty : Ty} {a : Val} (ha : ExactlyOf S ty a) :
    ∀ (n : Nat) (b : Val) (k l : Key), ExactlyOf S ty b → NoneLeftOut S a → NoneLeftOut S b →
      rid S .none n ty .none a = .ok k → rid S .none n ty .none b = .ok l → keyEq S k l = .ok true →
      veq S a b = .ok true := by
  induction ha with
  | @other m a =>
    intro n b k l hb _ _ h1 h2 hk
    cases hb with
    | @other _ b =>
      cases n with
      | zero => cases h1
      | succ n =>
        simp only [rid] at h1 h2
        split at h1
        · split at h2
          · cases h1; cases h2
            simpa [keyEq] using hk
          · cases h2
        · cases h1
  | @rcd c s hc hone hs ih =>
    intro n b k l hb na nb h1 h2 hk
    generalize hty : Ty.cls c = ty at hb
    cases hb with
    | other => cases hty
    | @lcoll c' _ _ _ hc' => cases hty; rw [hc] at hc'; cases hc'
    | @rcd c' t hc' _ ht =>
      cases hty
      rw [veq_rcd]
      refine ⟨rfl, fun p hp he => ?_⟩
      obtain ⟨w, hw, hwn⟩ := na c s (.self _) p hp he
      obtain ⟨u, hu, hun⟩ := nb c t (.self _) p hp he
      have rw1 : readAttr S (.rcd c s) p.name = some w := by simp [readAttr, hw]
      have ru : readAttr S (.rcd c t) p.name = some u := by simp [readAttr, hu]
      have hid : Identifies S c p := by
        unfold Identifies
        rw [if_pos (hpk c)]
        exact ⟨hp, he⟩
      rw [rw1, ru]
      show veq S w u = .ok true
      by_cases hno : ∀ d, Ty.cls d ∉ p.types
      · have := C29_exact_partial S n c _ _ k l (.inr hc) h1 h2 hk p hid hno
        simpa [rw1, ru] using this
      · simp only [not_forall, not_not] at hno
        obtain ⟨d, hm⟩ := hno
        have hd := hone p hp he d hm
        have hud := ht p hp he d hm u hu
        cases n with
        | zero => cases h1
        | succ n =>
          rw [rid_slots (.inr hc)] at h1 h2
          generalize e1 : mapE (slotKey S .none (fun c' s w => rid S .none n (.cls c') s w) (fun k => khash S n k)
            .none (.rcd c s)) (idProps (S.cls c) .none) = r1 at h1
          generalize e2 : mapE (slotKey S .none (fun c' s w => rid S .none n (.cls c') s w) (fun k => khash S n k)
            .none (.rcd c t)) (idProps (S.cls c) .none) = r2 at h2
          cases r1 with
          | error e => cases h1
          | ok ks =>
            cases r2 with
            | error e => cases h2
            | ok ls =>
              cases h1; cases h2
              have hp' : p ∈ idProps (S.cls c) .none := by
                unfold idProps
                rw [pkCols_none, if_pos (List.isEmpty_iff.mpr (hpk c))]
                simpa [passes, sortedProps] using ⟨hp, he⟩
              obtain ⟨i, hi, hpi⟩ := List.getElem_of_mem hp'
              have hpi' : (idProps (S.cls c) .none)[i]? = some p := by rw [List.getElem?_eq_getElem hi, hpi]
              obtain ⟨-, hall⟩ := forall₂_of_keyEq (Mfs.mapE_eq_forall2 e1) (Mfs.mapE_eq_forall2 e2) hk
              obtain ⟨x, y, hx, hy, hxy⟩ := hall i p p hpi' hpi'
              obtain ⟨k1, hk1, ho1⟩ := slotKey_cls rw1 hwn hd hx
              obtain ⟨k2, hk2, ho2⟩ := slotKey_cls ru hun hd hy
              have sub1 := noneLeftOut_sub (w := w) na (fun v hv => .rcd (Mfs.alookup_mem hw) hv)
              have sub2 := noneLeftOut_sub (w := u) nb (fun v hv => .rcd (Mfs.alookup_mem hu) hv)
              rcases ho1 with ⟨_, rfl⟩ | ⟨_, rfl⟩ <;> rcases ho2 with ⟨_, rfl⟩ | ⟨_, rfl⟩
              · simpa [keyEq] using hxy
              · simp [keyEq] at hxy
              · simp [keyEq] at hxy
              · rw [← rid_cls_tup hk1, ← rid_cls_tup hk2] at hxy
                exact ih p hp he d hm w hw n u k1 k2 hud sub1 sub2 hk1 hk2 hxy
  | @lcoll c kd t xs hc hx ih =>
    intro n b k l hb na nb h1 h2 hk
    generalize hty : Ty.cls c = ty at hb
    cases hb with
    | other => cases hty
    | @rcd c' _ hc' => cases hty; rw [hc] at hc'; cases hc'
    | @lcoll c' kd' t' ys hc' hy =>
      cases hty
      rw [hc] at hc'
      cases hc'
      rw [veq_lcoll]
      refine ⟨rfl, ?_⟩
      cases n with
      | zero => cases h1
      | succ n =>
        have hpe : (pkCols (S.cls c) none).isEmpty = true := by rw [pkCols_none, hpk c]; rfl
        simp only [rid, hc, hpe, collTuples, passes, List.filter_true, subSel, itemTy] at h1 h2
        generalize e1 : mapE (fun x : Comp × Val => rid S none n t none x.2) (enum xs) = r1 at h1
        generalize e2 : mapE (fun x : Comp × Val => rid S none n t none x.2) (enum ys) = r2 at h2
        cases r1 with
        | error e => cases h1
        | ok ks =>
          cases r2 with
          | error e => cases h2
          | ok ls =>
            cases h1; cases h2
            obtain ⟨hlen, hall⟩ := forall₂_of_keyEq (Mfs.mapE_eq_forall2 e1) (Mfs.mapE_eq_forall2 e2) hk
            have hlen' : xs.length = ys.length := by simpa [enum] using hlen
            refine forall₂_of_getElem hlen' (fun i x y hxi hyi => ?_)
            obtain ⟨k1, k2, hk1, hk2, hk12⟩ := hall i _ _ (enum_get hxi) (enum_get hyi)
            have m1 := List.mem_of_getElem? hxi
            have m2 := List.mem_of_getElem? hyi
            exact ih x m1 n y k1 k2 (hy y m2) (noneLeftOut_sub na (fun v hv => .lcoll m1 hv))
              (noneLeftOut_sub nb (fun v hv => .lcoll m2 hv)) hk1 hk2 hk12

/-- **C114 (what holds).** Without primary keys, two objects of the same class, with values in all properties, whose
records and collections are of exactly the classes they are declared to be of, have the same identity only if they
are equal: at any depth.  Missing: dict collections, instances of subclasses and collections with several item types
(see below); properties that may hold one of several types of which one is a record class (C29). -/
theorem C114_partial (S : Schema) (hpk : NoPrimaryKeys S) (n : Nat) (c : String) (a b : Val) (k l : Key)
    (ha : ExactlyOf S (.cls c) a) (hb : ExactlyOf S (.cls c) b) (na : NoneLeftOut S a) (nb : NoneLeftOut S b)
    (h1 : recordId S n a = .ok k) (h2 : recordId S n b = .ok l) (hk : keyEq S k l = .ok true) :
    veq S a b = .ok true := by
  have ht : ∀ {v}, ExactlyOf S (.cls c) v → typeOf v = .cls c := by
    intro v hv
    cases hv with
    | rcd => rfl
    | lcoll => rfl
  unfold recordId at h1 h2
  rw [ht ha] at h1
  rw [ht hb] at h2
  exact told hpk ha n b k l hb na nb h1 h2 hk

/-! ## What the code gets wrong -/

namespace Tells

/-- A room with an owner and tags; a chief, who is an owner with a rank; a box with a map; a club whose members are
owners or towns. -/
def cls (c : String) : ICls :=
  if c = "Room" then
    { props := [{ name := "name" }, { name := "owner", types := [.cls "Owner"] },
        { name := "tags", types := [.cls "Tags"] }, { name := "note", extraneous := true }] }
  else if c = "Owner" then { props := [{ name := "name" }] }
  else if c = "Chief" then { props := [{ name := "name" }, { name := "rank" }] }
  else if c = "Town" then { props := [{ name := "city" }] }
  else if c = "Tags" then { coll := some (.list, .one (.other 1)) }
  else if c = "Box" then { props := [{ name := "map", types := [.cls "Map"] }] }
  else if c = "Map" then { coll := some (.dict, .one (.other 1)) }
  else if c = "Club" then { props := [{ name := "members", types := [.cls "Members"] }] }
  else if c = "Members" then { coll := some (.list, .tup [.cls "Owner", .cls "Town"]) }
  else {}

/-- The classes, with builtin equality of values. -/
def S : Schema := { Demo.S with cls := cls }

theorem atomLaws : AtomLaws S := ⟨Demo.atomLaws.refl, Demo.atomLaws.symm, Demo.atomLaws.trans⟩

theorem hashLaws : HashLaws S :=
  ⟨Demo.hashLaws.hash, Demo.hashLaws.falsy, Demo.hashLaws.str, Demo.hashLaws.str', Demo.hashLaws.none,
    Demo.hashLaws.none'⟩

theorem noKeys : NoPrimaryKeys S := by
  intro c
  show (cls c).pk = []
  unfold cls
  repeat' split
  all_goals rfl

theorem classesOk : ClassesOk S where
  names c := by
    show ((cls c).props.map IProp.name).Nodup
    unfold cls
    repeat' split
    all_goals decide
  pk c := by
    show ∀ p ∈ (cls c).pk, p ∈ (cls c).props
    unfold cls
    repeat' split
    all_goals decide
  unset c := by
    have : ∀ p ∈ (cls c).props, p.unset = none := by
      unfold cls
      repeat' split
      all_goals decide
    intro p hp a ha
    rw [this p hp] at ha
    cases ha
  none := rfl

theorem noUnions : NoRecordUnions S := by
  intro c p hp
  have : p.types = [] ∨ p.types = [.cls "Owner"] ∨ p.types = [.cls "Tags"] ∨ p.types = [.cls "Map"] ∨
      p.types = [.cls "Members"] := by
    have h : ∀ p ∈ (cls c).props, p.types = [] ∨ p.types = [.cls "Owner"] ∨ p.types = [.cls "Tags"] ∨
        p.types = [.cls "Map"] ∨ p.types = [.cls "Members"] := by
      unfold cls
      repeat' split
      all_goals decide
    exact h p hp
  rcases this with h | h | h | h | h
  · left; simp [h]
  all_goals exact .inr ⟨_, h⟩

/-- A box. -/
def box (d : List (Comp × Val)) : Val := .rcd "Box" [("map", .dcoll "Map" d)]

/-- An owner. -/
def owner (nm : String) : Val := .rcd "Owner" [("name", .str nm)]

/-- A chief. -/
def chief (nm : String) (rank : Int) : Val := .rcd "Chief" [("name", .str nm), ("rank", .int rank)]

/-- A town. -/
def town (nm : String) : Val := .rcd "Town" [("city", .str nm)]

/-- A club. -/
def club (ms : List Val) : Val := .rcd "Club" [("members", .lcoll "Members" ms)]

/-- A room. -/
def room (nm : String) (o : Val) (tags : List Val) : Val :=
  .rcd "Room" [("name", .str nm), ("owner", o), ("tags", .lcoll "Tags" tags)]

theorem wf_rcd {c : String} {s : List (String × Val)} (h : Proper S (.rcd c s)) (hs : ∀ x ∈ s, WF S x.2) :
    WF S (.rcd c s) := by
  intro w hw
  cases hw with
  | self => exact h
  | rcd hm hw => exact hs _ hm w hw

theorem wf_lcoll {c : String} {xs : List Val} (hs : ∀ x ∈ xs, WF S x) : WF S (.lcoll c xs) := by
  intro w hw
  cases hw with
  | self => trivial
  | lcoll hm hw => exact hs _ hm w hw

theorem wf_dcoll {c : String} {xs : List (Comp × Val)} (h : (xs.map (·.1)).Nodup) (hs : ∀ x ∈ xs, WF S x.2) :
    WF S (.dcoll c xs) := by
  intro w hw
  cases hw with
  | self => exact h
  | dcoll hm hw => exact hs _ hm w hw

theorem left_atom (a : Atom) : NoneLeftOut S (.atom a) := fun _ _ h => nomatch h

theorem left_rcd {c : String} {s : List (String × Val)}
    (h : ∀ p ∈ (cls c).props, p.extraneous = false → ∃ w, alookup s p.name = some w ∧ w ≠ Val.none)
    (hs : ∀ x ∈ s, NoneLeftOut S x.2) : NoneLeftOut S (.rcd c s) := by
  intro d t hw
  cases hw with
  | self => exact h
  | rcd hm hw => exact hs _ hm d t hw

theorem left_lcoll {c : String} {xs : List Val} (hs : ∀ x ∈ xs, NoneLeftOut S x) : NoneLeftOut S (.lcoll c xs) := by
  intro d t hw
  cases hw with
  | lcoll hm hw => exact hs _ hm d t hw

theorem left_dcoll {c : String} {xs : List (Comp × Val)} (hs : ∀ x ∈ xs, NoneLeftOut S x.2) :
    NoneLeftOut S (.dcoll c xs) := by
  intro d t hw
  cases hw with
  | dcoll hm hw => exact hs _ hm d t hw

theorem nd_atom (a : Atom) : NoDictColls (.atom a) := fun _ _ h => nomatch h

theorem nd_rcd {c : String} {s : List (String × Val)} (hs : ∀ x ∈ s, NoDictColls x.2) : NoDictColls (.rcd c s) := by
  intro d t hw
  cases hw with
  | rcd hm hw => exact hs _ hm d t hw

theorem nd_lcoll {c : String} {xs : List Val} (hs : ∀ x ∈ xs, NoDictColls x) : NoDictColls (.lcoll c xs) := by
  intro d t hw
  cases hw with
  | lcoll hm hw => exact hs _ hm d t hw

theorem box_real (k : String) (i : Int) : WF S (box [(.str k, .int i)]) ∧ OfDeclared S (box [(.str k, .int i)]) ∧
    NoneLeftOut S (box [(.str k, .int i)]) := by
  refine ⟨wf_rcd (by simp [Proper, S, cls]) ?_, .rcd rfl ?_ ?_, left_rcd ?_ ?_⟩
  · simp only [List.forall_mem_singleton]
    exact wf_dcoll (by simp) (by simp only [List.forall_mem_singleton]; exact WF.atom _)
  · simp only [List.forall_mem_singleton]
    exact .dcoll (k := .dict) (it := .one (.other 1)) rfl
      (by simp only [List.forall_mem_singleton]; exact .atom rfl)
      (by simp only [List.forall_mem_singleton]; exact trivial)
  · show ∀ p ∈ [({ name := "map", types := [.cls "Map"] } : IProp)], _
    simp only [List.forall_mem_singleton]
    intro v hv
    cases Option.some.inj hv
    exact .inr (.inr ⟨_, List.mem_singleton.2 rfl, ExtendsClass.refl _⟩)
  · show ∀ p ∈ [({ name := "map", types := [.cls "Map"] } : IProp)], _
    simp only [List.forall_mem_singleton]
    intro _
    exact ⟨_, rfl, by simp [Val.none]⟩
  · simp only [List.forall_mem_singleton]
    exact left_dcoll (by simp only [List.forall_mem_singleton]; exact left_atom _)

/-- What is said of objects in `TellsApart`. -/
structure Good (v : Val) : Prop where
  wf : WF S v
  decl : OfDeclared S v
  left : NoneLeftOut S v
  nd : NoDictColls v

theorem good_atom (a : Atom) (h : (S.atomHash a).isSome = true) : Good (.atom a) :=
  ⟨WF.atom _, .atom h, left_atom _, nd_atom _⟩

theorem good_str (x : String) : Good (.str x) := good_atom _ rfl

theorem good_int (x : Int) : Good (.int x) := good_atom _ rfl

theorem good_owner (nm : String) : Good (owner nm) := by
  refine ⟨wf_rcd (by simp [Proper, S, cls]) ?_, .rcd rfl ?_ ?_, left_rcd ?_ ?_, nd_rcd ?_⟩
  · simp only [List.forall_mem_singleton]; exact (good_str nm).wf
  · simp only [List.forall_mem_singleton]; exact (good_str nm).decl
  · show ∀ p ∈ [({ name := "name" } : IProp)], _
    simp only [List.forall_mem_singleton]
    intro v hv
    cases Option.some.inj hv
    exact .inr (.inl ⟨trivial, rfl⟩)
  · show ∀ p ∈ [({ name := "name" } : IProp)], _
    simp only [List.forall_mem_singleton]
    intro _
    exact ⟨_, rfl, by simp [Val.none, Val.str]⟩
  · simp only [List.forall_mem_singleton]; exact (good_str nm).left
  · simp only [List.forall_mem_singleton]; exact (good_str nm).nd

theorem good_town (nm : String) : Good (town nm) := by
  refine ⟨wf_rcd (by simp [Proper, S, cls]) ?_, .rcd rfl ?_ ?_, left_rcd ?_ ?_, nd_rcd ?_⟩
  · simp only [List.forall_mem_singleton]; exact (good_str nm).wf
  · simp only [List.forall_mem_singleton]; exact (good_str nm).decl
  · show ∀ p ∈ [({ name := "city" } : IProp)], _
    simp only [List.forall_mem_singleton]
    intro v hv
    cases Option.some.inj hv
    exact .inr (.inl ⟨trivial, rfl⟩)
  · show ∀ p ∈ [({ name := "city" } : IProp)], _
    simp only [List.forall_mem_singleton]
    intro _
    exact ⟨_, rfl, by simp [Val.none, Val.str]⟩
  · simp only [List.forall_mem_singleton]; exact (good_str nm).left
  · simp only [List.forall_mem_singleton]; exact (good_str nm).nd

theorem good_chief (nm : String) (r : Int) : Good (chief nm r) := by
  have h2 : ∀ {P : Val → Prop}, P (.str nm) → P (.int r) → ∀ x ∈ [("name", Val.str nm), ("rank", .int r)], P x.2 := by
    intro P h1 h2 x hx
    simp only [List.mem_cons, List.not_mem_nil, or_false] at hx
    rcases hx with rfl | rfl
    · exact h1
    · exact h2
  refine ⟨wf_rcd (by simp [Proper, S, cls]) (h2 (good_str nm).wf (good_int r).wf),
    .rcd rfl (h2 (good_str nm).decl (good_int r).decl) ?_, left_rcd ?_ (h2 (good_str nm).left (good_int r).left),
    nd_rcd (h2 (good_str nm).nd (good_int r).nd)⟩
  · show ∀ p ∈ [({ name := "name" } : IProp), { name := "rank" }], _
    intro p hp v hv
    simp only [List.mem_cons, List.not_mem_nil, or_false] at hp
    rcases hp with rfl | rfl <;> cases Option.some.inj hv <;> exact .inr (.inl ⟨rfl, rfl⟩)
  · show ∀ p ∈ [({ name := "name" } : IProp), { name := "rank" }], _
    intro p hp _
    simp only [List.mem_cons, List.not_mem_nil, or_false] at hp
    rcases hp with rfl | rfl
    · exact ⟨_, rfl, by simp [Val.none, Val.str]⟩
    · exact ⟨_, rfl, by simp [Val.none, Val.int]⟩

theorem good_room {o : Val} (ho : Good o) (hi : IsInstance S (.cls "Owner") o) (nm t : String) :
    Good (room nm o [.str t]) := by
  have hn : o ≠ Val.none := by
    rintro rfl
    exact hi
  have h3 : ∀ {P : Val → Prop}, P (.str nm) → P o → P (.lcoll "Tags" [.str t]) →
      ∀ x ∈ [("name", Val.str nm), ("owner", o), ("tags", .lcoll "Tags" [.str t])], P x.2 := by
    intro P h1 h2 h3 x hx
    simp only [List.mem_cons, List.not_mem_nil, or_false] at hx
    rcases hx with rfl | rfl | rfl
    · exact h1
    · exact h2
    · exact h3
  have ht : Good (.lcoll "Tags" [.str t]) := by
    refine ⟨wf_lcoll ?_, .lcoll (k := .list) (it := .one (.other 1)) rfl ?_ ?_, left_lcoll ?_, nd_lcoll ?_⟩ <;>
      simp only [List.forall_mem_singleton]
    · exact (good_str t).wf
    · exact (good_str t).decl
    · exact trivial
    · exact (good_str t).left
    · exact (good_str t).nd
  refine ⟨wf_rcd (by simp [Proper, S, cls]) (h3 (good_str nm).wf ho.wf ht.wf),
    .rcd rfl (h3 (good_str nm).decl ho.decl ht.decl) ?_, left_rcd ?_ (h3 (good_str nm).left ho.left ht.left),
    nd_rcd (h3 (good_str nm).nd ho.nd ht.nd)⟩
  · show ∀ p ∈ [({ name := "name" } : IProp), { name := "owner", types := [.cls "Owner"] },
        { name := "tags", types := [.cls "Tags"] }, { name := "note", extraneous := true }], _
    intro p hp v hv
    simp only [List.mem_cons, List.not_mem_nil, or_false] at hp
    rcases hp with rfl | rfl | rfl | rfl
    · cases Option.some.inj hv; exact .inr (.inl ⟨rfl, rfl⟩)
    · cases Option.some.inj hv; exact .inr (.inr ⟨_, List.mem_singleton.2 rfl, hi⟩)
    · cases Option.some.inj hv; exact .inr (.inr ⟨_, List.mem_singleton.2 rfl, ExtendsClass.refl _⟩)
    · cases hv
  · show ∀ p ∈ [({ name := "name" } : IProp), { name := "owner", types := [.cls "Owner"] },
        { name := "tags", types := [.cls "Tags"] }, { name := "note", extraneous := true }], _
    intro p hp he
    simp only [List.mem_cons, List.not_mem_nil, or_false] at hp
    rcases hp with rfl | rfl | rfl | rfl
    · exact ⟨_, rfl, by simp [Val.none, Val.str]⟩
    · exact ⟨_, rfl, hn⟩
    · exact ⟨_, rfl, by simp [Val.none]⟩
    · cases he

theorem good_club {o : Val} (ho : Good o) (hi : IsItem S (.tup [.cls "Owner", .cls "Town"]) o) : Good (club [o]) := by
  have hc : Good (.lcoll "Members" [o]) := by
    refine ⟨wf_lcoll ?_, .lcoll (k := .list) (it := .tup [.cls "Owner", .cls "Town"]) rfl ?_ ?_, left_lcoll ?_,
      nd_lcoll ?_⟩ <;> simp only [List.forall_mem_singleton]
    · exact ho.wf
    · exact ho.decl
    · exact hi
    · exact ho.left
    · exact ho.nd
  refine ⟨wf_rcd (by simp [Proper, S, cls]) ?_, .rcd rfl ?_ ?_, left_rcd ?_ ?_, nd_rcd ?_⟩
  · simp only [List.forall_mem_singleton]; exact hc.wf
  · simp only [List.forall_mem_singleton]; exact hc.decl
  · show ∀ p ∈ [({ name := "members", types := [.cls "Members"] } : IProp)], _
    simp only [List.forall_mem_singleton]
    intro v hv
    cases Option.some.inj hv
    exact .inr (.inr ⟨_, List.mem_singleton.2 rfl, ExtendsClass.refl _⟩)
  · show ∀ p ∈ [({ name := "members", types := [.cls "Members"] } : IProp)], _
    simp only [List.forall_mem_singleton]
    intro _
    exact ⟨_, rfl, by simp [Val.none]⟩
  · simp only [List.forall_mem_singleton]; exact hc.left
  · simp only [List.forall_mem_singleton]; exact hc.nd

theorem chief_extends : ExtendsClass S "Chief" "Owner" :=
  ⟨show ∀ p ∈ (cls "Owner").props, p ∈ (cls "Chief").props by decide, rfl⟩

-- what they are identified by
example : recordId S 9 (box [(.str "p", .int 1)]) = .ok (.tup [.tup [.raw (.int 1)]]) := by decide +kernel
example : recordId S 9 (room "den" (chief "Ann" 3) [.str "t"]) =
    .ok (.tup [.raw (.str "den"), .tup [.raw (.str "Ann")], .tup [.raw (.str "t")]]) := by decide +kernel
example : recordId S 9 (club [owner "Rome"]) = .ok (.tup [.tup [.tup [.raw (.str "Rome")]]]) := by decide +kernel

end Tells

/-- C114 fails: the identity of a dict collection is that of its values, without the keys. -/
theorem C114_violated : ¬ C114_statement := by
  intro h
  obtain ⟨w1, d1, l1⟩ := Tells.box_real "p" 1
  obtain ⟨w2, d2, l2⟩ := Tells.box_real "q" 1
  have := h Tells.S Tells.atomLaws Tells.hashLaws Tells.classesOk Tells.noUnions Tells.noKeys 9 "Box" _ _
    (.tup [.tup [.raw (.int 1)]]) (.tup [.tup [.raw (.int 1)]]) w1 w2 d1 d2 l1 l2 trivial trivial
    (by decide +kernel) (by decide +kernel) (by decide +kernel)
  exact absurd this (by decide +kernel)

/-- C114 fails without dict collections: a record of a subclass is identified by the properties of the declared class
only. -/
theorem C114_subclass_violated : ¬ TellsApart (fun _ v => NoDictColls v) := by
  intro h
  have g1 := Tells.good_room (Tells.good_chief "Ann" 3) Tells.chief_extends "den" "t"
  have g2 := Tells.good_room (Tells.good_chief "Ann" 4) Tells.chief_extends "den" "t"
  have := h Tells.S Tells.atomLaws Tells.hashLaws Tells.classesOk Tells.noUnions Tells.noKeys 9 "Room" _ _
    (.tup [.raw (.str "den"), .tup [.raw (.str "Ann")], .tup [.raw (.str "t")]])
    (.tup [.raw (.str "den"), .tup [.raw (.str "Ann")], .tup [.raw (.str "t")]])
    g1.wf g2.wf g1.decl g2.decl g1.left g2.left g1.nd g2.nd (by decide +kernel) (by decide +kernel)
    (by decide +kernel)
  exact absurd this (by decide +kernel)

/-- C114 fails also if no record is of a subclass: the members of a collection with several item types are identified
by their values, whatever their class. -/
theorem C114_items_violated : ¬ TellsApart (fun S v => NoDictColls v ∧ NoSubclassObjs S v) := by
  intro h
  have g1 := Tells.good_club (Tells.good_owner "Rome") ⟨.cls "Owner", by simp, ExtendsClass.refl _⟩
  have g2 := Tells.good_club (Tells.good_town "Rome") ⟨.cls "Town", by simp, ExtendsClass.refl _⟩
  have hall : ∀ d, d = "Club" ∨ d = "Owner" ∨ d = "Town" → ∀ c, (Tells.S.cls c).props ≠ [] →
      ExtendsClass Tells.S d c → c = d := by
    intro d hd c hc hx
    have hx' : ∀ p ∈ (Tells.cls c).props, p ∈ (Tells.cls d).props := hx.1
    have hc' : (Tells.cls c).props ≠ [] := hc
    have key : ∀ c ∈ ["Room", "Owner", "Chief", "Town", "Tags", "Box", "Map", "Club", "Members"],
        ∀ d ∈ ["Club", "Owner", "Town"], (Tells.cls c).props ≠ [] →
        (∀ p ∈ (Tells.cls c).props, p ∈ (Tells.cls d).props) → c = d := by decide +kernel
    by_cases hm : c ∈ ["Room", "Owner", "Chief", "Town", "Tags", "Box", "Map", "Club", "Members"]
    · exact key c hm d (by simpa using hd) hc' hx'
    · exfalso
      simp only [List.mem_cons, List.not_mem_nil, or_false, not_or] at hm
      obtain ⟨h1, h2, h3, h4, h5, h6, h7, h8, h9⟩ := hm
      apply hc'
      simp only [Tells.cls, h1, h2, h3, h4, h5, h6, h7, h8, h9, if_false]
  have hsub : ∀ o dn, (∀ d s, Sub (.rcd d s) o → d = dn) → (dn = "Owner" ∨ dn = "Town") →
      NoSubclassObjs Tells.S (Tells.club [o]) := by
    intro o dn ho hdn d s hs c hc hx
    refine hall d ?_ c hc hx
    unfold Tells.club at hs
    cases hs with
    | self => exact .inl rfl
    | rcd hm hs =>
      simp only [List.mem_singleton, Prod.mk.injEq] at hm
      obtain ⟨_, rfl⟩ := hm
      cases hs with
      | lcoll hm hs =>
        rw [List.mem_singleton] at hm
        subst hm
        rw [ho d s hs]
        exact .inr hdn
  have s1 := hsub (Tells.owner "Rome") "Owner" (by
    intro d s hs
    unfold Tells.owner at hs
    cases hs with
    | self => rfl
    | rcd hm hs =>
      simp only [List.mem_singleton, Prod.mk.injEq] at hm
      obtain ⟨_, rfl⟩ := hm
      cases hs) (.inl rfl)
  have s2 := hsub (Tells.town "Rome") "Town" (by
    intro d s hs
    unfold Tells.town at hs
    cases hs with
    | self => rfl
    | rcd hm hs =>
      simp only [List.mem_singleton, Prod.mk.injEq] at hm
      obtain ⟨_, rfl⟩ := hm
      cases hs) (.inr rfl)
  have := h Tells.S Tells.atomLaws Tells.hashLaws Tells.classesOk Tells.noUnions Tells.noKeys 9 "Club" _ _
    (.tup [.tup [.tup [.raw (.str "Rome")]]]) (.tup [.tup [.tup [.raw (.str "Rome")]]])
    g1.wf g2.wf g1.decl g2.decl g1.left g2.left ⟨g1.nd, s1⟩ ⟨g2.nd, s2⟩ (by decide +kernel) (by decide +kernel)
    (by decide +kernel)
  exact absurd this (by decide +kernel)

/-- The hypotheses are met: rooms with an owner and tags, which are told apart by the name of the owner. -/
example : ExactlyOf Tells.S (.cls "Room") (Tells.room "den" (Tells.owner "Ann") [.str "t"]) ∧
    NoneLeftOut Tells.S (Tells.room "den" (Tells.owner "Ann") [.str "t"]) ∧ NoPrimaryKeys Tells.S ∧
    recordId Tells.S 9 (Tells.room "den" (Tells.owner "Ann") [.str "t"]) =
      .ok (.tup [.raw (.str "den"), .tup [.raw (.str "Ann")], .tup [.raw (.str "t")]]) ∧
    recordId Tells.S 9 (Tells.room "den" (Tells.owner "Bob") [.str "t"]) =
      .ok (.tup [.raw (.str "den"), .tup [.raw (.str "Bob")], .tup [.raw (.str "t")]]) := by
  refine ⟨?_, (Tells.good_room (Tells.good_owner "Ann") (ExtendsClass.refl _) "den" "t").left, Tells.noKeys,
    by decide +kernel, by decide +kernel⟩
  have hroom : ∀ {P : IProp → Prop}, P { name := "name" } → P { name := "owner", types := [.cls "Owner"] } →
      P { name := "tags", types := [.cls "Tags"] } → P { name := "note", extraneous := true } →
      ∀ p ∈ (Tells.S.cls "Room").props, P p := by
    intro P h1 h2 h3 h4
    show ∀ p ∈ [({ name := "name" } : IProp), { name := "owner", types := [.cls "Owner"] },
        { name := "tags", types := [.cls "Tags"] }, { name := "note", extraneous := true }], P p
    intro p hp
    simp only [List.mem_cons, List.not_mem_nil, or_false] at hp
    rcases hp with rfl | rfl | rfl | rfl <;> assumption
  refine .rcd rfl (hroom ?_ ?_ ?_ ?_) (hroom ?_ ?_ ?_ ?_)
  · intro _ d hd; cases hd
  · intro _ d hd; rw [List.mem_singleton] at hd; rw [← hd]
  · intro _ d hd; rw [List.mem_singleton] at hd; rw [← hd]
  · intro h; cases h
  · intro _ d hd; cases hd
  · intro _ d hd w hw
    rw [List.mem_singleton] at hd
    cases hd
    cases Option.some.inj hw
    refine .rcd rfl ?_ ?_ <;>
    · show ∀ p ∈ [({ name := "name" } : IProp)], _
      simp only [List.forall_mem_singleton]
      intro _ d hd
      cases hd
  · intro _ d hd w hw
    rw [List.mem_singleton] at hd
    cases hd
    cases Option.some.inj hw
    refine .lcoll (k := .list) (t := .other 1) rfl ?_
    simp only [List.forall_mem_singleton]
    exact .other
  · intro h; cases h

end Normalize.Props
