import Verif.Spec.VisitorValid
import Verif.Props.VisitorTrip

/-!
# C68: exceptions of `apply` and `reverse`
-/

namespace Normalize.Visit
open Ident (IProp Ty ItemTy CollKind)
open Json (Setup Mk clsOf instOf)
open Spec (Leaf Extends NoUnions)

variable {J : Setup} {o : Opts} {H H' : Hooks} {T : VErr → Prop}

/-- The same result, unless the first is an exception of the kind `T`. -/
def Fails {α : Type} (T : VErr → Prop) (a b : Except VErr α) : Prop := a = b ∨ ∃ e, a = .error e ∧ T e

theorem Fails.rfl {α : Type} {a : Except VErr α} : Fails T a a := .inl (Eq.refl _)

theorem Fails.elim {α β : Type} {a b : Except VErr α} (h : Fails T a b) {f g : Except VErr α → Except VErr β}
    (hf : ∀ e, f (.error e) = .error e) (hg : ∀ e, g (.error e) = .error e) (hok : ∀ w, Fails T (f (.ok w)) (g (.ok w))) :
    Fails T (f a) (g b) := by
  rcases h with rfl | ⟨e, rfl, he⟩
  · cases a with
    | ok w => exact hok w
    | error e => rw [hf, hg]; exact .rfl
  · rw [hf]; exact .inr ⟨e, Eq.refl _, he⟩

/-- The hooks differ in `apply` only. -/
structure Near (T : VErr → Prop) (H H' : Hooks) : Prop where
  unpack : H.unpack = H'.unpack
  apply : ∀ x p path, Fails T (H.apply x p path) (H'.apply x p path)
  collect : H.collect = H'.collect
  reduce : H.reduce = H'.reduce

theorem tryTypes_near (hT : ∀ e, T e → e.isType = false) {go go' : Go} {x : Slot} {path : FS}
    (h : ∀ t, Fails T (go x t path) (go' x t path)) :
    ∀ (ts : List Ty) (m : Val), Fails T (tryTypes J go x path ts m) (tryTypes J go' x path ts m)
  | [], m => .rfl
  | t :: ts, m => by
    unfold tryTypes
    rcases h t with he | ⟨e, he, hTe⟩
    · rw [he]
      split
      · split
        · exact tryTypes_near hT h ts _
        · exact .rfl
      · split
        · exact tryTypes_near hT h ts _
        · exact .rfl
    · rw [he]
      simp only [hT e hTe, Bool.false_eq_true, if_false]
      exact .inr ⟨e, rfl, hTe⟩

theorem mapProp_near (hn : Near T H H') {go go' : Go} {x : Slot} {path : FS} {p : IProp}
    (hU : (∀ e, T e → e.isType = false) ∨ p.types.length ≤ 1)
    (h : ∀ t, Fails T (go x t path) (go' x t path)) : Fails T (mapProp J H go x p path) (mapProp J H' go' x p path) := by
  unfold mapProp
  split
  · split
    · split
      · exact h _
      · exact hn.apply _ _ _
    · exact hn.apply _ _ _
  · exact h _
  · exact hn.apply _ _ _
  · rename_i h1 h2 h3
    have hT : ∀ e, T e → e.isType = false := by
      rcases hU with hT | hl
      · exact hT
      · exfalso
        match hp : p.types, hl with
        | [], _ => exact h1 hp
        | [.cls c], _ => exact h2 c hp
        | [.other i], _ => exact h3 i hp
    unfold mapUnion
    split
    · refine (tryTypes_near hT h _ .none).elim (f := fun r => match r with
        | .error e => .error e
        | .ok m => if Json.falsy J m then H.apply x (some p) path else .ok m) (g := fun r => match r with
        | .error e => .error e
        | .ok m => if Json.falsy J m then H'.apply x (some p) path else .ok m) (fun _ => rfl) (fun _ => rfl) ?_
      intro w
      simp only
      split
      · exact hn.apply _ _ _
      · exact .rfl
    · exact tryTypes_near hT h _ _

theorem mapSlot_near (hn : Near T H H') {go go' : Go} {get : IProp → Except Exc Val} {path : FS} {p : IProp}
    (hU : (∀ e, T e → e.isType = false) ∨ p.types.length ≤ 1) (h : ∀ x t path, Fails T (go x t path) (go' x t path)) :
    Fails T (mapSlot J H o go get path p) (mapSlot J H' o go' get path p) := by
  unfold mapSlot
  split
  · exact .rfl
  · split
    · exact .rfl
    · rename_i s _
      split
      · rcases mapProp_near (J := J) hn hU (h s · (push path (.str p.name))) with he | ⟨e, he, hT⟩
        · rw [he]; exact .rfl
        · rw [he]; exact .inr ⟨e, rfl, hT⟩
      · exact .rfl

theorem mapRecord_near (hn : Near T H H') {go go' : Go} {get : IProp → Except Exc Val}
    (h : ∀ x t path, Fails T (go x t path) (go' x t path)) : ∀ (ps : List IProp) (path : FS),
    ((∀ e, T e → e.isType = false) ∨ ∀ p ∈ ps, p.types.length ≤ 1) →
    Fails T (mapRecord J H o go get ps path) (mapRecord J H' o go' get ps path)
  | [], _, _ => .rfl
  | p :: ps, path, hU => by
    unfold mapRecord
    rcases mapSlot_near (J := J) (o := o) (get := get) (path := path) hn (hU.imp_right (· p List.mem_cons_self)) h with
      he | ⟨e, he, hT⟩
    · rw [he]
      split
      · exact .rfl
      · rename_i r cue' _
        rcases mapRecord_near hn h ps cue' (hU.imp_right (fun hp q hq => hp q (List.mem_cons_of_mem _ hq))) with
          he | ⟨e, he, hT⟩
        · rw [he]; exact .rfl
        · rw [he]; exact .inr ⟨e, rfl, hT⟩
    · rw [he]; exact .inr ⟨e, rfl, hT⟩

theorem mapColl_near {go go' : Go} {t : Ty} (h : ∀ x t path, Fails T (go x t path) (go' x t path)) :
    ∀ (xs : List (Comp × Val)) (path : FS), Fails T (mapColl J o go t xs path) (mapColl J o go' t xs path)
  | [], _ => .rfl
  | (k, v) :: xs, path => by
    unfold mapColl
    split
    · exact .rfl
    · rename_i it _
      rcases h (.val v) it (push path k) with he | ⟨e, he, hT⟩
      · rw [he]
        split
        · exact .rfl
        · split
          · exact .rfl
          · rename_i cue' _
            rcases mapColl_near (t := t) h xs cue' with he | ⟨e, he, hT⟩
            · rw [he]; exact .rfl
            · rw [he]; exact .inr ⟨e, rfl, hT⟩
      · rw [he]; exact .inr ⟨e, rfl, hT⟩

theorem map_near (hn : Near T H H') (hU : (∀ e, T e → e.isType = false) ∨ NoUnions J) :
    ∀ (n : Nat) (x : Slot) (t : Ty) (path : FS), Fails T (map J H o n x t path) (map J H' o n x t path)
  | 0, _, _, _ => .rfl
  | n + 1, x, t, path => by
    have ih := map_near hn hU n
    unfold map
    rw [hn.unpack]
    split
    · exact .rfl
    · exact .rfl
    · rename_i props coll _
      have hc : Fails T (collected J H o (map J H o n) coll t path) (collected J H' o (map J H' o n) coll t path) := by
        unfold collected
        split
        · exact .rfl
        · rename_i xs _
          rcases mapColl_near (J := J) (o := o) (t := t) ih xs path with he | ⟨e, he, hT⟩
          · rw [he, hn.collect]; exact .rfl
          · rw [he]; exact .inr ⟨e, rfl, hT⟩
      rcases hc with he | ⟨e, he, hT⟩
      · rw [he]
        split
        · exact .rfl
        · split
          · rename_i get mc
            have hr : Fails T (mapRecord J H o (map J H o n) get (propsOf J t) path)
                (mapRecord J H' o (map J H' o n) get (propsOf J t) path) := by
              refine mapRecord_near hn ih _ _ (hU.imp_right (fun h p hp => ?_))
              cases t with
              | cls c => exact h c p hp
              | other i => cases hp
            rcases hr with he | ⟨e, he, hT⟩
            · rw [he, hn.reduce]; exact .rfl
            · rw [he]; exact .inr ⟨e, rfl, hT⟩
          · exact hn.apply _ _ _
          · rw [hn.reduce]; exact .rfl
      · rw [he]; exact .inr ⟨e, rfl, hT⟩

/-! ## C68 -/

/-- C68: an exception of `apply` is not swallowed.  If a visit returns, then `apply` returned whenever it was called:
what it would do instead of raising makes no difference. -/
def C68_statement : Prop := ∀ (J : Setup) (o : Opts) (self : IProp → Val) (ap ap' : Leaf) (n : Nat) (v w : Val),
  Extends ap ap' → visit J n self o ap v = .ok w → visit J n self o ap' v = .ok w

/-- The same for `reverse`. -/
def C68_cast_statement : Prop := ∀ (J : Setup) (o : Opts) (ap ap' : Leaf) (m n : Nat) (t : Ty) (v w : Val),
  Extends ap ap' → cast J m n o ap t v = .ok w → cast J m n o ap' t v = .ok w

theorem extends_fails {ap ap' : Leaf} (h : Extends ap ap') (x : Slot) (p : Option IProp) (path : FS) :
    Fails (fun e => ∃ x p path, ap x p path = .error e) (ap x p path) (ap' x p path) := by
  cases he : ap x p path with
  | ok w => rw [h _ _ _ _ he]; exact .rfl
  | error e => exact .inr ⟨e, rfl, x, p, path, he⟩

/-- C68 for visits, if no property has several types or `apply` raises no `TypeError`.  Missing: unions of types and
`TypeError`s (C68_violated). -/
theorem C68_partial {self : IProp → Val} {ap ap' : Leaf} {n : Nat} {v w : Val}
    (hU : NoUnions J ∨ ∀ x p path e, ap x p path = .error e → e.isType = false)
    (h : Extends ap ap') (hw : visit J n self o ap v = .ok w) : visit J n self o ap' v = .ok w := by
  unfold visit at hw ⊢
  split at hw
  · rename_i c hc
    rw [← hw]
    rcases map_near (o := o) (J := J) (H := visitHooks J self o ap) (H' := visitHooks J self o ap')
      ⟨rfl, extends_fails h, rfl, rfl⟩ (hU.symm.imp_left (fun hU e ⟨x, p, path, he⟩ => hU x p path e he)) n (.val v) (.cls c) []
      with he | ⟨e, he, _⟩
    · rw [he]
    · rw [he] at hw; cases hw
  · cases hw

/-- C68 for casts, in the same cases. -/
theorem C68_cast_partial {ap ap' : Leaf} {m n : Nat} {t : Ty} {v w : Val}
    (hU : NoUnions J ∨ ∀ x p path e, ap x p path = .error e → e.isType = false)
    (h : Extends ap ap') (hw : cast J m n o ap t v = .ok w) : cast J m n o ap' t v = .ok w := by
  unfold cast at hw ⊢
  rw [← hw]
  rcases map_near (o := o) (J := J) (H := castHooks J (Json.make J m) o ap) (H' := castHooks J (Json.make J m) o ap')
    ⟨rfl, extends_fails h, rfl, rfl⟩ (hU.symm.imp_left (fun hU e ⟨x, p, path, he⟩ => hU x p path e he)) n (.val v) t []
    with he | ⟨e, he, _⟩
  · rw [he]
  · rw [he] at hw; cases hw

/-- A schema without unions: a post has an author and comments. -/
def noUnionCls : String → Ident.ICls
  | "Post" => { props := [⟨"title", false, [.other 0], none⟩, ⟨"author", false, [.cls "Author"], none⟩,
      ⟨"comments", false, [.cls "Comments"], none⟩] }
  | "Author" => { props := [⟨"name", false, [], none⟩] }
  | "Comments" => { coll := some (.list, .one (.cls "Author")) }
  | _ => {}

example : NoUnions { Trips.blogJ with S := Json.exSchema noUnionCls } := by
  intro c
  show ∀ p ∈ (noUnionCls c).props, p.types.length ≤ 1
  unfold noUnionCls
  split <;> decide +kernel

namespace Err

/-- A box holds a `Leaf` record or a string. -/
def cls : String → Ident.ICls
  | "Box" => { props := [⟨"size", false, [], none⟩, ⟨"content", false, [.cls "Leaf", .other 0], none⟩] }
  | "Leaf" => { props := [⟨"number", false, [], none⟩] }
  | _ => {}

def boxJ : Setup :=
  { S := Json.exSchema cls, info := fun _ _ => {}, isJson := fun _ => false, isa := fun _ v => Trips.isStr v
    make := fun _ v => .ok v, loads := fun _ => .error .valueCheck }

/-- `lambda v: v + 1`, say: a `TypeError` for strings -/
def plus (x : Slot) (_ : Option IProp) (_ : FS) : Except VErr Val :=
  match x with
  | .val (.atom (.int i)) => .ok (.int (i + 1))
  | _ => .error (.raw .typeError)

def plus' (x : Slot) (_ : Option IProp) (_ : FS) : Except VErr Val :=
  match x with
  | .val (.atom (.int i)) => .ok (.int (i + 1))
  | _ => .ok (.str "?")

theorem plus_extends : Extends plus plus' := by
  intro x p path w h
  unfold plus at h
  unfold plus'
  split at h
  · exact h
  · cases h

def box : Val := .rcd "Box" [("size", .int 3), ("content", .rcd "Leaf" [("number", .str "x")])]

def self (_ : IProp) : Val := .none

/-- Raises something else. -/
def strict (x : Slot) (_ : Option IProp) (_ : FS) : Except VErr Val :=
  match x with
  | .val (.atom (.int i)) => .ok (.int (i + 1))
  | _ => .error (.raw (.user 1))

-- this exception is seen
example : visit boxJ 5 self {} strict box = .error (.raw (.user 1)) := by decide +kernel

example : ∀ x p path e, strict x p path = .error e → e.isType = false := by
  intro x p path e h
  unfold strict at h
  split at h <;> cases h
  rfl

end Err

/-- C68 is false of `visit`: a `TypeError` of `apply` for a record in a property with several types makes the record
disappear. -/
theorem C68_violated : ¬ C68_statement := by
  intro h
  have h1 : visit Err.boxJ 5 Err.self {} Err.plus Err.box = .ok (.dict [(.str "size", .int 4)]) := by decide +kernel
  have h2 := h Err.boxJ {} Err.self _ _ 5 _ _ Err.plus_extends h1
  revert h2
  decide +kernel

def Err.doc : Val := .dict [(.str "size", .int 3), (.str "content", .dict [(.str "number", .str "x")])]

/-- Reads numbers in dicts. -/
def Err.read (x : Slot) (p : Option IProp) (path : FS) : Except VErr Val :=
  match x with
  | .val (.dict _) => .ok (.str "a dict")
  | _ => Err.plus x p path

def Err.read' (x : Slot) (p : Option IProp) (path : FS) : Except VErr Val :=
  match x with
  | .val (.dict _) => .ok (.str "a dict")
  | _ => Err.plus' x p path

/-- C68 is false of `cast`, too. -/
theorem C68_cast_violated : ¬ C68_cast_statement := by
  intro h
  have h1 : cast Err.boxJ 5 5 {} Err.read (.cls "Box") Err.doc = .ok (.rcd "Box" [("size", .int 4), ("content", .str "a dict")]) := by
    decide +kernel
  have h2 := h Err.boxJ {} Err.read Err.read' 5 5 _ _ _ (by
    intro x p path w h
    unfold Err.read at h
    unfold Err.read'
    split at h
    · exact h
    · exact Err.plus_extends _ _ _ _ h) h1
  revert h2
  decide +kernel

end Normalize.Visit
