import Verif.Spec.VisitorValid
import Verif.Props.VisitorCue
import Verif.Props.VisitorTrip
import Verif.Props.JsonValid

/-!
# C66, C67: what a cast and a visit return
-/

namespace Normalize.Visit
open Ident (IProp Ty ItemTy CollKind)
open Json (Setup Mk clsOf instOf MkOK)
open Spec (Leaf Chosen Given Valid ValidSlot Wellmade Free Visited)

variable {J : Setup} {o : Opts} {H : Hooks} {R : FS → Slot → Prop} {P : Val → Prop}

/-- `P` holds of what the hooks return, if they are given what they returned. -/
structure Keeps (H : Hooks) (R : FS → Slot → Prop) (P : Val → Prop) : Prop where
  none : P .none
  stop : ∀ {x t path v}, R path x → H.unpack x t path = .ok (.stop v) → P v
  apply : ∀ {x p path w}, R path x → H.apply x p path = .ok w → P w
  collect : ∀ {l t path w}, (∀ y ∈ l, P y.2) → H.collect l t path = .ok w → P w
  reduce : ∀ {mp mc t path w}, (∀ l, mp = some l → ∀ y ∈ l, P y.2) → (∀ v, mc = some v → P v) →
    H.reduce mp mc t path = .ok w → P w

theorem mapProp_keeps (hk : Keeps H R P) {go : Go} (ih : ∀ x t path w, R path x → go x t path = .ok w → P w)
    {x : Slot} {p : IProp} {path : FS} {w : Val} (hR : R path x) (h : mapProp J H go x p path = .ok w) : P w := by
  have tt : ∀ ts m v, P m → tryTypes J go x path ts m = .ok v → P v := by
    intro ts m v hm hv
    rcases tryTypes_ok ts m v hv with rfl | ⟨t, _, ht⟩
    · exact hm
    · exact ih _ _ _ _ hR ht
  unfold mapProp at h
  split at h
  · split at h
    · split at h
      · exact ih _ _ _ _ hR h
      · exact hk.apply hR h
    · exact hk.apply hR h
  · exact ih _ _ _ _ hR h
  · exact hk.apply hR h
  · unfold mapUnion at h
    split at h
    · split at h
      · cases h
      · rename_i m hm
        split at h
        · exact hk.apply hR h
        · cases h; exact tt _ _ _ hk.none hm
    · exact tt _ _ _ hk.none h

theorem mapRecord_keeps (hk : Keeps H R P) {go : Go} (ih : ∀ x t path w, R path x → go x t path = .ok w → P w)
    {get : IProp → Except Exc Val} {path : FS}
    (hg : ∀ p, (∀ v, get p = .ok v → R (path ++ [.str p.name]) (.val v)) ∧
      (∀ e, get p = .error e → R (path ++ [.str p.name]) (.miss e))) :
    ∀ (ps : List IProp) (l : List (IProp × Val)), mapRecord J H o go get ps path = .ok l → ∀ y ∈ l, P y.2
  | [], l, h => by cases h; simp
  | p :: ps, l, h => by
    unfold mapRecord at h
    split at h
    · cases h
    · rename_i r cue' hs
      have hc := mapSlot_cue hs
      subst hc
      split at h
      · cases h
      · rename_i l' hl
        cases h
        have ih' := mapRecord_keeps hk ih hg ps l' hl
        intro y hy
        cases r with
        | none => exact ih' y hy
        | some w =>
          simp only [addKept, List.mem_cons] at hy
          rcases hy with rfl | hy
          · rcases mapSlot_ok hs with ⟨_, h⟩ | ⟨_, s, hf, ⟨_, h⟩ | ⟨_, v, hv, h⟩⟩
            · cases h
            · cases h
            · obtain ⟨_, rfl⟩ := keep_iff.1 h.symm
              refine mapProp_keeps hk ih ?_ hv
              unfold fetch at hf
              split at hf
              · rename_i u hu; cases hf; exact (hg p).1 u hu
              · rename_i e he
                split at hf
                · cases hf; exact (hg p).2 e he
                · split at hf <;> cases hf
          · exact ih' y hy

/-- The invariant of a visit. -/
theorem map_keeps (ht : Tracks J H R) (hk : Keeps H R P) : ∀ (n : Nat) (x : Slot) (t : Ty) (path : FS) (w : Val),
    R path x → map J H o n x t path = .ok w → P w
  | 0, _, _, _, _, _, h => by cases h
  | n + 1, x, t, path, w, hR, h => by
    have ih := map_keeps ht hk n
    unfold map at h
    split at h
    · cases h
    · rename_i v hu; cases h; exact hk.stop hR hu
    · rename_i props coll hu
      split at h
      · cases h
      · rename_i mc hmc
        have hc : ∀ v, mc = some v → P v := by
          rintro v rfl
          unfold collected at hmc
          split at hmc
          · cases hmc
          · rename_i xs
            split at hmc
            · cases hmc
            · rename_i l hl
              split at hmc
              · cases hmc
              · rename_i v' hv
                cases hmc
                refine hk.collect ?_ hv
                obtain ⟨h1, h2⟩ := mapColl_ok xs l hl
                intro y hy
                cases hx : xs with
                | nil => subst hx; cases hl; cases hy
                | cons z zs =>
                  obtain ⟨it, _, hit, _⟩ := h1 z (by rw [hx]; exact List.mem_cons_self)
                  rw [h2 it hit, List.mem_filter, List.mem_map] at hy
                  obtain ⟨⟨a, ha, rfl⟩, _⟩ := hy
                  obtain ⟨it', w', hit', hw'⟩ := h1 a ha
                  rw [hit] at hit'
                  cases hit'
                  simp only [hw', valOf]
                  exact ih _ _ _ _ (ht.item hR hu ha) hw'
        split at h
        · split at h
          · cases h
          · rename_i mp hmp
            refine hk.reduce ?_ hc h
            rintro l ⟨⟩
            exact mapRecord_keeps hk ih (fun p => ht.slot hR hu) _ _ hmp
        · exact hk.apply hR h
        · exact hk.reduce (by rintro l ⟨⟩) (by rintro v ⟨⟩; exact hc _ rfl) h

/-! ## C66 -/

theorem given_valid {z : Bool} {root : Val} (hr : Valid J root) {path : FS} {x : Slot} (h : Given z root path x) :
    ValidSlot J x := by
  have hlist : ∀ {xs : List Val} {i : Nat} {v w : Val}, ValidSlot J (.val (.list xs)) → xs[i]? = some v →
      Slot.val v = .val w → Valid J w := by
    intro xs i v w hx hi hw
    cases hw
    cases hx _ rfl with
    | list h => exact h _ (List.mem_of_getElem? hi)
  have hdict : ∀ {xs : List (Comp × Val)}, ValidSlot J (.val (.dict xs)) → ∀ x ∈ xs, Valid J x.2 := by
    intro xs hx
    cases hx _ rfl with
    | dict h => exact h
  induction h with
  | root => rintro v ⟨⟩; exact hr
  | key _ hk ih => rintro v ⟨⟩; exact hdict ih _ (Mfs.alookup_mem hk)
  | missing => rintro v ⟨⟩
  | list _ hi ih => intro w hw; exact hlist ih hi hw
  | dict _ hm ih => rintro v ⟨⟩; exact hdict ih _ hm
  | values _ hv hm ih =>
    rintro v ⟨⟩
    refine hdict (xs := _) ?_ _ hm
    rintro u ⟨⟩
    exact hdict ih _ (Mfs.alookup_mem hv)
  | valuesList _ hv hi ih =>
    intro w hw
    refine hlist ?_ hi hw
    rintro u ⟨⟩
    exact hdict ih _ (Mfs.alookup_mem hv)
  | zero _ _ hm ih => rintro v ⟨⟩; exact hdict ih _ hm
  | valuesZero _ _ hv hm ih =>
    rintro v ⟨⟩
    refine hdict (xs := _) ?_ _ hm
    rintro u ⟨⟩
    exact hdict ih _ (Mfs.alookup_mem hv)

theorem lift_ok {α : Type} {e : Except Json.JErr α} {a : α} (h : lift e = .ok a) : e = .ok a := by
  cases e with
  | ok b => cases h; rfl
  | error e => cases h

/-- What `produce` returns is of the type. -/
theorem produce_valid (W : Wellmade J) {mk : Mk} (hm : MkOK J mk) {mp : Option (List (IProp × Val))} {mc : Option Val} {t : Ty}
    (path : FS) {w : Val} (h1 : ∀ l, mp = some l → ∀ y ∈ l, Valid J y.2) (h2 : ∀ v, mc = some v → Valid J v)
    (h : produce J mk mp mc t path = .ok w) : (∀ c, t = .cls c → clsOf w = some c) ∧ Valid J w := by
  unfold produce at h
  split at h
  · exact ⟨by rintro c ⟨⟩, (Json.callTy_valid W hm (lift_ok h) .atom).2⟩
  · rename_i c
    have hv : Valid J (mc.getD .none) := by
      cases mc with
      | none => exact .atom
      | some v => exact h2 v rfl
    have key : ∀ {w}, clsOf w = some c ∧ Valid J w → (∀ d, Ty.cls c = .cls d → clsOf w = some d) ∧ Valid J w := by
      rintro w ⟨ha, hb⟩
      exact ⟨by rintro d ⟨⟩; exact ha, hb⟩
    split at h
    · refine key (Json.initRecord_valid W hm (lift_ok h) ?_)
      intro x hx
      cases mp with
      | none => cases hx
      | some l =>
        simp only [kwargs, named, List.mem_map] at hx
        obtain ⟨y, hy, rfl⟩ := hx
        exact h1 l rfl y hy
    · rename_i k it hc
      split at h
      · split at h
        · exact key (Json.mkList_valid W hm hc (lift_ok h) hv)
        · exact key (Json.mkDict_valid W hm hc (lift_ok h) hv)
      · cases h

theorem produce_cls {mk : Mk} {mp : Option (List (IProp × Val))} {mc : Option Val} {c : String} {path : FS} {w : Val}
    (h : produce J mk mp mc (.cls c) path = .ok w) : clsOf w = some c := by
  unfold produce at h
  simp only at h
  split at h
  · have h := lift_ok h
    unfold Json.initRecord at h
    split at h
    · cases h
    · split at h <;> cases h
      rfl
  · split at h
    · split at h
      · have h := lift_ok h
        unfold Json.mkList at h
        split at h
        · cases h
        · split at h <;> cases h
          rfl
      · have h := lift_ok h
        unfold Json.mkDict at h
        split at h
        · cases h
        · split at h <;> cases h
          rfl
    · cases h

theorem collect_valid (W : Wellmade J) {mk : Mk} (hm : MkOK J mk) {l : List (Comp × Val)} {t : Ty} (path : FS) {w : Val}
    (hl : ∀ y ∈ l, Valid J y.2) (h : collect J mk l t path = .ok w) : Valid J w := by
  unfold collect at h
  split at h
  · cases h
  · split at h
    · cases h
    · split at h
      · cases h
      · rename_i l' hl'
        have key : ∀ y ∈ l', Valid J y.2 := by
          intro y hy
          obtain ⟨x, hx, h⟩ := Json.mapE_ok hl' y hy
          exact (Json.coerceEntry_valid W hm h (hl x hx)).2
        split at h <;> cases h
        · refine .list (fun x hx => ?_)
          rw [List.mem_map] at hx
          obtain ⟨y, hy, rfl⟩ := hx
          exact key y hy
        · exact .dict key

/-- The hooks of `cast` keep to valid values. -/
theorem cast_keeps (W : Wellmade J) {m : Nat} {rev : Leaf} {root : Val}
    (hrev : ∀ x p path w, Given true root path x → rev x p path = .ok w → Valid J w) :
    Keeps (castHooks J (Json.make J m) o rev) (Given true root) (Valid J) where
  none := .atom
  stop := by
    intro x t path v _ h
    simp only [castHooks, grok] at h
    split at h
    · cases h
    · split at h
      · cases h
      · split at h <;> cases h
    · split at h
      · cases h
      · split at h
        · cases h
        · split at h <;> cases h
  apply := fun hR h => hrev _ _ _ _ hR h
  collect {l t path w} hl h := collect_valid W (Json.make_valid W m) path hl h
  reduce {mp mc t path w} h1 h2 h := (produce_valid W (Json.make_valid W m) path h1 h2 h).2

/-- C66: what `cast` returns is valid, with all it contains.  It is an instance of the class, unless the class is not a
collection and none of its properties is visited: then it is what `reverse` makes of the data. -/
theorem C66 (W : Wellmade J) {ord : List MArg → List MArg} (hord : Mfs.OrdOK ord) {sel : Option (List FS)}
    (hf : FilterIs ord o sel) {m n : Nat} {rev : Leaf}
    (hrev : ∀ x p path w, ValidSlot J x → rev x p path = .ok w → Valid J w) {c : String} {v w : Val} (hv : Valid J v)
    (h : cast J m n o rev (.cls c) v = .ok w) :
    Valid J w ∧ (clsOf w = some c ∨
      ((J.S.cls c).coll = none ∧ (∀ p ∈ (J.S.cls c).props, ¬ Chosen o sel [] p) ∧ rev (.val v) none [] = .ok w)) := by
  have ht : Tracks J (castHooks J (Json.make J m) o rev) (Given true v) :=
    grok_tracks (o := o) (by rintro ⟨⟩) (fun _ _ _ => rfl)
  have hk : Keeps (castHooks J (Json.make J m) o rev) (Given true v) (Valid J) :=
    cast_keeps W (fun x p path w hg hw => hrev x p path w (given_valid hv hg) hw)
  refine ⟨map_keeps ht hk n _ _ _ _ .root h, ?_⟩
  cases n with
  | zero => cases h
  | succ n =>
    have ih := map_keeps (o := o) ht hk n
    unfold cast map at h
    split at h
    · cases h
    · rename_i u hu
      exact absurd hu (by
        simp only [castHooks, grok]
        split
        · simp
        · split
          · simp
          · split <;> simp)
    · rename_i props coll hu
      split at h
      · cases h
      · rename_i mc hmc
        have hred : ∀ {mp}, (castHooks J (Json.make J m) o rev).reduce mp mc (.cls c) [] = .ok w → clsOf w = some c := by
          intro mp hr
          exact produce_cls (path := []) hr
        split at h
        · split at h
          · cases h
          · exact .inl (hred h)
        · refine .inr ?_
          simp only [castHooks, grok] at hu
          split at hu
          · cases hu
          · rename_i hne
            split at hu
            · rename_i hc
              simp only [Except.ok.injEq, Unpacked.parts.injEq] at hu
              refine ⟨hc, ?_, h⟩
              cases hb : (propsOf J (.cls c)).any (fun p => !isFiltered o [] p) with
              | true =>
                rw [hb] at hne hu
                cases v <;> simp [isMapping, grokGet] at hne hu
              | false =>
                intro p hp hch
                have := (any_chosen hord hf).2 ⟨p, hp, hch⟩
                rw [hb] at this
                cases this
            · split at hu
              · cases hu
              · simp only [Except.ok.injEq, Unpacked.parts.injEq] at hu
                obtain ⟨_, rfl⟩ := hu
                simp only [collected] at hmc
                split at hmc
                · cases hmc
                · split at hmc <;> cases hmc
        · exact .inl (hred h)

/-! The prices are numbers after the cast, and a bad price is an error. -/

theorem applyDefault_valid {x : Slot} {p : Option IProp} {path : FS} {w : Val} (hx : ValidSlot J x)
    (h : applyDefault x p path = .ok w) : Valid J w := by
  cases x with
  | val v => cases h; exact hx _ rfl
  | miss e => cases h; exact .atom

example : cast Json.numJ 9 9 {} applyDefault (.cls "Item") (Json.numDoc "5") = .ok (.rcd "Item" [("price", .int 7),
    ("parts", .lcoll "Items" [.rcd "Item" [("price", .int 5)]])]) := by decide +kernel

example : cast Json.numJ 9 9 {} applyDefault (.cls "Item") (Json.numDoc "-5") = .error (.raw .valueCheck) := by
  decide +kernel

example : Wellmade Json.numJ := Json.numWellmade

example : FilterIs id {} none := .all rfl

-- no property of `Item` is visited: a cast returns what `reverse` returns
example : cast Json.numJ 9 9 { filter := some [(.str "nothing", .all)] } applyDefault (.cls "Item") (.int 3) =
    .ok (.int 3) := by decide +kernel

/-! ## C67 -/

theorem named_free {mp : List (IProp × Val)} (h : ∀ y ∈ mp, Free y.2) : ∀ x ∈ asDict (named mp), Free x.2 := by
  intro x hx
  simp only [asDict, named, List.mem_map] at hx
  obtain ⟨a, ⟨y, hy, rfl⟩, rfl⟩ := hx
  exact h y hy

theorem visit_keeps {self : IProp → Val} {ap : Leaf} {root : Val}
    (hap : ∀ x p path w, Visited self root path x → ap x p path = .ok w → Free w) :
    Keeps (visitHooks J self o ap) (Visited self root) Free where
  none := .atom
  stop := by
    intro x t path v _ h
    simp only [visitHooks, unpack] at h
    split at h
    · cases h
    · split at h
      · cases h
      · split at h <;> cases h
  apply := fun hR h => hap _ _ _ _ hR h
  collect := by
    intro l t path w hl h
    simp only [visitHooks, aggregate] at h
    split at h
    · cases h
    · split at h <;> cases h
      · refine .list (fun x hx => ?_)
        rw [List.mem_map] at hx
        obtain ⟨y, hy, rfl⟩ := hx
        exact hl y hy
      · exact .dict hl
  reduce := by
    intro mp mc t path w h1 h2 h
    simp only [visitHooks, reduce] at h
    have key : ∀ {mp a}, (∀ y ∈ mp, Free y.2) → Free a → Free (.dict (aset (asDict (named mp)) (.str "values") a)) := by
      intro mp a h1 h2
      refine .dict (fun x hx => ?_)
      rcases Json.aset_mem hx with hx | hx
      · exact named_free h1 x hx
      · rw [hx]; exact h2
    split at h
    · split at h
      · cases h; exact h2 _ rfl
      · split at h
        · cases h
        · split at h
          · split at h
            · cases h; exact key (h1 _ rfl) (h2 _ rfl)
            · cases h
          · cases h; exact key (h1 _ rfl) (h2 _ rfl)
    · split at h
      · cases h; exact .atom
      · cases h; exact .dict (named_free (h1 _ rfl))

/-- C67: if `apply` returns plain data for all that is visited, then so does `visit`: there are no records or
collections left. -/
theorem C67 {self : IProp → Val} {ap : Leaf} {n : Nat} {v w : Val}
    (hap : ∀ x p path w, Visited self v path x → ap x p path = .ok w → Free w)
    (h : visit J n self o ap v = .ok w) : Free w := by
  unfold visit at h
  split at h
  · exact map_keeps (unpack_tracks (self := self) (fun _ _ _ => rfl)) (visit_keeps hap) n _ _ _ _ .root h
  · cases h

open Trips in
example : ∃ w, visit blogJ 9 blogSelf {} showTime (.rcd "Post" slots) = .ok w ∧ Free w := by
  refine ⟨_, show visit blogJ 9 blogSelf {} showTime (.rcd "Post" slots) = .ok (.dict [(.str "title", .str "hello"),
    (.str "when", .str "noon"), (.str "author", .dict [(.str "name", .str "ann")]),
    (.str "comments", .list [.dict [(.str "name", .str "bob")], .dict [(.str "name", .str "eve")]])]) by decide +kernel, ?_⟩
  refine .dict (fun x hx => ?_)
  simp only [List.mem_cons, List.not_mem_nil, or_false] at hx
  rcases hx with rfl | rfl | rfl | rfl
  · exact .atom
  · exact .atom
  · refine .dict (fun x hx => ?_)
    simp only [List.mem_cons, List.not_mem_nil, or_false] at hx
    subst hx
    exact .atom
  · refine .list (fun x hx => ?_)
    simp only [List.mem_cons, List.not_mem_nil, or_false] at hx
    rcases hx with rfl | rfl <;>
    · refine .dict (fun x hx => ?_)
      simp only [List.mem_cons, List.not_mem_nil, or_false] at hx
      subst hx
      exact .atom

/-- `str(value)` -/
def text (_ : Slot) (_ : Option IProp) (_ : FS) : Except VErr Val := .ok (.str "text")

-- for any value: with an `apply` that makes texts, the result is plain data
example {self : IProp → Val} {n : Nat} {v w : Val} (h : visit J n self o text v = .ok w) : Free w :=
  C67 (fun _ _ _ _ _ h => by cases h; exact .atom) h

end Normalize.Visit
