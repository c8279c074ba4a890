import Verif.Spec.DiffRuns
import Verif.Lemmas.DiffRuns
import Verif.Lemmas.HashingHook
import Verif.Props.Hashing

/-!
# C120: comparing objects of declared types raises nothing
-/

namespace Normalize.Diff
open Ident (IProp Schema readAttr veq Sub CollKind ItemTy Ty rid khash hashable)
open Spec (OfDeclared ClassesOk NoRecordUnions NoEmptyColls PlainRun SingleItems RunsToEnd withDepth IsInstance IsItem)
open Gen

/-- C120: comparing two objects of the same type, whose values are of their declared types, raises nothing. -/
def C120_statement : Prop :=
  ∀ (D : Setup) (o : Opts) (x y : Val), PlainRun D o → ClassesOk D.S → OfDeclared D.S x → OfDeclared D.S y →
    tagOf x = tagOf y → RunsToEnd D o x y

section
variable {S : Schema}

theorem sub_trans' {u v w : Val} (h1 : Sub u v) (h2 : Sub v w) : Sub u w := by
  induction h2 with
  | self => exact h1
  | list h _ ih => exact .list h ih
  | lcoll h _ ih => exact .lcoll h ih
  | dict h _ ih => exact .dict h ih
  | dcoll h _ ih => exact .dcoll h ih
  | rcd h _ ih => exact .rcd h ih

theorem eqLoop_runs : ∀ {fs : List (Val → Except Exc Bool)} {ys : List Val},
    (∀ f ∈ fs, ∀ y ∈ ys, ∃ b, f y = .ok b) → ∃ b, Ident.eqLoop fs ys = .ok b
  | [], _, _ => ⟨true, by simp [Ident.eqLoop]⟩
  | f :: fs, [], _ => ⟨true, by simp [Ident.eqLoop]⟩
  | f :: fs, y :: ys, h => by
    obtain ⟨b, hb⟩ := h f (by simp) y (by simp)
    have ih := eqLoop_runs (fs := fs) (ys := ys) (fun g hg z hz => h g (by simp [hg]) z (by simp [hz]))
    cases b with
    | false => exact ⟨false, by simp [Ident.eqLoop, hb]⟩
    | true => simpa [Ident.eqLoop, hb] using ih

theorem eqLoopD_runs : ∀ {fs : List (Comp × (Val → Except Exc Bool))} {d : List (Comp × Val)},
    (∀ f ∈ fs, ∀ e ∈ d, ∃ b, f.2 e.2 = .ok b) → ∃ b, Ident.eqLoopD fs d = .ok b
  | [], _, _ => ⟨true, by simp [Ident.eqLoopD]⟩
  | (k, f) :: fs, d, h => by
    have ih := eqLoopD_runs (fs := fs) (d := d) (fun g hg z hz => h g (by simp [hg]) z hz)
    cases hl : alookup d k with
    | none => exact ⟨false, by simp [Ident.eqLoopD, hl]⟩
    | some y =>
      obtain ⟨b, hb⟩ := h (k, f) (by simp) (k, y) (alookup_mem' hl)
      have hb : f y = .ok b := hb
      cases b with
      | false => exact ⟨false, by simp [Ident.eqLoopD, hl, hb]⟩
      | true => simpa [Ident.eqLoopD, hl, hb] using ih

theorem eqProps_runs {l : String → Option (Val → Except Exc Bool)} {r : String → Option Val}
    (h : ∀ nm f y, l nm = some f → r nm = some y → ∃ b, f y = .ok b) :
    ∀ ps : List IProp, ∃ b, Ident.eqProps ps l r = .ok b
  | [] => ⟨true, rfl⟩
  | p :: ps => by
    have ih := eqProps_runs h ps
    simp only [Ident.eqProps]
    split
    · exact ih
    · have : ∃ b, Ident.eqRead (l p.name) (r p.name) = .ok b := by
        cases hl : l p.name with
        | none => cases hr : r p.name <;> exact ⟨_, rfl⟩
        | some f =>
          cases hr : r p.name with
          | none => exact ⟨_, rfl⟩
          | some y => exact h _ f y hl hr
      obtain ⟨b, hb⟩ := this
      rw [hb]
      cases b with
      | false => exact ⟨false, rfl⟩
      | true => exact ih

/-- There are no plain lists and dicts in it. -/
def NoPlain (v : Val) : Prop := ∀ u, Sub u v → (∀ xs, u ≠ .list xs) ∧ ∀ xs, u ≠ .dict xs

theorem noPlain_declared {v : Val} (h : OfDeclared S v) : NoPlain v := by
  induction h with
  | atom =>
    intro u hu
    cases hu
    exact ⟨by simp, by simp⟩
  | rcd _ _ _ ih =>
    intro u hu
    cases hu with
    | self => exact ⟨by simp, by simp⟩
    | rcd hm hu => exact ih _ hm u hu
  | lcoll _ _ _ ih =>
    intro u hu
    cases hu with
    | self => exact ⟨by simp, by simp⟩
    | lcoll hm hu => exact ih _ hm u hu
  | dcoll _ _ _ ih =>
    intro u hu
    cases hu with
    | self => exact ⟨by simp, by simp⟩
    | dcoll hm hu => exact ih _ hm u hu

theorem noPlain_atom (a : Atom) : NoPlain (.atom a) := by
  intro u hu
  cases hu
  exact ⟨by simp, by simp⟩

theorem mem_veqL {xs : List Val} {f : Val → Except Exc Bool} (h : f ∈ Ident.veqL S xs) : ∃ v ∈ xs, f = fun w => veq S v w := by
  induction xs with
  | nil => simp [Ident.veqL] at h
  | cons x xs ih =>
    simp only [Ident.veqL, List.mem_cons] at h
    rcases h with rfl | h
    · exact ⟨x, by simp, rfl⟩
    · obtain ⟨v, hv, e⟩ := ih h
      exact ⟨v, by simp [hv], e⟩

theorem mem_veqC {xs : List (Comp × Val)} {f : Comp × (Val → Except Exc Bool)} (h : f ∈ Ident.veqC S xs) :
    ∃ v ∈ xs, f = (v.1, fun w => veq S v.2 w) := by
  induction xs with
  | nil => simp [Ident.veqC] at h
  | cons x xs ih =>
    obtain ⟨k, x⟩ := x
    simp only [Ident.veqC, List.mem_cons] at h
    rcases h with rfl | h
    · exact ⟨(k, x), by simp, rfl⟩
    · obtain ⟨v, hv, e⟩ := ih h
      exact ⟨v, by simp [hv], e⟩

theorem mem_veqS {xs : List (String × Val)} {f : String × (Val → Except Exc Bool)} (h : f ∈ Ident.veqS S xs) :
    ∃ v ∈ xs, f = (v.1, fun w => veq S v.2 w) := by
  induction xs with
  | nil => simp [Ident.veqS] at h
  | cons x xs ih =>
    obtain ⟨k, x⟩ := x
    simp only [Ident.veqS, List.mem_cons] at h
    rcases h with rfl | h
    · exact ⟨(k, x), by simp, rfl⟩
    · obtain ⟨v, hv, e⟩ := ih h
      exact ⟨v, by simp [hv], e⟩

/-- Objects without plain lists and dicts in them can be compared with `==`. -/
theorem veq_runs (x : Val) : NoPlain x → ∀ y, NoPlain y → ∃ b, veq S x y = .ok b := by
  induction x using Val.ind with
  | atom a =>
    intro _ y _
    cases y with
    | atom b => exact ⟨S.atomEq a b, by simp [veq, Ident.atomVs]⟩
    | _ => exact ⟨false, by simp [veq, Ident.atomVs]⟩
  | list xs _ => intro h; exact absurd rfl ((h _ (.self _)).1 xs)
  | dict xs _ => intro h; exact absurd rfl ((h _ (.self _)).2 xs)
  | rcd c s ih =>
    intro hx y hy
    cases y with
    | rcd d t =>
      by_cases hcd : c = d
      · subst hcd
        simp only [veq, if_true]
        refine eqProps_runs (fun nm f w hl hr => ?_) _
        have hw : NoPlain w := by
          simp only [readAttr] at hr
          split at hr
          · rename_i v hv
            cases hr
            exact fun u hu => hy u (.rcd (alookup_mem' hv) hu)
          · cases hu : Ident.unsetOf S c nm with
            | none => simp [hu] at hr
            | some a => simp [hu] at hr; subst hr; exact noPlain_atom a
        simp only [Ident.leftRead] at hl
        split at hl
        · rename_i g hg
          cases hl
          obtain ⟨v, hv, e⟩ := mem_veqS (alookup_mem' hg)
          simp only [Prod.mk.injEq] at e
          rw [e.2]
          exact ih v hv (fun u hu => hx u (.rcd hv hu)) w hw
        · cases hu : Ident.unsetOf S c nm with
          | none => simp [hu] at hl
          | some a =>
            simp [hu] at hl
            subst hl
            cases w with
            | atom b => exact ⟨S.atomEq a b, by simp [Ident.atomVs]⟩
            | _ => exact ⟨false, by simp [Ident.atomVs]⟩
      · exact ⟨false, by simp [veq, hcd]⟩
    | _ => exact ⟨false, by simp [veq]⟩
  | lcoll c xs ih =>
    intro hx y hy
    cases y with
    | list ys => exact absurd rfl ((hy _ (.self _)).1 ys)
    | lcoll d ys =>
      simp only [veq]
      split
      · split
        · refine eqLoop_runs fun f hf w hw => ?_
          obtain ⟨v, hv, rfl⟩ := mem_veqL hf
          exact ih v hv (fun u hu => hx u (.lcoll hv hu)) w (fun u hu => hy u (.lcoll hw hu))
        · exact ⟨false, rfl⟩
      · exact ⟨false, rfl⟩
    | _ => exact ⟨false, by simp [veq]⟩
  | dcoll c xs ih =>
    intro hx y hy
    cases y with
    | dict ys => exact absurd rfl ((hy _ (.self _)).2 ys)
    | dcoll d ys =>
      simp only [veq]
      split
      · split
        · refine eqLoopD_runs fun f hf w hw => ?_
          obtain ⟨v, hv, rfl⟩ := mem_veqC hf
          exact ih v hv (fun u hu => hx u (.dcoll hv hu)) w.2 (fun u hu => hy u (.dcoll (k := w.1) hw hu))
        · exact ⟨false, rfl⟩
      · exact ⟨false, rfl⟩
    | _ => exact ⟨false, by simp [veq]⟩
end

/-- A common bound for all the parts of an object. -/
theorem bound_subs {P : Nat → Val → Prop} (hmono : ∀ n m a, n ≤ m → P n a → P m a) (v : Val) :
    (∀ w, Sub w v → ∃ n, P n w) → ∃ n, ∀ w, Sub w v → P n w := by
  have step : ∀ {α : Type} (l : List α) (g : α → Val), (∀ a ∈ l, ∃ n, ∀ w, Sub w (g a) → P n w) →
      ∃ n, ∀ a ∈ l, ∀ w, Sub w (g a) → P n w := by
    intro α l g h
    exact bound_list (P := fun n a => ∀ w, Sub w (g a) → P n w) (fun n m a hnm ha w hw => hmono n m w hnm (ha w hw)) h
  have join : ∀ (u : Val) {n : Nat}, (∃ m, P m u) → (∀ w, Sub w u → w = u ∨ P n w) → ∃ n, ∀ w, Sub w u → P n w := by
    intro u n ⟨m, hm⟩ h
    refine ⟨max n m, fun w hw => ?_⟩
    rcases h w hw with rfl | h
    · exact hmono m _ _ (by omega) hm
    · exact hmono n _ _ (by omega) h
  induction v using Val.ind with
  | atom a =>
    intro h
    refine join (n := 0) _ (h _ (.self _)) fun w hw => ?_
    cases hw
    exact .inl rfl
  | list xs ih =>
    intro h
    obtain ⟨n, hn⟩ := step xs id (fun a ha => ih a ha (fun w hw => h w (.list ha hw)))
    refine join (n := n) _ (h _ (.self _)) fun w hw => ?_
    cases hw with
    | self => exact .inl rfl
    | list hm hw => exact .inr (hn _ hm w hw)
  | lcoll c xs ih =>
    intro h
    obtain ⟨n, hn⟩ := step xs id (fun a ha => ih a ha (fun w hw => h w (.lcoll ha hw)))
    refine join (n := n) _ (h _ (.self _)) fun w hw => ?_
    cases hw with
    | self => exact .inl rfl
    | lcoll hm hw => exact .inr (hn _ hm w hw)
  | dict xs ih =>
    intro h
    obtain ⟨n, hn⟩ := step xs (·.2) (fun a ha => ih a ha (fun w hw => h w (.dict (k := a.1) ha hw)))
    refine join (n := n) _ (h _ (.self _)) fun w hw => ?_
    cases hw with
    | self => exact .inl rfl
    | dict hm hw => exact .inr (hn _ hm w hw)
  | dcoll c xs ih =>
    intro h
    obtain ⟨n, hn⟩ := step xs (·.2) (fun a ha => ih a ha (fun w hw => h w (.dcoll (k := a.1) ha hw)))
    refine join (n := n) _ (h _ (.self _)) fun w hw => ?_
    cases hw with
    | self => exact .inl rfl
    | dcoll hm hw => exact .inr (hn _ hm w hw)
  | rcd c xs ih =>
    intro h
    obtain ⟨n, hn⟩ := step xs (·.2) (fun a ha => ih a ha (fun w hw => h w (.rcd (k := a.1) ha hw)))
    refine join (n := n) _ (h _ (.self _)) fun w hw => ?_
    cases hw with
    | self => exact .inl rfl
    | rcd hm hw => exact .inr (hn _ hm w hw)

theorem declared_sub {S : Schema} {v w : Val} (h : OfDeclared S v) (hw : Sub w v) : OfDeclared S w := by
  induction hw with
  | self => exact h
  | list _ _ ih => cases h
  | dict _ _ ih => cases h
  | lcoll hm _ ih => cases h with | lcoll _ hx _ => exact ih (hx _ hm)
  | dcoll hm _ ih => cases h with | dcoll _ hx _ => exact ih (hx _ hm)
  | rcd hm _ ih => cases h with | rcd _ hx _ => exact ih (hx _ hm)

variable {D : Setup} {o : Opts}

theorem scrub_atom {U : Unicode} {t : TextOpts} (hs : PlainRun D o) {a : Atom} (ha : (D.S.atomHash a).isSome = true) :
    ∃ b, scrub U t (.atom a) = .atom b ∧ (D.S.atomHash b).isSome = true := by
  cases a with
  | str s => exact ⟨_, rfl, hs.str _⟩
  | _ => exact ⟨_, rfl, ha⟩

theorem scrub_other {U : Unicode} {t : TextOpts} {v : Val} (h : ∀ a, v ≠ .atom a) : scrub U t v = v := by
  cases v with
  | atom a => exact absurd rfl (h a)
  | _ => rfl

theorem gentle (hs : PlainRun D o) : Ident.GentleHook D.S (slotHook D) := by
  intro v p ob
  simp only [slotHook, normalizeObjectSlot, hs.slots]
  refine ⟨_, rfl, ?_, fun h => ?_⟩
  · rintro ⟨a, rfl, ha⟩
    obtain ⟨b, hb, hb'⟩ := scrub_atom (U := D.U) (t := D.text) hs ha
    simp only [normalizeVal, hb]
    split
    · exact ⟨_, rfl, hs.marker⟩
    · exact ⟨b, rfl, hb'⟩
  · simp only [normalizeVal, scrub_other h]
    rw [if_neg]
    · rfl
    · cases v with
      | atom a => exact absurd rfl (h a)
      | _ => simp [valueIsEmpty]

/-- The identity that a comparison computes, given enough stack. -/
theorem recordId_runs (hs : PlainRun D o) (ok : ClassesOk D.S) (hu : NoRecordUnions D.S) {w : Val} {c : String}
    (h : OfDeclared D.S w) (hne : NoEmptyColls D.S w) (hc : clsOf w = some c) :
    ∃ N, ∀ d, N ≤ d → ∃ ks, recordIdOf (withDepth D d) none none w = .ok (.tup ks) := by
  have hi : IsInstance D.S (.cls c) w ∧ Ident.typeOf w = .cls c := by
    cases w <;> simp_all [clsOf, IsInstance, Ident.typeOf] <;> exact Ident.ExtendsClass.refl _
  obtain ⟨ks, N, hN, ⟨x, M, hM⟩, -⟩ := Ident.OfDeclared.keyedBy ok hu (gentle hs) h hne c hi.1
  refine ⟨max N M, fun d hd => ⟨ks, ?_⟩⟩
  have h1 : rid D.S (some (slotHook D)) d (.cls c) none w = .ok (.tup ks) := hN d (by omega)
  have h2 : khash D.S d (.tup ks) = .ok x := hM d (by omega)
  have hS : (withDepth D d).S = D.S := rfl
  have hk : slotHook (withDepth D d) = slotHook D := rfl
  have hd' : (withDepth D d).depth = d := rfl
  simp only [recordIdOf, Option.getD_none, hi.2, hS, hk, hd', h1, h2, idOfKey]

/-- The objects that occur in a comparison. -/
structure Occurs (D : Setup) (v : Val) : Prop where
  decl : OfDeclared D.S v
  one : SingleItems D.S v
  ids : ∀ w c, Sub w v → clsOf w = some c → ∃ ks, recordIdOf D none none w = .ok (.tup ks)

theorem Occurs.sub {v w : Val} (h : Occurs D v) (hw : Sub w v) : Occurs D w :=
  ⟨declared_sub h.decl hw, fun u c xs hu => h.one u c xs (sub_trans' hu hw), fun u c hu => h.ids u c (sub_trans' hu hw)⟩

theorem Occurs.atom {a : Atom} (ha : (D.S.atomHash a).isSome = true) : Occurs D (.atom a) := by
  refine ⟨.atom ha, ?_, ?_⟩
  · intro w c xs hw hc
    cases hw
    simp [clsOf] at hc
  · intro w c hw hc
    cases hw
    simp [clsOf] at hc

theorem occurs_smooth (hs : PlainRun D o) (ok : ClassesOk D.S) : Smooth D.hooks (Occurs D) where
  good := C89_default D ⟨hs.mixL, hs.mixD⟩ (by simp [hs.slots]) (by simp [hs.items])
  ord := hs.ord
  slot x p hx := by
    cases hr : readAttr D.S x p.name with
    | none => 
      refine ⟨none, ?_, by simp⟩
      show normalizeObjectSlot D (readAttr D.S x p.name) p (some x) = _
      rw [hr]; rfl
    | some v =>
      refine ⟨normalizeVal D.U D.text (some v), ?_, ?_⟩
      · show normalizeObjectSlot D (readAttr D.S x p.name) p (some x) = _
        simp [hr, normalizeObjectSlot, hs.slots]
      · have hv : (∃ a, v = .atom a ∧ (D.S.atomHash a).isSome = true) ∨ ((∀ a, v ≠ .atom a) ∧ Part v x ∧ Sub v x) := by
          cases x with
          | rcd c s =>
            simp only [readAttr] at hr
            split at hr
            · rename_i u hl
              cases hr
              have hm := alookup_mem' hl
              by_cases ha : ∃ a, v = .atom a
              · obtain ⟨a, rfl⟩ := ha
                have := declared_sub hx.decl (.rcd hm (.self _))
                cases this with
                | atom h => exact .inl ⟨a, rfl, h⟩
              · exact .inr ⟨fun a e => ha ⟨a, e⟩, .inr ⟨c, s, _, rfl, hm⟩, .rcd hm (.self _)⟩
            · cases hp : Ident.propOf D.S c p.name with
              | none => simp [Ident.unsetOf, hp] at hr
              | some q =>
                cases hq : q.unset with
                | none => simp [Ident.unsetOf, hp, hq] at hr
                | some a =>
                  simp [Ident.unsetOf, hp, hq] at hr
                  subst hr
                  refine .inl ⟨a, rfl, ?_⟩
                  rcases ok.unset c q (List.mem_of_find?_eq_some hp) a hq with rfl | h
                  · exact ok.none
                  · exact h.1
          | _ => simp [readAttr] at hr
        intro w hw
        rcases hv with ⟨a, rfl, ha⟩ | ⟨h1, h2, h3⟩
        · obtain ⟨b, hb, hb'⟩ := scrub_atom (U := D.U) (t := D.text) hs ha
          simp only [normalizeVal, hb] at hw
          split at hw
          · cases hw
          · cases hw
            exact ⟨.atom hb', by simp [comparable, tagOf]⟩
        · simp only [normalizeVal, scrub_other h1] at hw
          split at hw
          · cases hw
          · cases hw
            exact ⟨hx.sub h3, fun _ => h2⟩
  member x xs k v hx hxs hm := hx.sub (sub_member hxs hm v (.self v))
  equal x y hx hy := veq_runs x (noPlain_declared hx.decl) y (noPlain_declared hy.decl)
  item c x hx := by
    refine ⟨(normalizeVal D.U D.text (some x)).map (hashed D), ?_⟩
    show normalizeItem D c x = _
    cases c <;> simp [normalizeItem, compareItem, hs.items]
  coll x c xs hx hc hxs := by
    obtain ⟨k, t, h1, h2⟩ := hx.one x c xs (.self x) hc hxs
    refine ⟨k, t, h1, fun n hn k v hm => ⟨h2 n hn k v hm, ?_⟩⟩
    exact hx.ids v n (sub_member hxs hm v (.self v)) (h2 n hn k v hm)
  record c s hx := by
    have := hx.decl
    cases this with
    | rcd h _ _ => exact h

/-- **C120 (what holds).** If no property may hold one of several types of which one is a record class, no identity
contains an empty typed collection, and every collection has items of exactly one type, then comparing two objects of the
same type raises nothing. -/
theorem C120_partial (D : Setup) (o : Opts) (x y : Val) (hs : PlainRun D o) (ok : ClassesOk D.S) (hu : NoRecordUnions D.S)
    (hx : OfDeclared D.S x) (hy : OfDeclared D.S y) (ex : NoEmptyColls D.S x) (ey : NoEmptyColls D.S y)
    (ox : SingleItems D.S x) (oy : SingleItems D.S y) (htag : tagOf x = tagOf y) : RunsToEnd D o x y := by
  have key : ∀ v, OfDeclared D.S v → NoEmptyColls D.S v → SingleItems D.S v → ∃ N, ∀ d, N ≤ d → Occurs (withDepth D d) v ∧
      Shallow d v := by
    intro v hv ev ov
    obtain ⟨N, hN⟩ := bound_subs
      (P := fun N w => ∀ d c, N ≤ d → clsOf w = some c → ∃ ks, recordIdOf (withDepth D d) none none w = .ok (.tup ks))
      (fun n m w hnm h d c hd => h d c (by omega)) v (fun w hw => by
        cases hc : clsOf w with
        | none => exact ⟨0, fun d c hd h => by simp at h⟩
        | some c =>
          obtain ⟨N, hN⟩ := recordId_runs hs ok hu (declared_sub hv hw)
            (fun d s hsub => ev d s (sub_trans' hsub hw)) hc
          exact ⟨N, fun d c' hd _ => hN d hd⟩)
    obtain ⟨M, hM⟩ := shallow_exists v
    exact ⟨max N M, fun d hd => ⟨⟨hv, ov, fun w c hw hc => hN w hw d c (by omega) hc⟩, shallow_mono (by omega) hM⟩⟩
  obtain ⟨N, hN⟩ := key x hx ex ox
  obtain ⟨M, hM⟩ := key y hy ey oy
  refine ⟨max N M, fun d n hd hn => ?_⟩
  have hs' : PlainRun (withDepth D d) o := ⟨hs.str, hs.marker, hs.mixL, hs.mixD, hs.ord, hs.slots, hs.items, hs.filter, hs.duck⟩
  refine (runs_diffIter (occurs_smooth hs' ok) hs.duck hs.filter n).runs _ _ _ _ ⟨?_, ?_, .inl (by simp), ?_⟩
  · rintro v ⟨⟩
    exact ⟨(hN d (by omega)).1, (hN n (by omega)).2⟩
  · rintro v ⟨⟩
    exact ⟨(hM d (by omega)).1, (hM n (by omega)).2⟩
  · rintro u w ⟨⟩ ⟨⟩
    exact htag

/-- **C120 fails for collections with several types of items**: comparing them always raises. -/
theorem C120_tuple {E F : Type} [DecidableEq E] [DecidableEq F] (H : Hooks E F) (o : Opts) (n : Nat) (c : String)
    (xs : List Val) (y : Val) (k : CollKind) (ts : List Ty) (h : (H.S.cls c).coll = some (k, .tup ts)) :
    (diff H o n (.lcoll c xs) y).exc ≠ none := by
  cases n with
  | zero => simp [diff, diffIter]
  | succ n =>
    intro he
    simp only [diff, diffIter, dispatch, Option.orElse, compareColl, h, exc_append] at he
    simp at he

namespace Ex

/-- Teams of members, who may be leads; groups of items; and pairs of things of two types. -/
def teamClasses : String → Ident.ICls
  | "Team" => { coll := some (.list, .one (.cls "Member")) }
  | "Pair" => { coll := some (.list, .tup [.cls "Member", .cls "Item"]) }
  | "Group" => { coll := some (.list, .one (.cls "Item")) }
  | "Tags" => { coll := some (.list, .one (.other 1)) }
  | "Member" => { props := [{ name := "name" }, { name := "tags", types := [.cls "Tags"] }], pk := [{ name := "name" }] }
  | "Lead" => { props := [{ name := "name" }, { name := "tags", types := [.cls "Tags"] }, { name := "level" }],
                pk := [{ name := "name" }] }
  | "Item" => { props := [{ name := "name" }, { name := "tags", types := [.cls "Tags"] }] }
  | _ => {}

/-- The classes, with builtin equality of values. -/
def teamSchema : Schema where
  cls := teamClasses
  atomEq a b := decide (a = b)
  atomHash _ := some 7
  falsy a := decide (a = .none)
  tupleHash := List.sum
  mixL _ _ _ := .ok false
  mixD _ _ _ := .ok false

/-- The default options. -/
def teamSetup : Setup where
  S := teamSchema
  U := { space := fun c => decide (c = ' '), upper := id, nfc := id }
  text := {}
  repr _ := "?"
  depth := 50

theorem team_run (o : Opts) (h1 : o.compareFilter = none) (h2 : o.duckType = false) : PlainRun teamSetup o :=
  ⟨fun _ => rfl, rfl, fun _ _ _ => by simp [teamSetup, teamSchema], fun _ _ _ => by simp [teamSetup, teamSchema],
    fun _ _ => List.Perm.refl _, fun _ => rfl, fun _ => rfl, h1, h2⟩

/-- A property of one of the classes. -/
theorem teamClasses_props {P : String → IProp → Prop}
    (h : ∀ c ∈ ["Member", "Lead", "Item"], ∀ p ∈ (teamClasses c).props, P c p) : ∀ c, ∀ p ∈ (teamClasses c).props, P c p := by
  intro c p hp
  by_cases hc : c ∈ ["Member", "Lead", "Item"]
  · exact h c hc p hp
  · exfalso
    simp only [List.mem_cons, List.not_mem_nil, or_false, not_or] at hc
    obtain ⟨h1, h2, h3⟩ := hc
    unfold teamClasses at hp
    split at hp <;> simp_all

theorem team_ok : ClassesOk teamSchema where
  names c := by
    show ((teamClasses c).props.map IProp.name).Nodup
    unfold teamClasses
    split <;> decide
  pk c := by
    show ∀ p ∈ (teamClasses c).pk, p ∈ (teamClasses c).props
    unfold teamClasses
    split <;> decide
  unset := by
    refine teamClasses_props (P := fun c p => ∀ a, p.unset = some a → _) ?_
    intro c hc p hp a ha
    have : ∀ c ∈ ["Member", "Lead", "Item"], ∀ p ∈ (teamClasses c).props, p.unset = none := by decide
    rw [this c hc p hp] at ha
    cases ha
  none := rfl

theorem team_types : ∀ c, ∀ p ∈ (teamClasses c).props,
    (p.name = "tags" ∧ p.types = [.cls "Tags"]) ∨ (p.name ≠ "tags" ∧ p.types = []) := by
  refine teamClasses_props ?_
  decide

theorem team_unions : NoRecordUnions teamSchema := by
  intro c p hp
  rcases team_types c p hp with h | h
  · exact .inr ⟨"Tags", h.2⟩
  · exact .inl (by simp [h.2])

/-- A record with a name and tags. -/
def tagged3 (c nm : String) (tags : List Val) : Val := .rcd c [("name", .str nm), ("tags", .lcoll "Tags" tags)]

theorem tagged3_declared (c nm : String) (ts : List String) (hc : (teamClasses c).coll = none) :
    OfDeclared teamSchema (tagged3 c nm (ts.map Val.str)) := by
  have htags : OfDeclared teamSchema (.lcoll "Tags" (ts.map Val.str)) := by
    refine .lcoll (k := .list) (it := .one (.other 1)) rfl ?_ ?_
    · intro x hx
      obtain ⟨t, -, rfl⟩ := List.mem_map.1 hx
      exact .atom rfl
    · intro x hx
      obtain ⟨t, -, rfl⟩ := List.mem_map.1 hx
      exact trivial
  refine .rcd hc ?_ ?_
  · intro x hx
    simp only [List.mem_cons, List.not_mem_nil, or_false] at hx
    rcases hx with rfl | rfl
    · exact .atom rfl
    · exact htags
  · intro p hp v hv
    rcases team_types c p hp with h | h
    · rw [h.1] at hv
      have : v = .lcoll "Tags" (ts.map Val.str) := by simpa [alookup] using hv.symm
      subst this
      exact .inr (.inr ⟨.cls "Tags", by rw [h.2]; simp, Ident.ExtendsClass.refl _⟩)
    · simp only [alookup] at hv
      split at hv
      · cases hv
        exact .inr (.inl ⟨h.2, rfl⟩)
      · split at hv
        · rename_i h3; exact absurd h3.symm h.1
        · cases hv

/-- A team. -/
def team (xs : List Val) : Val := .lcoll "Team" xs

/-- A team, given the classes, names and tags. -/
def teamOf (l : List (String × String × List String)) : Val := team (l.map fun e => tagged3 e.1 e.2.1 (e.2.2.map Val.str))

theorem team_parts {l : List (String × String × List String)} {w : Val} (h : Sub w (teamOf l)) :
    w = teamOf l ∨ (∃ e ∈ l, w = tagged3 e.1 e.2.1 (e.2.2.map Val.str)) ∨ (∃ e ∈ l, w = .lcoll "Tags" (e.2.2.map Val.str)) ∨
      ∃ s, w = .str s := by
  generalize hx : teamOf l = x at h
  cases h with
  | self => exact .inl rfl
  | lcoll hm h =>
    simp only [teamOf, team, Val.lcoll.injEq] at hx
    obtain ⟨-, rfl⟩ := hx
    obtain ⟨e, he, rfl⟩ := List.mem_map.1 hm
    generalize hy : tagged3 e.1 e.2.1 (e.2.2.map Val.str) = y at h
    cases h with
    | self => exact .inr (.inl ⟨e, he, hy.symm⟩)
    | rcd hm h =>
      simp only [tagged3, Val.rcd.injEq] at hy
      obtain ⟨-, rfl⟩ := hy
      simp only [List.mem_cons, Prod.mk.injEq, List.not_mem_nil, or_false] at hm
      rcases hm with ⟨-, rfl⟩ | ⟨-, rfl⟩
      · generalize hz : Val.str _ = z at h
        cases h <;> first | exact .inr (.inr (.inr ⟨_, hz.symm⟩)) | cases hz
      · generalize hz : Val.lcoll "Tags" _ = z at h
        cases h with
        | self => exact .inr (.inr (.inl ⟨e, he, hz.symm⟩))
        | lcoll hm h =>
          simp only [Val.lcoll.injEq] at hz
          obtain ⟨-, rfl⟩ := hz
          obtain ⟨t, -, rfl⟩ := List.mem_map.1 hm
          generalize hz : Val.str _ = z at h
          cases h <;> first | exact .inr (.inr (.inr ⟨_, hz.symm⟩)) | cases hz
        | _ => cases hz
    | _ => cases hy
  | _ => cases hx

theorem team_full (l : List (String × String × List String)) (hl : ∀ e ∈ l, e.2.2 ≠ []) : NoEmptyColls teamSchema (teamOf l) := by
  intro d s hs c hc p hp w hw
  have hw' : Sub w (teamOf l) := sub_trans' (.rcd (alookup_mem' hw) (.self w)) hs
  have hne : w ≠ teamOf l := by
    rintro rfl
    rcases team_parts hs with h | ⟨e, he, h⟩ | ⟨e, he, h⟩ | ⟨t, h⟩
    · cases h
    · simp only [tagged3, Val.rcd.injEq] at h
      obtain ⟨-, rfl⟩ := h
      have := alookup_mem' hw
      simp [teamOf, team, Val.str] at this
    · cases h
    · cases h
  rcases team_parts hw' with h | ⟨e, he, h⟩ | ⟨e, he, h⟩ | ⟨t, h⟩
  · exact absurd h hne
  · subst h
    simp [Spec.EmptyColl, tagged3]
  · subst h
    simp [Spec.EmptyColl, hl e he]
  · subst h
    simp [Spec.EmptyColl, Val.str]

theorem team_one (l : List (String × String × List String)) (hl : ∀ e ∈ l, e.1 = "Member") : SingleItems teamSchema (teamOf l) := by
  intro w c xs hw hc hxs
  rcases team_parts hw with h | ⟨e, he, h⟩ | ⟨e, he, h⟩ | ⟨t, h⟩
  · subst h
    cases hc
    refine ⟨.list, .cls "Member", rfl, ?_⟩
    rintro n ⟨⟩ k u hu
    simp only [teamOf, team, tuplesOf, Except.ok.injEq] at hxs
    subst hxs
    obtain ⟨e, he, rfl⟩ := List.mem_map.1 (enum_mem_list hu)
    simp [tagged3, clsOf, hl e he]
  · subst h
    simp [tagged3, tuplesOf] at hxs
  · subst h
    cases hc
    exact ⟨.list, .other 1, rfl, fun n hn => by cases hn⟩
  · subst h
    simp [Val.str, tuplesOf] at hxs

theorem lead_extends : Spec.ExtendsClass teamSchema "Lead" "Member" := by
  refine ⟨?_, rfl⟩
  show ∀ p ∈ (teamClasses "Member").props, p ∈ (teamClasses "Lead").props
  decide

end Ex

/-- **C120 does not hold**: a group of items, one of which has an empty list of tags, cannot be compared. -/
theorem C120_violated : ¬ C120_statement := by
  intro h
  have hd : OfDeclared Ex.teamSchema (.lcoll "Group" [Ex.tagged3 "Item" "a" []]) := by
    refine .lcoll (k := .list) (it := .one (.cls "Item")) rfl ?_ ?_
    · intro x hx
      simp only [List.mem_singleton] at hx
      subst hx
      exact Ex.tagged3_declared "Item" "a" [] rfl
    · intro x hx
      simp only [List.mem_singleton] at hx
      subst hx
      exact Ident.ExtendsClass.refl _
  obtain ⟨N, hN⟩ := h Ex.teamSetup {} _ _ (Ex.team_run {} rfl rfl) Ex.team_ok hd hd rfl
  refine Props.C101_diff (withDepth Ex.teamSetup N) {} N "Group" "Item" "Tags" "Item" [Ex.tagged3 "Item" "a" []] _
    (.lcoll "Tags" []) _ { name := "tags", types := [.cls "Tags"] } ⟨.list, rfl⟩ rfl ?_ rfl (by simp [withDepth, Ex.teamSetup, Ex.teamSchema, Ex.teamClasses]) rfl ?_ (.inl ⟨_, rfl⟩)
    (List.mem_singleton.2 rfl) rfl rfl rfl rfl (hN N N (Nat.le_refl N) (Nat.le_refl N))
  · simp [Ident.Identifies, withDepth, Ex.teamSetup, Ex.teamSchema, Ex.teamClasses]
  · simp [alookup]

/-- **C120 fails for items of classes that extend the item type**: two teams raise if they have members of the same
identity but different classes. -/
theorem C120_mixed {E F : Type} [DecidableEq E] [DecidableEq F] (H : Hooks E F) (o : Opts) (n : Nat) (c m : String) (u w : Val)
    (k : CollKind) (ks : List E) (ho : OrdOK H) (h : (H.S.cls c).coll = some (k, .one (.cls m)))
    (hf : o.compareFilter = none) (hd : o.duckType = false) (hr : o.recurse = false) (hi : o.ignoreEmptyItems = false)
    (hu : H.recId none none u = .ok (.tup ks)) (hw : H.recId none none w = .ok (.tup ks))
    (cu : clsOf u ≠ none) (hne : tagOf u ≠ tagOf w) :
    (diff H o n (.lcoll c [u]) (.lcoll c [w])).exc ≠ none := by
  have hbag : ∀ v, H.recId none none v = .ok (.tup ks) →
      collBag H o none (.fixed none) [] (some (.lcoll c [v])) = .ok [((.tup ks, 0), .int 0)] := by
    intro v hv
    simp [collBag, tuplesOf, Ident.enum, IdArgs.looksAt, mapE, IdArgs.selector, hv, Except.map, hi, number]
  cases n with
  | zero => simp [diff, diffIter]
  | succ n =>
    intro he
    simp only [diff, diffIter, dispatch, Option.orElse, compareColl, h, exc_append, compareRecords, idArgs_none hf,
      idType_none hd, bindE_ok, hbag u hu, hbag w hw, exc_when] at he
    have he := he.1 rfl
    simp only [compareMembers, hr, Bool.false_eq_true, if_false, Option.isNone_some, Bool.or_self, compareIds, exc_append,
      exc_when] at he
    have he := he.1 (by simp [compareValues, Id.isTup])
    rw [exc_forEach] at he
    have he := he (.int 0, .int 0) (ho.mem.2 (by simp [common, commonEnt, alookup]))
    simp only [descend, itemAt, getItem, getIdx, pyIndex] at he
    simp at he
    cases n with
    | zero => simp [diffIter] at he
    | succ n =>
      have hclash : typeClash o (some u) (some w) = true := by simp [typeClash, hd, hne]
      simp only [diffIter, dispatch, Option.orElse] at he
      cases u with
      | rcd d s => simp [compareRecord, hclash] at he
      | lcoll d xs => simp [compareRecord, hclash, exc_append] at he
      | dcoll d xs => simp [compareRecord, hclash, exc_append] at he
      | _ => simp [clsOf] at cu

/-- The identity of a member or lead is the name. -/
theorem Ex.name_id (c nm : String) (ts : List Val) (N : Nat) (hc : (Ex.teamClasses c).coll = none)
    (hpk : (Ex.teamClasses c).pk = [{ name := "name" }]) :
    ∃ k, recordIdOf (withDepth Ex.teamSetup (N + 3)) none none (Ex.tagged3 c nm ts) = .ok (.tup [k]) ∧
      k = .raw (.str (String.ofList (normalizeText Ex.teamSetup.U {} nm.toList))) := by
  refine ⟨_, ?_, rfl⟩
  simp [recordIdOf, withDepth, Ex.teamSetup, Ex.teamSchema, Ex.tagged3, Ident.typeOf, Ident.rid, hc, Ident.idProps, Ident.pkCols,
    hpk, Ident.passes, mapE, Ident.slotKey, Ident.runHook, slotHook, normalizeObjectSlot, readAttr, alookup, normalizeVal,
    scrub, Val.str, Ident.asTuple, Ident.khash, idOfKey]

/-- **C120 does not hold**, also with members in every collection and without unions: a team with a lead is compared with
a team that has a member of the same name. -/
theorem C120_mixed_violated : ¬ ∀ (D : Setup) (o : Opts) (x y : Val), PlainRun D o → ClassesOk D.S → NoRecordUnions D.S →
    OfDeclared D.S x → OfDeclared D.S y → NoEmptyColls D.S x → NoEmptyColls D.S y → tagOf x = tagOf y → RunsToEnd D o x y := by
  intro h
  have hd : ∀ c, c = "Member" ∨ c = "Lead" → OfDeclared Ex.teamSchema (Ex.team [Ex.tagged3 c "a" [.str "x"]]) := by
    intro c hc
    refine .lcoll (k := .list) (it := .one (.cls "Member")) rfl ?_ ?_
    · intro x hx
      simp only [List.mem_singleton] at hx
      subst hx
      rcases hc with rfl | rfl
      · exact Ex.tagged3_declared "Member" "a" ["x"] rfl
      · exact Ex.tagged3_declared "Lead" "a" ["x"] rfl
    · intro x hx
      simp only [List.mem_singleton] at hx
      subst hx
      rcases hc with rfl | rfl
      · exact Ident.ExtendsClass.refl _
      · exact Ex.lead_extends
  have he : ∀ c, NoEmptyColls Ex.teamSchema (Ex.team [Ex.tagged3 c "a" [.str "x"]]) := fun c => Ex.team_full [(c, "a", ["x"])] (by simp)
  obtain ⟨N, hN⟩ := h Ex.teamSetup {} _ _ (Ex.team_run {} rfl rfl) Ex.team_ok Ex.team_unions (hd "Member" (.inl rfl))
    (hd "Lead" (.inr rfl)) (he _) (he _) rfl
  obtain ⟨k, h1, rfl⟩ := Ex.name_id "Member" "a" [.str "x"] N rfl rfl
  obtain ⟨k, h2, rfl⟩ := Ex.name_id "Lead" "a" [.str "x"] N rfl rfl
  exact C120_mixed (withDepth Ex.teamSetup (N + 3)).hooks {} (N + 3) "Team" "Member" _ _ .list _ (fun _ _ => List.Perm.refl _)
    rfl rfl rfl rfl rfl h1 h2 (by simp [Ex.tagged3, clsOf]) (by simp [Ex.tagged3, tagOf]) (hN (N + 3) (N + 3) (by omega) (by omega))

/-- The hypotheses of `C120_partial` can be met: two teams with different members. -/
example : RunsToEnd Ex.teamSetup { moved := true } (Ex.teamOf [("Member", "a", ["x", "y"]), ("Member", "b", ["z"])])
    (Ex.teamOf [("Member", "b", ["x"]), ("Member", "c", ["z"]), ("Member", "a", ["x", "y"])]) := by
  have hd : ∀ l : List (String × String × List String), (∀ e ∈ l, e.1 = "Member" ∧ e.2.2 ≠ []) →
      OfDeclared Ex.teamSchema (Ex.teamOf l) ∧ NoEmptyColls Ex.teamSchema (Ex.teamOf l) ∧ SingleItems Ex.teamSchema (Ex.teamOf l) := by
    intro l hl
    refine ⟨?_, Ex.team_full l fun e he => (hl e he).2, Ex.team_one l fun e he => (hl e he).1⟩
    refine .lcoll (k := .list) (it := .one (.cls "Member")) rfl ?_ ?_
    · intro x hx
      obtain ⟨e, he, rfl⟩ := List.mem_map.1 hx
      exact Ex.tagged3_declared _ _ _ (by rw [(hl e he).1]; rfl)
    · intro x hx
      obtain ⟨e, he, rfl⟩ := List.mem_map.1 hx
      rw [(hl e he).1]
      exact Ident.ExtendsClass.refl _
  obtain ⟨h1, h2, h3⟩ := hd [("Member", "a", ["x", "y"]), ("Member", "b", ["z"])] (by simp)
  obtain ⟨g1, g2, g3⟩ := hd [("Member", "b", ["x"]), ("Member", "c", ["z"]), ("Member", "a", ["x", "y"])] (by simp)
  exact C120_partial _ _ _ _ (Ex.team_run _ rfl rfl) Ex.team_ok Ex.team_unions h1 g1 h2 g2 h3 g3 rfl

end Normalize.Diff
