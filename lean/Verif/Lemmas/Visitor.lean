import Verif.Spec.Visitor
import Verif.Props.DiffFilter
import Verif.Lemmas.JsonBack

/-!
# Lemmas about visits
-/

namespace Normalize.Visit
open Ident (IProp Ty ItemTy CollKind)
open Json (Setup Mk)
open Spec (Leaf Chosen Kept NoSlot Holds Present Numbered MembersOf Emits Packs IsOf Shows ShowsSlot Visited Names)

variable {J : Setup} {o : Opts} {H : Hooks} {self : IProp → Val}

/-- What the filter of the options means: it was built from these selectors. -/
inductive FilterIs (ord : List MArg → List MArg) (o : Opts) : Option (List FS) → Prop
  | all : o.filter = none → FilterIs ord o none
  | some {h qs} : o.filter = some h → Built ord h qs → qs ≠ [] → FilterIs ord o (some qs)

theorem chosen_iff {ord : List MArg → List MArg} (hord : Mfs.OrdOK ord) {sel : Option (List FS)}
    (hf : FilterIs ord o sel) (path : FS) (p : IProp) : isFiltered o path p = false ↔ Chosen o sel path p := by
  unfold isFiltered Chosen
  cases hf with
  | all h =>
    have : o.active = none := by simp [Opts.active, h]
    rw [this]
    cases o.extraneous <;> cases p.extraneous <;> simp
  | @some h qs h1 h2 h3 =>
    obtain ⟨w, hcov, he⟩ := built_sound hord h2
    have hne : h ≠ [] := fun e => h3 (he.1 e)
    have : o.active = Option.some h := by
      unfold Opts.active
      rw [h1]
      cases h with
      | nil => exact absurd rfl hne
      | cons _ _ => rfl
    rw [this]
    have hs := Diff.selects_iff hord h2 h3 (path ++ [.str p.name])
    cases hx : Diff.selects h (path ++ [.str p.name]) with
    | true =>
      have := hs.1 hx
      cases o.extraneous <;> cases p.extraneous <;> simp [this, hx]
    | false =>
      have : ¬ Spec.Touches qs (path ++ [.str p.name]) := fun c => by rw [hs.2 c] at hx; cases hx
      cases o.extraneous <;> cases p.extraneous <;> simp [this, hx]

theorem keep_iff {v w : Val} : keep o v = some w ↔ Kept o v ∧ w = v := by
  unfold keep Kept
  by_cases h1 : v = .none ∧ o.ignoreNone = true
  · simp [h1]
  · by_cases h2 : v = .str "" ∧ o.ignoreEmpty = true
    · simp [h2]
    · simp only [h1, h2, if_false, not_false_iff, true_and, Option.some.injEq]
      exact eq_comm

theorem keep_eq (v : Val) : keep o v = if Kept o v then some v else none := by
  split
  · rename_i h; exact keep_iff.2 ⟨h, rfl⟩
  · rename_i h
    cases hk : keep o v with
    | none => rfl
    | some w => exact absurd (keep_iff.1 hk).1 h

theorem pop_push (cue : FS) (k : Comp) : pop (push cue k) k = .ok cue := by simp [pop, push]

theorem wanted_iff {s : Slot} : wanted o s = true ↔ Present o s := by cases s <;> simp [wanted, Present]

theorem readSlot_holds (x : Slot) (p : IProp) :
    (∀ v, readSlot self x p = .ok v → Holds self x p (.val v)) ∧
    (∀ e, readSlot self x p = .error e → e = .attributeError ∧ Holds self x p (.miss .attributeError)) := by
  have key : ∀ x, NoSlot x p → (readSlot self x p = (match p.unset with
      | some a => .ok (.atom a) | none => .error .attributeError)) →
      (∀ v, readSlot self x p = .ok v → Holds self x p (.val v)) ∧
      (∀ e, readSlot self x p = .error e → e = .attributeError ∧ Holds self x p (.miss .attributeError)) := by
    intro x hx h
    rw [h]
    cases hu : p.unset with
    | none => exact ⟨fun v hv => (by cases hv), fun e he => (by cases he; exact ⟨rfl, .unset hx hu⟩)⟩
    | some a => exact ⟨fun v hv => (by cases hv; exact .v1 hx hu), fun e he => (by cases he)⟩
  cases x with
  | miss e => exact key _ ⟨by simp, by simp⟩ rfl
  | val v =>
    cases v with
    | atom a =>
      cases a with
      | none => exact ⟨fun v hv => (by cases hv; exact .none), fun e he => (by cases he)⟩
      | _ => exact key _ ⟨by simp [Val.none], by simp⟩ rfl
    | rcd c s =>
      cases hs : alookup s p.name with
      | some v =>
        have : readSlot self (.val (.rcd c s)) p = .ok v := by simp [readSlot, hs]
        rw [this]
        exact ⟨fun w hw => (by cases hw; exact .set hs), fun e he => (by cases he)⟩
      | none =>
        refine key _ ⟨by simp [Val.none], ?_⟩ ?_
        · intro c' s' v h; cases h; simp [hs]
        · simp only [readSlot, hs]; cases p.unset <;> rfl
    | _ => exact key _ ⟨by simp [Val.none], by simp⟩ rfl

theorem enum_numbered (xs : List Val) : Numbered xs (Ident.enum xs) := by
  intro i
  simp [Ident.enum, List.getElem?_map, List.getElem?_zipIdx]
  cases xs[i]? <;> rfl

theorem unpackColl_members {k : CollKind} {x : Slot} {xs : List (Comp × Val)} (h : unpackColl k x = .ok xs) :
    MembersOf k x xs := by
  cases x with
  | miss e => cases k <;> simp [unpackColl] at h
  | val v =>
    cases v <;> cases k <;> simp [unpackColl] at h <;> subst h
    · exact .list (enum_numbered _)
    · exact .dict
    · exact .lcoll (enum_numbered _)
    · exact .lcoll (enum_numbered _)
    · exact .dcoll
    · exact .dcoll

/-- The slot that `fetch` finds. -/
theorem fetch_holds {x s : Slot} {cue : FS} {p : IProp} (h : fetch (readSlot self x) cue p = .ok s) :
    Holds self x p s := by
  unfold fetch at h
  cases hr : readSlot self x p with
  | ok v => rw [hr] at h; cases h; exact (readSlot_holds x p).1 v hr
  | error e =>
    obtain ⟨rfl, hh⟩ := (readSlot_holds (self := self) x p).2 e hr
    rw [hr] at h
    simp [Exc.isAttribute] at h
    rw [← h]; exact hh

theorem fetch_total (x : Slot) (cue : FS) (p : IProp) : ∃ s, fetch (readSlot self x) cue p = .ok s := by
  unfold fetch
  cases hr : readSlot self x p with
  | ok v => exact ⟨_, rfl⟩
  | error e =>
    obtain ⟨rfl, hh⟩ := (readSlot_holds (self := self) x p).2 e hr
    exact ⟨.miss .attributeError, by simp [Exc.isAttribute]⟩

/-- What a slot is mapped to, or `None`. -/
def valOf : Except VErr Val → Val
  | .ok v => v
  | .error _ => .none

/-- The slot that is found, or an empty one. -/
def slotOf : Except VErr Slot → Slot
  | .ok s => s
  | .error _ => .miss .attributeError

theorem mapSlot_cue {go : Go} {get : IProp → Except Exc Val} {cue cue' : FS} {p : IProp} {r : Option Val}
    (h : mapSlot J H o go get cue p = .ok (r, cue')) : cue' = cue := by
  unfold mapSlot at h
  simp only [pop_push] at h
  split at h
  · cases h; rfl
  · split at h
    · cases h
    · split at h
      · split at h
        · cases h
        · cases h; rfl
      · cases h; rfl

/-- One round of `map_record`. -/
theorem mapSlot_ok {go : Go} {get : IProp → Except Exc Val} {cue cue' : FS} {p : IProp} {r : Option Val}
    (h : mapSlot J H o go get cue p = .ok (r, cue')) :
    (isFiltered o cue p = true ∧ r = none) ∨
    (isFiltered o cue p = false ∧ ∃ s, fetch get (push cue (.str p.name)) p = .ok s ∧
      ((wanted o s = false ∧ r = none) ∨
       (wanted o s = true ∧ ∃ v, mapProp J H go s p (push cue (.str p.name)) = .ok v ∧ r = keep o v))) := by
  unfold mapSlot at h
  simp only [pop_push] at h
  split at h
  · rename_i hf; cases h; exact .inl ⟨hf, rfl⟩
  · rename_i hf
    refine .inr ⟨by simpa using hf, ?_⟩
    split at h
    · cases h
    · rename_i s hs
      refine ⟨s, hs, ?_⟩
      split at h
      · rename_i hw
        split at h
        · cases h
        · rename_i v hv
          cases h
          exact .inr ⟨hw, v, hv, rfl⟩
      · rename_i hw; cases h; exact .inl ⟨by simpa using hw, rfl⟩

theorem alookup_addKept {p q : IProp} {r : Option Val} {l : List (IProp × Val)} :
    alookup (asDict (named (addKept p r l))) (.str q.name) =
      if p.name = q.name then r.or (alookup (asDict (named l)) (.str q.name))
      else alookup (asDict (named l)) (.str q.name) := by
  cases r with
  | none => simp [addKept]
  | some v => by_cases h : p.name = q.name <;> simp [addKept, asDict, named, alookup, h]

/-- The results of `map_record`. -/
theorem mapRecord_ok {go : Go} {get : IProp → Except Exc Val} {cue : FS} : ∀ (ps : List IProp) (l : List (IProp × Val)),
    mapRecord J H o go get ps cue = .ok l → (ps.map (·.name)).Nodup →
    (∀ x ∈ l, x.1 ∈ ps) ∧
    ∀ p ∈ ps, (isFiltered o cue p = true → alookup (asDict (named l)) (.str p.name) = none) ∧
      (isFiltered o cue p = false → ∃ s, fetch get (push cue (.str p.name)) p = .ok s ∧
        (wanted o s = false → alookup (asDict (named l)) (.str p.name) = none) ∧
        (wanted o s = true → ∃ v, mapProp J H go s p (push cue (.str p.name)) = .ok v ∧
          alookup (asDict (named l)) (.str p.name) = keep o v))
  | [], l, h, _ => by cases h; simp
  | p :: ps, l, h, hn => by
    unfold mapRecord at h
    split at h
    · cases h
    · rename_i r cue' hs
      have hc := mapSlot_cue hs
      subst hc
      split at h
      · cases h
      · rename_i l' hl
        cases h
        simp only [List.map_cons, List.nodup_cons, List.mem_map, not_exists, not_and] at hn
        obtain ⟨ih1, ih2⟩ := mapRecord_ok ps l' hl hn.2
        have hno : alookup (asDict (named l')) (.str p.name) = none := by
          rw [Json.alookup_none_iff]
          simp only [asDict, named, List.map_map, List.mem_map, Function.comp_apply, not_exists, not_and]
          intro x hx he
          simp at he
          exact hn.1 x.1 (ih1 x hx) he
        refine ⟨?_, ?_⟩
        · intro x hx
          cases r with
          | none => exact List.mem_cons_of_mem _ (ih1 x hx)
          | some v =>
            simp only [addKept, List.mem_cons] at hx
            rcases hx with rfl | hx
            · exact List.mem_cons_self
            · exact List.mem_cons_of_mem _ (ih1 x hx)
        · intro q hq
          rw [List.mem_cons] at hq
          rcases hq with rfl | hq
          · rw [alookup_addKept, if_pos rfl, hno]
            rw [Option.or_none]
            rcases mapSlot_ok hs with ⟨h1, h2⟩ | ⟨h1, s, h2, h3⟩
            · subst h2
              exact ⟨fun _ => rfl, fun hf => by rw [h1] at hf; cases hf⟩
            · refine ⟨fun hf => (by rw [h1] at hf; cases hf), fun _ => ⟨s, h2, ?_, ?_⟩⟩
              · intro hw
                rcases h3 with ⟨_, h4⟩ | ⟨h4, _⟩
                · exact h4
                · rw [hw] at h4; cases h4
              · intro hw
                rcases h3 with ⟨h4, _⟩ | ⟨_, v, h4, h5⟩
                · rw [hw] at h4; cases h4
                · exact ⟨v, h4, h5⟩
          · have hne : p.name ≠ q.name := fun e => hn.1 q hq e.symm
            rw [alookup_addKept, if_neg hne]
            exact ih2 q hq

/-- The results of `map_collection`. -/
theorem mapColl_ok {go : Go} {t : Ty} {cue : FS} : ∀ (xs l : List (Comp × Val)), mapColl J o go t xs cue = .ok l →
    (∀ y ∈ xs, ∃ it w, itemType J t = .ok it ∧ go (.val y.2) it (cue ++ [y.1]) = .ok w) ∧
    ∀ it, itemType J t = .ok it → l = (xs.map (fun y => (y.1, valOf (go (.val y.2) it (cue ++ [y.1]))))).filter
      (fun y => decide (Kept o y.2))
  | [], l, h => by cases h; simp
  | (k, v) :: xs, l, h => by
    unfold mapColl at h
    split at h
    · cases h
    · rename_i it hit
      split at h
      · cases h
      · rename_i m hm
        rw [pop_push] at h
        simp only at h
        split at h
        · cases h
        · rename_i l' hl
          cases h
          obtain ⟨ih1, ih2⟩ := mapColl_ok xs l' hl
          refine ⟨?_, ?_⟩
          · intro y hy
            rw [List.mem_cons] at hy
            rcases hy with rfl | hy
            · exact ⟨it, m, hit, hm⟩
            · exact ih1 y hy
          · intro it' hit'
            rw [hit] at hit'
            cases hit'
            rw [ih2 it hit]
            have : go (.val v) it (cue ++ [k]) = .ok m := hm
            rw [List.map_cons, this, List.filter_cons]
            simp only [valOf, keep_eq]
            by_cases hk : Kept o m <;> simp [hk, addKept]

end Normalize.Visit
