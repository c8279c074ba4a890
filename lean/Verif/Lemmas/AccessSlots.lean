import Verif.Lemmas.Access
import Verif.Model.Property

/-!
# The attributes of `Env` are the properties of `Verif.Model.Property`

`Attr.ofProp` turns a declared property into what selectors see of it; reading, assigning and deleting through
a selector step is then `getattr`, `setattr` and `delattr` of the property model.
-/

namespace Normalize

open Slots

/-- A class with the one property. -/
def onlyCls (p : PropDef Val) : Cls Val := ⟨[("", p)]⟩

/-- A record with the one slot. -/
def onlyState (old : Option Val) : State Val := ⟨fun nm => if nm = "" then old else none, []⟩

/-- A declared property as selectors see it (property/__init__.py:280-287, 380-386, 408-420, 458-471). -/
def Attr.ofProp (w : World Val) (p : PropDef Val) (v1none : Atom)
    (make : Option (Option (String × Val) → Except Exc Val)) : Attr where
  assign old v :=
    match Slots.setAttr w (onlyCls p) (onlyState old) "" v with
    | (.ok _, st) => .ok (st.slots "")
    | (.error e, _) => .error e
  remove old :=
    match Slots.delAttr w (onlyCls p) (onlyState old) "" with
    | (.ok _, _) => .ok ()
    | (.error e, _) => .error e
  unset := if p.kind = .v1 then some v1none else none
  make := make

theorem setAttr_only (w : World Val) (c : Cls Val) (st : State Val) (nm : String) (p : PropDef Val)
    (hp : c.find nm = some p) (v : Val) :
    (∃ e, Slots.setAttr w (onlyCls p) (onlyState (st.slots nm)) "" v = (.error e, onlyState (st.slots nm)) ∧
      Slots.setAttr w c st nm v = (.error e, st)) ∨
    (∃ r s st0 st1, Slots.setAttr w (onlyCls p) (onlyState (st.slots nm)) "" v = (.ok r, st0) ∧
      Slots.setAttr w c st nm v = (.ok r, st1) ∧ st0.slots "" = s ∧
      ∀ n, st1.slots n = if n = nm then s else st.slots n) := by
  have hf : (onlyCls p).find "" = some p := by simp [onlyCls, Cls.find]
  have put : ∀ u r, ∃ r' s st0 st1, ((.ok r : Except Exc Val), (onlyState (st.slots nm)).put "" u) = (.ok r', st0) ∧
      ((.ok r : Except Exc Val), st.put nm u) = (.ok r', st1) ∧ st0.slots "" = s ∧
      ∀ n, st1.slots n = if n = nm then s else st.slots n := fun u r =>
    ⟨r, some u, _, _, rfl, rfl, by simp [State.put], fun n => by simp [State.put]⟩
  have hdel : (∃ e, safeDelete w p (onlyState (st.slots nm)) "" = (.error e, onlyState (st.slots nm)) ∧
      safeDelete w p st nm = (.error e, st)) ∨
      (∃ r s st0 st1, safeDelete w p (onlyState (st.slots nm)) "" = (.ok r, st0) ∧
      safeDelete w p st nm = (.ok r, st1) ∧ st0.slots "" = s ∧
      ∀ n, st1.slots n = if n = nm then s else st.slots n) := by
    unfold safeDelete
    cases p.required
    · cases hs : st.slots nm with
      | none => left; exact ⟨.keyError, by simp [onlyState], by simp⟩
      | some u =>
        right
        exact ⟨w.none, none, (onlyState (some u)).drop "", st.drop nm, by simp [onlyState], by simp,
          by simp [State.drop], fun n => by simp [State.drop]⟩
    · left; exact ⟨_, rfl, rfl⟩
  unfold Slots.setAttr
  simp only [hp, hf]
  cases p.kind <;> simp only [safeSet]
  · right; exact put v w.none
  · right; exact put v w.none
  · left; exact ⟨_, rfl, rfl⟩
  · left; exact ⟨_, rfl, rfl⟩
  · cases typeSafe w p v false with
    | error e => left; exact ⟨e, rfl, rfl⟩
    | ok u => right; exact put u w.none
  · cases typeSafe w p v false with
    | error e => left; exact ⟨e, rfl, rfl⟩
    | ok u => right; exact put u w.none
  · cases typeSafe w p v false with
    | error e =>
      simp only
      split
      · split
        · exact hdel
        · left; exact ⟨e, rfl, rfl⟩
      · left; exact ⟨e, rfl, rfl⟩
    | ok u => right; exact put u w.none

/-- Assigning through a selector is assigning to the property. -/
theorem access_set_is_slots (w : World Val) (c : Cls Val) (E : Env) (cls : String) (a1 : String → Atom)
    (mk : String → Option (Option (String × Val) → Except Exc Val))
    (hE : ∀ nm, E.attr cls nm = (c.find nm).map (fun p => Attr.ofProp w p (a1 nm) (mk nm)))
    (sl : List (String × Val)) (st : State Val) (hst : ∀ n, st.slots n = alookup sl n) (nm : String) (v : Val) :
    (∃ e, setAttr E (.rcd cls sl) (.str nm) v = (.error e, .rcd cls sl) ∧
      Slots.setAttr w c st nm v = (.error e, st)) ∨
    (∃ r sl' st', setAttr E (.rcd cls sl) (.str nm) v = (.ok (), .rcd cls sl') ∧
      Slots.setAttr w c st nm v = (.ok r, st') ∧ ∀ n, st'.slots n = alookup sl' n) := by
  cases hf : c.find nm with
  | none =>
    right
    refine ⟨w.none, aset sl nm v, _, by simp [setAttr, hE, hf], by simp [Slots.setAttr, hf]; rfl, ?_⟩
    intro n
    simp only [State.put, alookup_aset, hst, eq_comm]
  | some p =>
    have ha : E.attr cls nm = some (Attr.ofProp w p (a1 nm) (mk nm)) := by simp [hE, hf]
    rcases setAttr_only w c st nm p hf v with ⟨e, h1, h2⟩ | ⟨r, s, st0, st1, h1, h2, h3, h4⟩
    · left
      refine ⟨e, ?_, h2⟩
      simp only [setAttr, ha, Attr.ofProp, ← hst, h1]
    · right
      refine ⟨r, setSlot sl nm s, st1, ?_, h2, ?_⟩
      · simp only [setAttr, ha, Attr.ofProp, ← hst, h1, h3]
      · intro n
        simp only [h4, alookup_setSlot, hst, eq_comm]

/-- Deleting a readable attribute through a selector is deleting the property. -/
theorem access_del_is_slots (w : World Val) (c : Cls Val) (E : Env) (cls : String) (a1 : String → Atom)
    (mk : String → Option (Option (String × Val) → Except Exc Val))
    (hE : ∀ nm, E.attr cls nm = (c.find nm).map (fun p => Attr.ofProp w p (a1 nm) (mk nm)))
    (sl : List (String × Val)) (st : State Val) (hst : ∀ n, st.slots n = alookup sl n) (nm : String)
    (hread : ∃ v, getAttr E (.rcd cls sl) (.str nm) = .ok v) :
    (∃ e, delAttr E (.rcd cls sl) nm = (.error e, .rcd cls sl) ∧
      Slots.delAttr w c st nm = (.error e, st)) ∨
    (∃ r sl' st', delAttr E (.rcd cls sl) nm = (.ok (), .rcd cls sl') ∧
      Slots.delAttr w c st nm = (.ok r, st') ∧ ∀ n, st'.slots n = alookup sl' n) := by
  have key : ∀ (p : PropDef Val), c.find nm = some p →
      (∃ e, Slots.delAttr w (onlyCls p) (onlyState (st.slots nm)) "" = (.error e, onlyState (st.slots nm)) ∧
        Slots.delAttr w c st nm = (.error e, st)) ∨
      (∃ r st0 st1, Slots.delAttr w (onlyCls p) (onlyState (st.slots nm)) "" = (.ok r, st0) ∧
        Slots.delAttr w c st nm = (.ok r, st1) ∧
        ∀ n, st1.slots n = if n = nm then none else st.slots n) := by
    intro p hp
    have hf : (onlyCls p).find "" = some p := by simp [onlyCls, Cls.find]
    have plain : (∃ e, plainDelete w (onlyState (st.slots nm)) "" = (.error e, onlyState (st.slots nm)) ∧
        plainDelete w st nm = (.error e, st)) ∨
        (∃ r st0 st1, plainDelete w (onlyState (st.slots nm)) "" = (.ok r, st0) ∧
        plainDelete w st nm = (.ok r, st1) ∧ ∀ n, st1.slots n = if n = nm then none else st.slots n) := by
      unfold plainDelete
      cases hs : st.slots nm with
      | none => left; exact ⟨.attributeError, by simp [onlyState], by simp⟩
      | some u => right; exact ⟨w.none, (onlyState (some u)).drop "", st.drop nm, by simp [onlyState], by simp,
          fun n => by simp [State.drop]⟩
    have safe : (∃ e, safeDelete w p (onlyState (st.slots nm)) "" = (.error e, onlyState (st.slots nm)) ∧
        safeDelete w p st nm = (.error e, st)) ∨
        (∃ r st0 st1, safeDelete w p (onlyState (st.slots nm)) "" = (.ok r, st0) ∧
        safeDelete w p st nm = (.ok r, st1) ∧ ∀ n, st1.slots n = if n = nm then none else st.slots n) := by
      unfold safeDelete
      cases p.required
      · cases hs : st.slots nm with
        | none => left; exact ⟨.keyError, by simp [onlyState], by simp⟩
        | some u => right; exact ⟨w.none, (onlyState (some u)).drop "", st.drop nm, by simp [onlyState], by simp,
          fun n => by simp [State.drop]⟩
      · left; exact ⟨_, rfl, rfl⟩
    unfold Slots.delAttr
    simp only [hp, hf]
    cases p.kind <;> simp only
    · exact plain
    · exact plain
    · left; exact ⟨_, rfl, rfl⟩
    · left; exact ⟨_, rfl, rfl⟩
    · exact safe
    · exact safe
    · exact safe
  cases hf : c.find nm with
  | none =>
    have ha : E.attr cls nm = none := by simp [hE, hf]
    obtain ⟨v, hv⟩ := hread
    have hs : alookup sl nm = some v := by
      simp only [getAttr, ha] at hv
      cases h : alookup sl nm <;> simp [h] at hv
      rw [hv]
    right
    refine ⟨w.none, aerase sl nm, _, by simp [delAttr, ha],
      by simp [Slots.delAttr, hf, plainDelete, hst, hs]; rfl, ?_⟩
    intro n
    simp only [State.drop, alookup_aerase, hst, eq_comm]
  | some p =>
    have ha : E.attr cls nm = some (Attr.ofProp w p (a1 nm) (mk nm)) := by simp [hE, hf]
    rcases key p hf with ⟨e, h1, h2⟩ | ⟨r, st0, st1, h1, h2, h4⟩
    · left; refine ⟨e, ?_, h2⟩; simp only [delAttr, ha, Attr.ofProp, ← hst, h1]
    · right
      refine ⟨r, aerase sl nm, st1, by simp only [delAttr, ha, Attr.ofProp, ← hst, h1], h2, ?_⟩
      intro n
      simp only [h4, alookup_aerase, hst, eq_comm]

/-- Reading through a selector is reading the property, for properties that are not lazy (or have been read). -/
theorem access_get_is_slots (w : World Val) (c : Cls Val) (E : Env) (cls : String) (a1 : String → Atom)
    (mk : String → Option (Option (String × Val) → Except Exc Val))
    (hE : ∀ nm, E.attr cls nm = (c.find nm).map (fun p => Attr.ofProp w p (a1 nm) (mk nm)))
    (h1 : ∀ nm p, c.find nm = some p → p.v1none.getD w.none = .atom (a1 nm))
    (ex : State Val → Op Val → Res Val Val)
    (sl : List (String × Val)) (st : State Val) (hst : ∀ n, st.slots n = alookup sl n) (nm : String)
    (hlazy : ∀ p, c.find nm = some p → p.kind.isLazy = true → ∃ v, alookup sl nm = some v) :
    Slots.getAttr w c ex st nm = some (getAttr E (.rcd cls sl) (.str nm), st) := by
  simp only [Slots.getAttr, getAttr, hst]
  cases hs : alookup sl nm with
  | some v => rfl
  | none =>
    cases hf : c.find nm with
    | none => simp [hE, hf]
    | some p =>
      have ha : E.attr cls nm = some (Attr.ofProp w p (a1 nm) (mk nm)) := by simp [hE, hf]
      have hl : p.kind.isLazy = false := by
        cases h : p.kind.isLazy with
        | false => rfl
        | true => obtain ⟨v, hv⟩ := hlazy p hf h; rw [hs] at hv; simp at hv
      have hv1 := h1 nm p hf
      simp only [ha, hl, Attr.ofProp, Option.bind_some, Bool.false_eq_true, if_false]
      cases hk : p.kind
      case v1 =>
        cases hv : p.v1none with
        | none => simp [hv] at hv1; simp [hv1]
        | some u => simp [hv] at hv1; simp [hv1]
      all_goals simp

end Normalize
