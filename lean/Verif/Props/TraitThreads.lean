import Verif.Lemmas.TraitThreads

/-!
# Theorems on threads that declare properties
-/

namespace Normalize.TraitThreads
open Traits Spec

variable {r : Reg} {calls : List (List (String × Kw))}

/-- C106: when several threads call `Property(...)`, whatever the schedule, a call that returns gives a type with exactly
the traits that were asked for. -/
theorem C106_traits (hr : Registry r) (hk : ∀ kw ∈ calls, KwOnce kw) (is : List Nat) {i pt : Nat} {kw : List (String × Kw)} (hi : calls[i]? = some kw)
    (hd : (run (begin_ r calls) is).threads[i]? = some (.done pt)) (t : String) :
    HasTrait (run (begin_ r calls) is).reg pt t ↔ WantedTrait r 0 kw t := by
  have hinv := registry_inv hr
  have hs := run_ok hinv (is := is) (begin_ok hinv calls)
  have hR : (wantsOf r calls)[i]? = some (traitKey r 0 (mixKw (defaultsT r 0) kw)) := by simp [wantsOf, hi]
  obtain ⟨T, hT, hk1, _⟩ := hs.pcs i _ _ hd hR
  obtain ⟨extra, sf, hK⟩ := traitKey_ok hk1
  obtain ⟨T0, hT0, _⟩ := hinv.rootMro
  rw [← key_wanted hinv (typeAt_lt hT0) (hk kw (List.mem_of_getElem? hi)) hK]
  exact ⟨fun ⟨S, hS, ht⟩ => by cases typeAt_unique hT hS; exact ht, fun ht => ⟨T, hT, ht⟩⟩

/-- C106: no schedule changes or removes a type that is there. -/
theorem C106_kept (calls : List (List (String × Kw))) (is : List Nat) {i : Nat} {T : PType} (h : TypeAt r i T) :
    TypeAt (run (begin_ r calls) is).reg i T := (run_mono is (begin_ r calls)).types i T h

/-- C106: what one would expect: calls that each would succeed alone do not fail because of each other. -/
def C106_statement : Prop := ∀ (r : Reg) (calls : List (List (String × Kw))) (is : List Nat), Registry r → (∀ kw ∈ calls, KwOnce kw) →
  (∀ kw ∈ calls, ∃ n pt r', call n r 0 kw = (.ok pt, r')) → ∀ (i : Nat) (e : PErr), (run (begin_ r calls) is).threads[i]? ≠ some (.failed e)

/-- Two threads that declare a property in the same way. -/
def exTwo : Sys := begin_ stock [exKw, exKw]

/-- C106: the code does not do it: a thread that is about to create a type when another one enters it fails with
`PropertyTypeClash`, and one that looks for types to mix then with `PropertyTypeMixinFailure`. -/
theorem C106_race :
    (run exTwo (List.replicate 10 1 ++ List.replicate 14 0 ++ [1])).threads = [.done 16, .failed .typeClash] ∧
    (run exTwo (List.replicate 4 1 ++ List.replicate 14 0 ++ List.replicate 7 1)).threads = [.done 16, .failed .mixinFailure] := by
  constructor <;> decide +kernel

theorem C106_violated : ¬ C106_statement := by
  intro h
  refine h stock [exKw, exKw] _ registry_stock ?_ ?_ 1 .typeClash (by rw [show begin_ stock [exKw, exKw] = exTwo from rfl, C106_race.1]; rfl)
  · intro kw hkw
    rcases List.mem_cons.1 hkw with rfl | hkw
    · unfold KwOnce; decide
    · rcases List.mem_cons.1 hkw with rfl | hkw
      · unfold KwOnce; decide
      · cases hkw
  · intro kw hkw
    have : kw = exKw := by
      rcases List.mem_cons.1 hkw with rfl | hkw
      · rfl
      · exact (List.mem_singleton.1 hkw)
    subst this
    exact ⟨10, 16, _, exCall.1⟩

/-- C106: and what the documentation of the registry suggests: there is one type for each set of traits. -/
def C106_single_statement : Prop := ∀ (r : Reg) (calls : List (List (String × Kw))) (is : List Nat), Registry r → (∀ kw ∈ calls, KwOnce kw) →
  ∀ (i j a b : Nat), (run (begin_ r calls) is).threads[i]? = some (.done a) → (run (begin_ r calls) is).threads[j]? = some (.done b) →
    (∀ t, HasTrait (run (begin_ r calls) is).reg a t ↔ HasTrait (run (begin_ r calls) is).reg b t) → a = b

/-- Both look for a clash before either enters its type. -/
def exBoth : List Nat := List.replicate 11 0 ++ List.replicate 11 1 ++ List.replicate 3 0 ++ List.replicate 3 1

theorem C106_two_types : (run exTwo exBoth).threads = [.done 16, .done 17] ∧
    (run exTwo exBoth).reg.types[16]?.map (·.traits) = some ["json", "lazy", "safe"] ∧
    (run exTwo exBoth).reg.types[17]?.map (·.traits) = some ["json", "lazy", "safe"] := by
  decide +kernel

theorem C106_single_violated : ¬ C106_single_statement := by
  intro h
  have := h stock [exKw, exKw] exBoth registry_stock ?_ 0 1 16 17 ?_ ?_ ?_
  · cases this
  · intro kw hkw
    have : kw = exKw := by
      rcases List.mem_cons.1 hkw with rfl | hkw
      · rfl
      · exact (List.mem_singleton.1 hkw)
    subst this
    unfold KwOnce; decide
  · rw [show begin_ stock [exKw, exKw] = exTwo from rfl, C106_two_types.1]; rfl
  · rw [show begin_ stock [exKw, exKw] = exTwo from rfl, C106_two_types.1]; rfl
  · intro t
    rw [show begin_ stock [exKw, exKw] = exTwo from rfl]
    obtain ⟨_, h16, h17⟩ := C106_two_types
    rw [Option.map_eq_some_iff] at h16 h17
    obtain ⟨A, hA, hA'⟩ := h16
    obtain ⟨B, hB, hB'⟩ := h17
    constructor
    · rintro ⟨T, hT, ht⟩
      cases typeAt_unique hA hT
      exact ⟨B, hB, by rw [hB', ← hA']; exact ht⟩
    · rintro ⟨T, hT, ht⟩
      cases typeAt_unique hB hT
      exact ⟨A, hA, by rw [hA', ← hB']; exact ht⟩

/-- C106: of several class statements for types with the same traits, at most one should succeed. -/
def C106_clash_statement : Prop := ∀ (r : Reg) (ds : List Decl) (is : List Nat), Registry r → (∀ d ∈ ds, GoodDecl d) →
  ∀ (i j a b : Nat), i ≠ j → (run (beginTypes r ds) is).threads[i]? = some (.done a) → (run (beginTypes r ds) is).threads[j]? = some (.done b) →
    ∃ t, ¬ (HasTrait (run (beginTypes r ds) is).reg a t ↔ HasTrait (run (beginTypes r ds) is).reg b t)

/-- A class statement for a new trait. -/
def exDecl : Decl := { trait := some "audited", bases := [0], own := ["__set__"] }

theorem exDecl_run : (run (beginTypes stock [exDecl, exDecl]) [0, 1, 0, 1]).threads = [.done 16, .done 17] ∧
    (run (beginTypes stock [exDecl, exDecl]) [0, 1, 0, 1]).reg.types[16]?.map (·.traits) = some ["audited"] ∧
    (run (beginTypes stock [exDecl, exDecl]) [0, 1, 0, 1]).reg.types[17]?.map (·.traits) = some ["audited"] ∧
    (run (beginTypes stock [exDecl, exDecl]) [0, 0, 1, 1]).threads = [.done 16, .failed .typeClash] := by
  decide +kernel

theorem C106_clash_violated : ¬ C106_clash_statement := by
  intro h
  have hg : ∀ d ∈ [exDecl, exDecl], GoodDecl d := by
    intro d hd
    have : d = exDecl := by
      rcases List.mem_cons.1 hd with rfl | hd
      · rfl
      · exact (List.mem_singleton.1 hd)
    subst this
    exact ⟨by decide, by unfold KwOnce; decide⟩
  obtain ⟨h0, h16, h17, _⟩ := exDecl_run
  obtain ⟨t, ht⟩ := h stock [exDecl, exDecl] [0, 1, 0, 1] registry_stock hg 0 1 16 17 (by decide) (by rw [h0]; rfl) (by rw [h0]; rfl)
  apply ht
  rw [Option.map_eq_some_iff] at h16 h17
  obtain ⟨A, hA, hA'⟩ := h16
  obtain ⟨B, hB, hB'⟩ := h17
  constructor
  · rintro ⟨T, hT, ht⟩
    cases typeAt_unique hA hT
    exact ⟨B, hB, by rw [hB', ← hA']; exact ht⟩
  · rintro ⟨T, hT, ht⟩
    cases typeAt_unique hB hT
    exact ⟨A, hA, by rw [hA', ← hB']; exact ht⟩

/-- C106: a call that begins when some call for the same traits has returned never fails, whatever the schedule before
and after. -/
theorem C106_after_partial (hr : Registry r) (hk : ∀ kw ∈ calls, KwOnce kw) (is is' : List Nat) {i j pt : Nat} {kw kw' : List (String × Kw)}
    (hi : calls[i]? = some kw) (hj : calls[j]? = some kw') (hsame : ∀ t, WantedTrait r 0 kw t ↔ WantedTrait r 0 kw' t)
    (hd : (run (begin_ r calls) is).threads[i]? = some (.done pt)) (hb : (run (begin_ r calls) is).threads[j]? = some (.start kw'))
    (hok : ∃ n p r', call n r 0 kw' = (.ok p, r')) (e : PErr) : (run (begin_ r calls) (is ++ is')).threads[j]? ≠ some (.failed e) := by
  have hinv := registry_inv hr
  have hs := run_ok hinv (is := is) (begin_ok hinv calls)
  have hR : (wantsOf r calls)[i]? = some (traitKey r 0 (mixKw (defaultsT r 0) kw)) := by simp [wantsOf, hi]
  obtain ⟨T, hT, hk1, hl⟩ := hs.pcs i _ _ hd hR
  obtain ⟨T0, hT0, _⟩ := hinv.rootMro
  obtain ⟨n, p, r', hcall⟩ := hok
  obtain ⟨_, hcall⟩ := call_lt hcall (by simp)
  have hkey : ∃ key, traitKey r 0 (mixKw (defaultsT r 0) kw') = .ok key := by
    cases hkk : traitKey r 0 (mixKw (defaultsT r 0) kw') with
    | ok key => exact ⟨key, rfl⟩
    | error e =>
      cases n with
      | zero => cases hcall
      | succ n => simp only [construct, has, hkk] at hcall; cases hcall
  obtain ⟨key, hkey⟩ := hkey
  obtain ⟨ex, sf, hK⟩ := traitKey_ok hk1
  obtain ⟨ex', sf', hK'⟩ := traitKey_ok hkey
  have heq : T.traits = key := by
    refine sorted_ext hK.sorted hK'.sorted ?_
    intro t
    rw [key_wanted hinv (typeAt_lt hT0) (hk kw (List.mem_of_getElem? hi)) hK, key_wanted hinv (typeAt_lt hT0) (hk kw' (List.mem_of_getElem? hj)) hK']
    exact hsame t
  rw [heq] at hl
  obtain ⟨pc, hpc, hready⟩ := ready_run hinv (is := is') hs hb (show Ready r _ key (.start kw') from ⟨hkey, hl⟩)
  rw [run_append, hpc]
  intro h
  cases h
  exact hready

/-- C106: when there is a type for each call from the beginning, every schedule leaves the types as they are, and no call
fails. -/
theorem C106_partial (hr : Registry r) (hk : ∀ kw ∈ calls, KwOnce kw)
    (hthere : ∀ kw ∈ calls, ∃ n p, call n r 0 kw = (.ok p, r)) (is : List Nat) :
    (run (begin_ r calls) is).reg = r ∧ ∀ (i : Nat) (e : PErr), (run (begin_ r calls) is).threads[i]? ≠ some (.failed e) := by
  have hinv := registry_inv hr
  have hkeys : ∀ kw ∈ calls, ∃ key, traitKey r 0 (mixKw (defaultsT r 0) kw) = .ok key ∧ (lookupT r.reg key).isSome = true := by
    intro kw hkw
    obtain ⟨n, p, hcall⟩ := hthere kw hkw
    obtain ⟨_, hcall⟩ := call_lt hcall (by simp)
    obtain ⟨T0, hT0, hm0, _⟩ := hinv.rootMro
    cases n with
    | zero => cases hcall
    | succ n =>
      simp only [construct] at hcall
      split at hcall
      · cases hcall
      · rename_i q rb hh
        have hkeep := (has_keeps r 0 (mixKw (defaultsT r 0) kw) hinv).2
        rw [hh] at hkeep
        rw [after_noBases ⟨T0, hkeep.at hT0, hm0⟩] at hcall
        cases hcall
        obtain ⟨key, T, hkey, hT, ht⟩ := has_ok hinv hh
        exact ⟨key, hkey, by rw [(hinv.reg key p).2 ⟨T, hT, ht⟩]; rfl⟩
  have main : ∀ (is : List Nat) (s : Sys), SysOk r (wantsOf r calls) s → s.reg = r → (∀ (j : Nat) (pc : Pc), s.threads[j]? = some pc → ∃ K, Ready r r K pc) →
      (run s is).reg = r ∧ ∀ (j : Nat) (pc : Pc), (run s is).threads[j]? = some pc → ∃ K, Ready r r K pc := by
    intro is
    induction is with
    | nil => exact fun s _ h1 h2 => ⟨h1, h2⟩
    | cons i is ih =>
      intro s hs h1 h2
      refine ih (tick s i) (tick_ok hinv hs i) ?_ ?_
      · unfold tick
        split
        · exact h1
        · rename_i pc hpc
          obtain ⟨K, hK⟩ := h2 i pc hpc
          rw [← h1] at hK
          have hs' := hs.sound
          rw [h1] at hK hs'
          simp only
          rw [h1]
          exact (hK.step hinv hs').2
      · intro j pc' hj
        unfold tick at hj
        split at hj
        · exact h2 j pc' hj
        · rename_i pc hpc
          simp only [List.getElem?_set] at hj
          split at hj
          · rename_i hij
            subst hij
            obtain ⟨K, hK⟩ := h2 i pc hpc
            have hs' := hs.sound
            rw [h1] at hs'
            have hlt : i < s.threads.length := (List.getElem?_eq_some_iff.1 hpc).1
            rw [if_pos hlt] at hj
            cases hj
            rw [h1]
            exact ⟨K, (hK.step hinv hs').1⟩
          · exact h2 j pc' hj
  obtain ⟨h1, h2⟩ := main is (begin_ r calls) (begin_ok hinv calls) rfl (by
    intro j pc hj
    simp only [begin_, List.getElem?_map, Option.map_eq_some_iff] at hj
    obtain ⟨kw, hkw, rfl⟩ := hj
    obtain ⟨key, hkey⟩ := hkeys kw (List.mem_of_getElem? hkw)
    exact ⟨key, hkey⟩)
  refine ⟨h1, ?_⟩
  intro i e h
  obtain ⟨K, hK⟩ := h2 i _ h
  exact hK

/-- C106: a thread that is alone does what the model of one thread says: the same type or exception, and the same types
afterwards. -/
theorem C106_alone (hr : Registry r) (kw : List (String × Kw)) (n : Nat) : ∃ m0, ∀ m, m0 ≤ m →
    (∀ pt r', call (n + 1) r 0 kw = (.ok pt, r') → run (begin_ r [kw]) (List.replicate m 0) = ⟨r', [.done pt]⟩) ∧
    ∀ e r', call (n + 1) r 0 kw = (.error e, r') → run (begin_ r [kw]) (List.replicate m 0) = ⟨r', [.failed e]⟩ := by
  obtain ⟨m0, h⟩ := gets_call (registry_inv hr) kw n
  refine ⟨m0, ?_⟩
  intro m hm
  obtain ⟨k, rfl⟩ := Nat.exists_eq_add_of_le hm
  have hrun := run_steps (n := m0 + k) (x := (r, .start kw))
  simp only [begin_, List.map_cons, List.map_nil]
  simp only at hrun
  rw [hrun, steps_add, h, steps_ended (ending_ended _)]
  constructor
  · intro pt r' hc
    rw [hc]; rfl
  · intro e r' hc
    rw [hc]; rfl

/-- C106: a call ends, with a type or an exception, if its thread gets turns again and again, whatever the others do. -/
theorem C106_ends (hr : Registry r) {i : Nat} (hi : i < calls.length) {σ : Nat → Nat} (hσ : ∀ m, ∃ n, m ≤ n ∧ σ n = i) :
    ∃ n, (∃ pt, (run (begin_ r calls) ((List.range n).map σ)).threads[i]? = some (.done pt)) ∨
      ∃ e, (run (begin_ r calls) ((List.range n).map σ)).threads[i]? = some (.failed e) := by
  have hinv := registry_inv hr
  obtain ⟨n, pc, h1, h2⟩ := ends hinv (begin_ok hinv calls) (i := i) (R := traitKey r 0 (mixKw (defaultsT r 0) calls[i])) (by simp [wantsOf, hi]) hσ
  refine ⟨n, ?_⟩
  cases pc with
  | done pt => exact .inl ⟨pt, h1⟩
  | failed e => exact .inr ⟨e, h1⟩
  | _ => cases h2

/-! ## Cases -/

theorem exOnce : ∀ kw ∈ [exKw, exKw], KwOnce kw := by
  intro kw hkw
  have : kw = exKw := by
    rcases List.mem_cons.1 hkw with rfl | hkw
    · rfl
    · exact (List.mem_singleton.1 hkw)
  subst this
  unfold KwOnce; decide

example (t : String) : HasTrait (run exTwo exBoth).reg 17 t ↔ t ∈ ["json", "lazy", "safe"] :=
  (C106_traits registry_stock exOnce exBoth (i := 1) (pt := 17) rfl (by rw [show begin_ stock [exKw, exKw] = exTwo from rfl, C106_two_types.1]; rfl) t).trans
    (exWanted t)

/-- One is done, the other has not begun. -/
example (is' : List Nat) (e : PErr) : (run exTwo (List.replicate 14 0 ++ is')).threads[1]? ≠ some (.failed e) :=
  C106_after_partial registry_stock exOnce (List.replicate 14 0) is' (i := 0) (j := 1) (pt := 16) rfl rfl (fun _ => Iff.rfl)
    (by decide +kernel) (by decide +kernel) ⟨10, 16, _, exCall.1⟩ e

example (is : List Nat) : (run (begin_ stock [[("isa", .other)], [("lazy", .other)]]) is).reg = stock :=
  (C106_partial registry_stock (by
    intro kw hkw
    simp only [List.mem_cons, List.not_mem_nil, or_false] at hkw
    rcases hkw with rfl | rfl <;> · unfold KwOnce; decide) (by
    intro kw hkw
    simp only [List.mem_cons, List.not_mem_nil, or_false] at hkw
    rcases hkw with rfl | rfl
    · exact ⟨10, 4, by decide +kernel⟩
    · exact ⟨10, 1, by decide +kernel⟩) is).1

example : (run (begin_ stock [exKw]) (List.replicate 14 0)).threads = [.done 16] := by decide +kernel

end Normalize.TraitThreads
