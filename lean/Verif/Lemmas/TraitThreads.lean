import Verif.Model.TraitThreads
import Verif.Props.Traits
import Mathlib.Data.Prod.Lex
import Mathlib.Data.Nat.Find

/-!
# Lemmas on threads that declare properties
-/

namespace Normalize.TraitThreads
open Traits Spec

/-! ## The registry -/

theorem lookupT_setT {k k' : List String} {i : Nat} : ∀ {l : List (List String × Nat)},
    lookupT (setT l k i) k' = if k = k' then some i else lookupT l k'
  | [] => by simp only [setT, lookupT]
  | (k2, j) :: rest => by
    simp only [setT]
    split
    · rename_i h
      subst h
      simp only [lookupT]
      split <;> rfl
    · rename_i h
      simp only [lookupT]
      split
      · rename_i h2
        subst h2
        rw [if_neg (fun h3 => h h3.symm)]
      · exact lookupT_setT

theorem setT_append {k : List String} {i : Nat} : ∀ {l : List (List String × Nat)}, lookupT l k = none → setT l k i = l ++ [(k, i)]
  | [], _ => rfl
  | (k2, j) :: rest, h => by
    simp only [lookupT] at h
    split at h
    · cases h
    · rename_i hne
      simp only [setT, if_neg hne, List.cons_append]
      rw [setT_append h]

/-- What every step keeps. -/
structure Sound (r0 r : Reg) : Prop where
  ext : CExt r0 r
  reg : ∀ (k : List String) (i : Nat), lookupT r.reg k = some i → ∃ T, TypeAt r i T ∧ T.traits = k
  sorted : ∀ (i : Nat) (T : PType), TypeAt r i T → T.traits.Pairwise (· < ·)

theorem sound_init {r : Reg} (h : Inv r) : Sound r r := ⟨.rfl, fun k i => (h.reg k i).1, h.sorted⟩

/-- Nothing is lost. -/
structure Mono (r r' : Reg) : Prop where
  keys : ∀ k, (lookupT r.reg k).isSome = true → (lookupT r'.reg k).isSome = true
  types : ∀ (i : Nat) (T : PType), TypeAt r i T → TypeAt r' i T

theorem Mono.rfl {r : Reg} : Mono r r := ⟨fun _ h => h, fun _ _ h => h⟩

theorem Mono.trans {a b c : Reg} (h : Mono a b) (h' : Mono b c) : Mono a c :=
  ⟨fun k hk => h'.keys k (h.keys k hk), fun i T hT => h'.types i T (h.types i T hT)⟩

/-- A new type for two others. -/
theorem makeType_cases (r : Reg) (d : Decl) : makeType r d = (.error .mroConflict, r) ∨
    ∃ m, makeType r d = (.ok r.types.length,
      { types := r.types ++ [made r d m], reg := setT r.reg (newTraits r d) r.types.length,
        duck := r.duck ++ (if d.trait.isSome then d.args.map (fun a => (a, newTraits r d, r.types.length)) else []) }) := by
  unfold makeType
  split
  · exact .inl rfl
  · rename_i m _
    exact .inr ⟨m, rfl⟩

theorem makeType_mono (r : Reg) (d : Decl) : Mono r (makeType r d).2 := by
  rcases makeType_cases r d with h | ⟨m, h⟩
  · rw [h]; exact .rfl
  · rw [h]
    refine ⟨?_, fun i T hT => typeAt_add.2 (.inl hT)⟩
    intro k hk
    simp only
    rw [lookupT_setT]
    split
    · rfl
    · exact hk

theorem makeType_sound {r0 r : Reg} (h : Sound r0 r) (a b : Nat) : Sound r0 (makeType r { bases := [a, b] }).2 := by
  rcases makeType_cases r { bases := [a, b] } with he | ⟨m, he⟩
  · rw [he]; exact h
  · rw [he]
    refine ⟨h.ext.trans ⟨⟨_, rfl, by simp [made]⟩, by simp⟩, ?_, ?_⟩
    · intro k i hk
      simp only at hk
      rw [lookupT_setT] at hk
      split at hk
      · rename_i hkk
        cases hk
        exact ⟨_, typeAt_add.2 (.inr ⟨rfl, rfl⟩), hkk⟩
      · obtain ⟨T, hT, ht⟩ := h.reg k i hk
        exact ⟨T, typeAt_add.2 (.inl hT), ht⟩
    · intro i T hT
      rcases typeAt_add.1 hT with hT | ⟨_, rfl⟩
      · exact h.sorted i T hT
      · exact norm_sorted _

/-! ## Threads -/

/-- Types are only created from two others. -/
def Mixes : Pc → Prop
  | .make d _ => ∃ a b, d = { bases := [a, b] }
  | _ => True

theorem step_mono (r : Reg) (pc : Pc) : Mono r (step r pc).1 := by
  cases pc with
  | make d f =>
    have h := makeType_mono r d
    simp only [step]
    revert h
    generalize makeType r d = x
    obtain ⟨y, r'⟩ := x
    cases y <;> exact id
  | scan f b os sf mix last => cases os <;> exact .rfl
  | _ => exact .rfl

theorem step_sound {r0 r : Reg} (h : Sound r0 r) {pc : Pc} (hp : Mixes pc) : Sound r0 (step r pc).1 := by
  cases pc with
  | make d f =>
    obtain ⟨a, b, rfl⟩ := hp
    have h := makeType_sound h a b
    simp only [step]
    revert h
    generalize makeType r _ = x
    obtain ⟨y, r'⟩ := x
    cases y <;> exact id
  | scan f b os sf mix last => cases os <;> exact h
  | _ => exact h

/-- The locals are parts of what is wanted. -/
structure FrameOk (K : List String) (f : Frame) : Prop where
  key : f.key = K
  stock : Parts K f.stock
  bases : Parts K f.bases

/-- The optional type is a part. -/
def PartOpt (K : List String) : Option (List String) → Prop
  | none => True
  | some o => o.Sublist K

/-- The optional choice is a part. -/
def PartMix (K : List String) : Option (List String × List String) → Prop
  | none => True
  | some (_, p) => p.Sublist K

/-- A type exists, and its traits are a part. -/
def PartType (r : Reg) (K : List String) (i : Nat) : Prop := ∃ T, TypeAt r i T ∧ T.traits.Sublist K

/-- A mix of two such types. -/
def MixOk (r : Reg) (K : List String) (d : Decl) : Option (Frame × List String) → Prop
  | none => False
  | some (f, p) => FrameOk K f ∧ p.Sublist K ∧ ∃ a b, d = { bases := [a, b] } ∧ PartType r K a ∧ PartType r K b

/-- What is known of a thread that calls `Property(...)`, when `R` are the traits it wants. -/
def PcOk (r0 r : Reg) (R : Except PErr (List String)) : Pc → Prop
  | .start kw => traitKey r0 0 (mixKw (defaultsT r0 0) kw) = R
  | .test key => R = .ok key ∧ key.Pairwise (· < ·)
  | .snap key => R = .ok key ∧ key.Pairwise (· < ·)
  | .final key => R = .ok key ∧ key.Pairwise (· < ·)
  | .loop key stock => (R = .ok key ∧ key.Pairwise (· < ·)) ∧ Parts key stock
  | .scan f b os _ mix last => ∃ K, (R = .ok K ∧ K.Pairwise (· < ·)) ∧ FrameOk K f ∧ b.Sublist K ∧ Parts K os ∧ PartMix K mix ∧ PartOpt K last
  | .base f b o p => ∃ K, (R = .ok K ∧ K.Pairwise (· < ·)) ∧ FrameOk K f ∧ b.Sublist K ∧ o.Sublist K ∧ p.Sublist K
  | .other f bt o p => ∃ K, (R = .ok K ∧ K.Pairwise (· < ·)) ∧ FrameOk K f ∧ PartType r K bt ∧ o.Sublist K ∧ p.Sublist K
  | .check d f => ∃ K, (R = .ok K ∧ K.Pairwise (· < ·)) ∧ MixOk r K d f
  | .make d f => ∃ K, (R = .ok K ∧ K.Pairwise (· < ·)) ∧ MixOk r K d f
  | .done i => ∃ T, TypeAt r i T ∧ R = .ok T.traits ∧ (lookupT r.reg T.traits).isSome = true
  | .failed _ => True

theorem PartType.mono {r r' : Reg} (h : Mono r r') {K : List String} {i : Nat} (hp : PartType r K i) : PartType r' K i :=
  hp.imp fun _ ⟨hT, hs⟩ => ⟨h.types _ _ hT, hs⟩

theorem MixOk.mono {r r' : Reg} (h : Mono r r') {K : List String} {d : Decl} {f : Option (Frame × List String)} (hp : MixOk r K d f) : MixOk r' K d f := by
  cases f with
  | none => exact hp
  | some x =>
    obtain ⟨h1, h2, a, b, h3, h4, h5⟩ := hp
    exact ⟨h1, h2, a, b, h3, h4.mono h, h5.mono h⟩

theorem PcOk.mono {r0 r r' : Reg} (h : Mono r r') {R : Except PErr (List String)} {pc : Pc} (hp : PcOk r0 r R pc) : PcOk r0 r' R pc := by
  cases pc with
  | other f bt o p =>
    obtain ⟨K, h1, h2, h3, h4⟩ := hp
    exact ⟨K, h1, h2, h3.mono h, h4⟩
  | check d f =>
    obtain ⟨K, h1, h2⟩ := hp
    exact ⟨K, h1, h2.mono h⟩
  | make d f =>
    obtain ⟨K, h1, h2⟩ := hp
    exact ⟨K, h1, h2.mono h⟩
  | done i =>
    obtain ⟨T, hT, hR, hl⟩ := hp
    exact ⟨T, h.types _ _ hT, hR, h.keys _ hl⟩
  | _ => exact hp

theorem PcOk.mixes {r0 r : Reg} {R : Except PErr (List String)} {pc : Pc} (hp : PcOk r0 r R pc) : Mixes pc := by
  cases pc with
  | make d f =>
    obtain ⟨K, _, h2⟩ := hp
    cases f with
    | none => exact h2.elim
    | some x =>
      obtain ⟨_, _, a, b, h3, _⟩ := h2
      exact ⟨a, b, h3⟩
  | _ => trivial

theorem nextBase_ok {r0 r : Reg} {K : List String} {R : Except PErr (List String)} (hR : R = .ok K ∧ K.Pairwise (· < ·)) {stock : List (List String)}
    (hs : Parts K stock) {longest : Nat} {made : Bool} : ∀ {bs : List (List String)}, Parts K bs → PcOk r0 r R (nextBase K stock longest made bs)
  | [], _ => by
    simp only [nextBase]
    split
    · exact ⟨hR, hs⟩
    · trivial
  | b :: bs, hb => by
    simp only [nextBase]
    have hb' : Parts K bs := fun k hk => hb k (List.mem_cons_of_mem _ hk)
    split
    · exact nextBase_ok hR hs hb'
    · exact ⟨K, hR, ⟨rfl, hs, hb'⟩, hb b List.mem_cons_self, fun k hk => hs k (mem_sortK.1 hk), trivial, trivial⟩

theorem addKey_parts {K : List String} {stock : List (List String)} (hs : Parts K stock) {p : List String} (hp : p.Sublist K) : Parts K (addKey stock p) := by
  intro k hk
  unfold addKey at hk
  split at hk
  · exact hs k hk
  · rcases List.mem_append.1 hk with hk | hk
    · exact hs k hk
    · rw [List.mem_singleton] at hk
      subst hk
      exact hp

theorem stock_parts' {r0 r : Reg} (h : Sound r0 r) {wanted : List String} (hw : wanted.Pairwise (· < ·)) : Parts wanted (stockTypes r wanted) := by
  intro k hk
  unfold stockTypes at hk
  obtain ⟨h1, h2⟩ := List.mem_filter.1 hk
  obtain ⟨⟨k', i⟩, h3, rfl⟩ := List.mem_map.1 h1
  simp only [List.all_eq_true, List.contains_iff_mem] at h2
  have hsome : ∃ i', lookupT r.reg k' = some i' := by
    clear hk h1 h2
    generalize r.reg = l at h3
    induction l with
    | nil => cases h3
    | cons x l ih =>
      obtain ⟨k2, i2⟩ := x
      simp only [lookupT]
      split
      · exact ⟨_, rfl⟩
      · rename_i hne
        rcases List.mem_cons.1 h3 with h3 | h3
        · cases h3; exact absurd rfl hne
        · exact ih h3
  obtain ⟨i', hl⟩ := hsome
  obtain ⟨T, hT, rfl⟩ := h.reg _ i' hl
  exact sublist_of_sorted (h.sorted i' T hT) hw h2

theorem startStep_ok {r0 r : Reg} (hi : Inv r0) (h : Sound r0 r) {R : Except PErr (List String)} {kw : List (String × Kw)}
    (hp : PcOk r0 r R (.start kw)) : PcOk r0 r R (startStep r kw) := by
  change traitKey r0 0 (mixKw (defaultsT r0 0) kw) = R at hp
  obtain ⟨T0, hT0, _⟩ := hi.rootMro
  have hk : traitKey r 0 (mixKw (defaultsT r 0) kw) = R := by
    rw [traitKey_ext hi h.ext (typeAt_lt hT0), defaultsT_eq (h.ext.at hT0), ← defaultsT_eq hT0]
    exact hp
  unfold startStep
  rw [hk]
  cases R with
  | error e => trivial
  | ok key =>
    obtain ⟨extra, sf, hK⟩ := traitKey_ok hp
    exact ⟨rfl, hK.sorted⟩

theorem scanStep_ok {r0 r : Reg} {K : List String} {R : Except PErr (List String)} (hR : R = .ok K ∧ K.Pairwise (· < ·)) {f : Frame} (hf : FrameOk K f)
    {b o : List String} {os : List (List String)} (hb : b.Sublist K) (ho : Parts K (o :: os)) {sf : Nat} {mix : Option (List String × List String)}
    (hm : PartMix K mix) : PcOk r0 r R (scanStep r f b o os sf mix) := by
  have ho1 := ho o List.mem_cons_self
  have ho2 : Parts K os := fun k hk => ho k (List.mem_cons_of_mem _ hk)
  have hn := norm_part hR.2 hb ho1
  unfold scanStep
  split
  · exact ⟨K, hR, hf, hb, ho2, hm, ho1⟩
  · split
    · split
      · exact ⟨K, hR, hf, hb, ho1, hn⟩
      · exact ⟨K, hR, hf, hb, ho2, hn, ho1⟩
    · exact ⟨K, hR, hf, hb, ho2, hm, ho1⟩

theorem scanEnd_ok {r0 r : Reg} {K : List String} {R : Except PErr (List String)} (hR : R = .ok K ∧ K.Pairwise (· < ·)) {f : Frame} (hf : FrameOk K f)
    {b : List String} (hb : b.Sublist K) {mix : Option (List String × List String)} (hm : PartMix K mix) {last : Option (List String)}
    (hl : PartOpt K last) : PcOk r0 r R (scanEnd f b mix last) := by
  have hn : PcOk r0 r R (nextBase f.key f.stock f.longest f.made f.bases) := by rw [hf.key]; exact nextBase_ok hR hf.stock hf.bases
  cases mix with
  | none => exact hn
  | some x =>
    cases last with
    | none => exact hn
    | some o => exact ⟨K, hR, hf, hb, hl, hm⟩

theorem loopStep_ok {r0 r : Reg} {K : List String} {R : Except PErr (List String)} (hR : R = .ok K ∧ K.Pairwise (· < ·)) {stock : List (List String)}
    (hs : Parts K stock) : PcOk r0 r R (loopStep r K stock) := by
  unfold loopStep
  split
  · exact hR
  · split
    · trivial
    · rename_i k ks hst
      refine nextBase_ok hR hs ?_
      intro x hx
      have := mem_sortK.1 hx
      rw [← hst] at this
      exact hs x (List.mem_filter.1 this).1

theorem step_ok {r0 r : Reg} (hi : Inv r0) (h : Sound r0 r) {R : Except PErr (List String)} {pc : Pc} (hp : PcOk r0 r R pc) :
    PcOk r0 (step r pc).1 R (step r pc).2 := by
  cases pc with
  | start kw => exact startStep_ok hi h hp
  | test key =>
    simp only [step]
    split <;> exact hp
  | snap key =>
    simp only [step, snapStep]
    split
    · trivial
    · exact ⟨hp, stock_parts' h hp.2⟩
  | loop key stock => exact loopStep_ok hp.1 hp.2
  | scan f b os sf mix last =>
    obtain ⟨K, h1, h2, h3, h4, h5, h6⟩ := hp
    cases os with
    | nil => exact scanEnd_ok h1 h2 h3 h5 h6
    | cons o os => exact scanStep_ok h1 h2 h3 h4 h5
  | base f b o p =>
    obtain ⟨K, h1, h2, h3, h4, h5⟩ := hp
    simp only [step, found]
    split
    · trivial
    · rename_i i hl
      obtain ⟨T, hT, ht⟩ := h.reg _ _ hl
      exact ⟨K, h1, h2, ⟨T, hT, by rw [ht]; exact h3⟩, h4, h5⟩
  | other f bt o p =>
    obtain ⟨K, h1, h2, h3, h4, h5⟩ := hp
    simp only [step, found]
    split
    · trivial
    · rename_i i hl
      obtain ⟨T, hT, ht⟩ := h.reg _ _ hl
      exact ⟨K, h1, h2, h5, bt, i, rfl, h3, T, hT, by rw [ht]; exact h4⟩
  | check d f =>
    simp only [step, checkStep]
    split
    · trivial
    · split
      · trivial
      · exact hp
  | make d f =>
    have hm := makeType_mono r d
    simp only [step]
    generalize makeType r d = x at hm
    obtain ⟨y, r'⟩ := x
    cases y with
    | error e => trivial
    | ok i =>
      obtain ⟨K, h1, h2⟩ := hp
      cases f with
      | none => exact h2.elim
      | some x =>
        obtain ⟨f, p⟩ := x
        obtain ⟨h3, h4, _⟩ := h2
        simp only [madeStep, resume]
        rw [h3.key]
        exact nextBase_ok h1 (addKey_parts h3.stock h4) h3.bases
  | final key =>
    simp only [step, found]
    split
    · trivial
    · rename_i i hl
      obtain ⟨T, hT, ht⟩ := h.reg _ _ hl
      exact ⟨T, hT, by rw [ht]; exact hp.1, by rw [ht, hl]; rfl⟩
  | done i => exact hp
  | failed e => trivial

/-! ## The system -/

theorem tick_some {s : Sys} {i : Nat} {pc : Pc} (h : s.threads[i]? = some pc) : tick s i = ⟨(step s.reg pc).1, s.threads.set i (step s.reg pc).2⟩ := by
  unfold tick; rw [h]

theorem tick_none {s : Sys} {i : Nat} (h : s.threads[i]? = none) : tick s i = s := by
  unfold tick; rw [h]

theorem run_append {s : Sys} {a b : List Nat} : run s (a ++ b) = run (run s a) b := by
  induction a generalizing s with
  | nil => rfl
  | cons i a ih => exact ih

/-- What is known of threads that call `Property(...)`. -/
structure SysOk (r0 : Reg) (Rs : List (Except PErr (List String))) (s : Sys) : Prop where
  sound : Sound r0 s.reg
  len : s.threads.length = Rs.length
  pcs : ∀ (i : Nat) (pc : Pc) (R : Except PErr (List String)), s.threads[i]? = some pc → Rs[i]? = some R → PcOk r0 s.reg R pc

theorem tick_ok {r0 : Reg} (hi : Inv r0) {Rs : List (Except PErr (List String))} {s : Sys} (h : SysOk r0 Rs s) (i : Nat) : SysOk r0 Rs (tick s i) := by
  cases hpc : s.threads[i]? with
  | none => rw [tick_none hpc]; exact h
  | some pc =>
    rw [tick_some hpc]
    have hlt : i < s.threads.length := (List.getElem?_eq_some_iff.1 hpc).1
    have hR : Rs[i]? = some (Rs[i]'(by rw [← h.len]; exact hlt)) := List.getElem?_eq_getElem _
    have hp := h.pcs i pc _ hpc hR
    refine ⟨step_sound h.sound hp.mixes, by simp only [List.length_set]; exact h.len, ?_⟩
    intro j pc' R' hj hRj
    simp only [List.getElem?_set] at hj
    split at hj
    · rename_i hij
      subst hij
      cases hj
      rw [hR] at hRj
      cases hRj
      exact step_ok hi h.sound hp
    · exact (h.pcs j pc' R' hj hRj).mono (step_mono _ _)

theorem run_ok {r0 : Reg} (hi : Inv r0) {Rs : List (Except PErr (List String))} : ∀ {is : List Nat} {s : Sys}, SysOk r0 Rs s → SysOk r0 Rs (run s is)
  | [], _, h => h
  | i :: is, _, h => run_ok hi (is := is) (tick_ok hi h i)

theorem tick_mono (s : Sys) (i : Nat) : Mono s.reg (tick s i).reg := by
  unfold tick
  split
  · exact .rfl
  · exact step_mono _ _

theorem run_mono : ∀ (is : List Nat) (s : Sys), Mono s.reg (run s is).reg
  | [], _ => .rfl
  | i :: is, s => (tick_mono s i).trans (run_mono is (tick s i))

/-- The traits that the calls want. -/
def wantsOf (r : Reg) (calls : List (List (String × Kw))) : List (Except PErr (List String)) :=
  calls.map (fun kw => traitKey r 0 (mixKw (defaultsT r 0) kw))

theorem begin_ok {r : Reg} (hi : Inv r) (calls : List (List (String × Kw))) : SysOk r (wantsOf r calls) (begin_ r calls) := by
  refine ⟨sound_init hi, by simp [begin_, wantsOf], ?_⟩
  intro i pc R hp hR
  simp only [begin_, List.getElem?_map, Option.map_eq_some_iff, wantsOf] at hp hR
  obtain ⟨kw, hk, rfl⟩ := hp
  obtain ⟨kw', hk', rfl⟩ := hR
  rw [hk] at hk'
  cases hk'
  rfl

/-! ## Threads end -/

/-- The thread has ended. -/
def ended : Pc → Bool
  | .done _ => true
  | .failed _ => true
  | _ => false

/-- Before the choice of the types. -/
def phase : Pc → Nat
  | .start _ => 3
  | .test _ => 2
  | .snap _ => 1
  | _ => 0

/-- The type that the thread has found free, and is to enter. -/
def pend (r : Reg) : Pc → List (List String)
  | .make d _ => [newTraits r d]
  | _ => []

/-- How many types may still have to be made for `K`. -/
def alpha (r : Reg) (K : List String) (pc : Pc) : Nat :=
  if ended pc then 0 else ((unmade r K).filter (fun k => !(pend r pc).contains k)).length

/-- The steps of one round with so many keys in stock. -/
def roundCost (s : Nat) : Nat := s * (s + 6) + 5

/-- After a round of the loop over the bases. -/
def restOf (s n : Nat) (made : Bool) : Nat := n * (s + 6) + (if made then roundCost s + 1 else 0)

/-- After a round of the loop over the bases. -/
def rest (f : Frame) : Nat := restOf f.stock.length f.bases.length f.made

/-- The same with one more in stock. -/
def restMade : Option (Frame × List String) → Nat
  | none => 0
  | some (f, _) => restOf (f.stock.length + 1) f.bases.length true

/-- The steps until the next type is found free, or to the end. -/
def beta : Pc → Nat
  | .start _ => 0
  | .test _ => 0
  | .snap _ => 0
  | .loop _ stock => roundCost stock.length
  | .scan f _ os _ _ _ => os.length + 5 + rest f
  | .base f _ _ _ => 4 + rest f
  | .other f _ _ _ => 3 + rest f
  | .check _ _ => 2
  | .make _ f => restMade f + 2
  | .final _ => 1
  | .done _ => 0
  | .failed _ => 0

theorem restOf_mono {s s' n : Nat} {m : Bool} (h : s ≤ s') : restOf s n m ≤ restOf s' n m := by
  unfold restOf roundCost
  have h1 : n * (s + 6) ≤ n * (s' + 6) := Nat.mul_le_mul_left _ (by omega)
  have h2 : s * (s + 6) ≤ s' * (s' + 6) := Nat.mul_le_mul h (by omega)
  cases m <;> simp <;> omega

theorem nextBase_beta {key : List String} {stock : List (List String)} {longest : Nat} {made : Bool} : ∀ {bs : List (List String)},
    beta (nextBase key stock longest made bs) ≤ restOf stock.length bs.length made
  | [] => by
    simp only [nextBase]
    cases made
    · simp [beta]
    · simp only [if_true, beta, restOf, List.length_nil]; omega
  | b :: bs => by
    have ih := nextBase_beta (key := key) (stock := stock) (longest := longest) (made := made) (bs := bs)
    have hs : (sortK stock).length = stock.length := by
      have hins : ∀ (x : List String) (l : List (List String)), (insK x l).length = l.length + 1 := by
        intro x l
        induction l with
        | nil => rfl
        | cons y l ihl =>
          simp only [insK]
          split
          · rfl
          · simp only [List.length_cons, ihl]
      generalize stock = l
      induction l with
      | nil => rfl
      | cons y l ihl => simp only [sortK, hins, ihl, List.length_cons]
    have he : restOf stock.length (b :: bs).length made = restOf stock.length bs.length made + (stock.length + 6) := by
      unfold restOf
      rw [List.length_cons, Nat.add_mul]
      omega
    simp only [nextBase]
    split
    · omega
    · simp only [beta, rest, hs]
      omega

theorem nextBase_phase {key : List String} {stock : List (List String)} {longest : Nat} {made : Bool} : ∀ {bs : List (List String)},
    phase (nextBase key stock longest made bs) = 0 ∧ ∀ r, pend r (nextBase key stock longest made bs) = []
  | [] => by
    simp only [nextBase]
    split <;> exact ⟨rfl, fun _ => rfl⟩
  | b :: bs => by
    simp only [nextBase]
    split
    · exact nextBase_phase
    · exact ⟨rfl, fun _ => rfl⟩

/-- The measure of a thread. -/
def mu (r : Reg) (K : List String) (pc : Pc) : Nat ×ₗ (Nat ×ₗ Nat) := toLex (phase pc, toLex (alpha r K pc, beta pc))

theorem alpha_le {r r' : Reg} {K : List String} {pc pc' : Pc} (hk : ∀ k, (lookupT r'.reg k).isNone = true → (pend r' pc').contains k = false →
    (lookupT r.reg k).isNone = true ∧ (pend r pc).contains k = false) (he : ended pc = false) : alpha r' K pc' ≤ alpha r K pc := by
  unfold alpha
  rw [he]
  split
  · exact Nat.zero_le _
  · simp only [Bool.false_eq_true, if_false]
    unfold unmade
    rw [List.filter_filter, List.filter_filter]
    refine (List.monotone_filter_right _ ?_).length_le
    intro k h
    simp only [Bool.and_eq_true, Bool.not_eq_true'] at h ⊢
    exact (hk k h.2 h.1).symm

theorem lex_phase {r r' : Reg} {K : List String} {pc pc' : Pc} (h : phase pc' < phase pc) : mu r' K pc' < mu r K pc := by
  unfold mu
  exact Prod.Lex.toLex_lt_toLex.2 (.inl h)

theorem lex_beta {r r' : Reg} {K : List String} {pc pc' : Pc} (h0 : phase pc' ≤ phase pc) (h1 : alpha r' K pc' ≤ alpha r K pc) (h2 : beta pc' < beta pc) :
    mu r' K pc' < mu r K pc := by
  unfold mu
  rcases Nat.lt_or_ge (phase pc') (phase pc) with h | h
  · exact Prod.Lex.toLex_lt_toLex.2 (.inl h)
  · refine Prod.Lex.toLex_lt_toLex.2 (.inr ⟨by omega, ?_⟩)
    rcases Nat.lt_or_ge (alpha r' K pc') (alpha r K pc) with h | h
    · exact Prod.Lex.toLex_lt_toLex.2 (.inl h)
    · exact Prod.Lex.toLex_lt_toLex.2 (.inr ⟨by simp only [ofLex_toLex]; omega, h2⟩)

theorem lex_alpha {r r' : Reg} {K : List String} {pc pc' : Pc} (h0 : phase pc' ≤ phase pc) (h1 : alpha r' K pc' < alpha r K pc) :
    mu r' K pc' < mu r K pc := by
  unfold mu
  rcases Nat.lt_or_ge (phase pc') (phase pc) with h | h
  · exact Prod.Lex.toLex_lt_toLex.2 (.inl h)
  · exact Prod.Lex.toLex_lt_toLex.2 (.inr ⟨by omega, Prod.Lex.toLex_lt_toLex.2 (.inl h1)⟩)

/-- A step that does not change the types, from a place where no type is about to be entered to another. -/
theorem lex_same {r : Reg} {K : List String} {pc pc' : Pc} (h0 : phase pc' ≤ phase pc) (hp : pend r pc = []) (he : ended pc = false)
    (h2 : beta pc' < beta pc) : mu r K pc' < mu r K pc :=
  lex_beta h0 (alpha_le (fun k h _ => ⟨h, by rw [hp]; rfl⟩) he) h2

theorem found_mu {r : Reg} {K key : List String} {k : Nat → Pc} {pc : Pc} (h : ∀ i, phase (k i) = 0 ∧ beta (k i) < beta pc) (hp : pend r pc = [])
    (he : ended pc = false) (hb : 0 < beta pc) : mu r K (found r key k) < mu r K pc := by
  unfold found
  split
  · exact lex_same (Nat.zero_le _) hp he hb
  · rename_i i _
    exact lex_same (by rw [(h i).1]; exact Nat.zero_le _) hp he (h i).2

theorem mix_traits {r : Reg} {K : List String} (hK : K.Pairwise (· < ·)) {d : Decl} {f : Option (Frame × List String)} (h : MixOk r K d f) :
    (newTraits r d).Sublist K := by
  cases f with
  | none => exact h.elim
  | some x =>
    obtain ⟨_, _, a, b, rfl, ⟨A, hA, hA'⟩, ⟨B, hB, hB'⟩⟩ := h
    unfold newTraits
    simp only [Option.toList_none, List.nil_append, List.flatMap_cons, List.flatMap_nil, List.append_nil]
    rw [traitsT_eq hA, traitsT_eq hB]
    exact norm_part hK hA' hB'

theorem step_mu {r0 r : Reg} {K : List String} {R : Except PErr (List String)} (hRK : ∀ k, R = .ok k → k = K) {pc : Pc} (hp : PcOk r0 r R pc) (he : ended pc = false) :
    mu (step r pc).1 K (step r pc).2 < mu r K pc := by
  cases pc with
  | start kw =>
    refine lex_phase ?_
    simp only [step, startStep]
    split <;> simp [phase]
  | test key =>
    refine lex_phase ?_
    simp only [step]
    split <;> simp [phase]
  | snap key =>
    refine lex_phase ?_
    simp only [step, snapStep]
    split <;> simp [phase]
  | loop key stock =>
    simp only [step, loopStep]
    split
    · exact lex_same (Nat.zero_le _) rfl rfl (by simp only [beta, roundCost]; omega)
    · split
      · exact lex_same (Nat.zero_le _) rfl rfl (by simp only [beta, roundCost]; omega)
      · rename_i k ks hst
        refine lex_same (by rw [nextBase_phase.1]; exact Nat.zero_le _) rfl rfl ?_
        refine Nat.lt_of_le_of_lt nextBase_beta ?_
        have hlen : (sortK (k :: ks)).length ≤ stock.length := by
          have hins : ∀ (x : List String) (l : List (List String)), (insK x l).length = l.length + 1 := by
            intro x l
            induction l with
            | nil => rfl
            | cons y l ihl =>
              simp only [insK]
              split
              · rfl
              · simp only [List.length_cons, ihl]
          have hsort : ∀ l : List (List String), (sortK l).length = l.length := by
            intro l
            induction l with
            | nil => rfl
            | cons y l ihl => simp only [sortK, hins, ihl, List.length_cons]
          rw [hsort, ← hst]
          exact List.length_filter_le _ _
        simp only [restOf, beta, roundCost, Bool.false_eq_true, if_false]
        have := Nat.mul_le_mul_right (stock.length + 6) hlen
        omega
  | scan f b os sf mix last =>
    cases os with
    | nil =>
      simp only [step]
      have hn : mu r K (nextBase f.key f.stock f.longest f.made f.bases) < mu r K (.scan f b [] sf mix last) := by
        refine lex_same (by rw [nextBase_phase.1]; exact Nat.zero_le _) rfl rfl (Nat.lt_of_le_of_lt nextBase_beta ?_)
        simp only [beta, rest]; omega
      cases mix with
      | none => exact hn
      | some x =>
        cases last with
        | none => exact hn
        | some o =>
          obtain ⟨x1, x2⟩ := x
          refine lex_same (pc' := .base f b o x2) (Nat.zero_le _) rfl rfl (by simp only [beta]; omega)
    | cons o os =>
      simp only [step, scanStep]
      split
      · exact lex_same (Nat.zero_le _) rfl rfl (by simp only [beta, List.length_cons]; omega)
      · split
        · split
          · exact lex_same (Nat.zero_le _) rfl rfl (by simp only [beta, List.length_cons]; omega)
          · exact lex_same (Nat.zero_le _) rfl rfl (by simp only [beta, List.length_cons]; omega)
        · exact lex_same (Nat.zero_le _) rfl rfl (by simp only [beta, List.length_cons]; omega)
  | base f b o p => exact found_mu (fun i => ⟨rfl, by simp only [beta]; omega⟩) rfl rfl (by simp only [beta]; omega)
  | other f bt o p => exact found_mu (fun i => ⟨rfl, by simp only [beta]; omega⟩) rfl rfl (by simp only [beta]; omega)
  | check d f =>
    simp only [step, checkStep]
    split
    · exact lex_same (Nat.zero_le _) rfl rfl (by simp only [beta]; omega)
    · split
      · exact lex_same (Nat.zero_le _) rfl rfl (by simp only [beta]; omega)
      · rename_i hnot
        obtain ⟨K', hR, hm⟩ := hp
        have := hRK K' hR.1
        subst this
        refine lex_alpha (Nat.le_refl _) ?_
        unfold alpha
        simp only [ended, Bool.false_eq_true, if_false, unmade, List.filter_filter]
        refine filter_length_lt (x := newTraits r d) ?_ (List.mem_sublists.2 (mix_traits hR.2 hm)) ?_ ?_
        · intro y hy
          simp only [Bool.and_eq_true] at hy ⊢
          exact ⟨rfl, hy.2⟩
        · simp only [pend, List.contains_nil, Bool.not_false, Bool.true_and]
          cases h : lookupT r.reg (newTraits r d) with
          | none => rfl
          | some _ => rw [h] at hnot; exact absurd rfl hnot
        · simp [pend]
  | make d f =>
    simp only [step]
    rcases makeType_cases r d with h | ⟨m, h⟩
    · rw [h]
      refine lex_beta (r' := r) (pc' := .failed .mroConflict) (Nat.zero_le _) ?_ (by simp only [beta]; omega)
      unfold alpha
      simp [ended]
    · rw [h]
      obtain ⟨K', hR, hm⟩ := hp
      cases f with
      | none => exact hm.elim
      | some x =>
        obtain ⟨f, p⟩ := x
        simp only [madeStep, resume]
        refine lex_beta (by rw [nextBase_phase.1]; exact Nat.zero_le _) ?_ ?_
        · refine alpha_le ?_ rfl
          intro k hk _
          simp only at hk
          rw [lookupT_setT] at hk
          split at hk
          · cases hk
          · rename_i hne
            refine ⟨hk, ?_⟩
            simp only [pend, List.contains_eq_mem, List.mem_singleton, decide_eq_false_iff_not]
            exact fun h => hne h.symm
        · refine Nat.lt_of_le_of_lt (nextBase_beta.trans (restOf_mono (s' := f.stock.length + 1) ?_)) (by simp only [beta, restMade]; omega)
          unfold addKey
          split
          · omega
          · simp
  | final key => exact found_mu (fun i => ⟨rfl, by simp only [beta]; omega⟩) rfl rfl (by simp only [beta]; omega)
  | done i => cases he
  | failed e => cases he

theorem newTraits_mono {r r' : Reg} (h : Mono r r') {K : List String} {d : Decl} {f : Option (Frame × List String)} (hm : MixOk r K d f) :
    newTraits r' d = newTraits r d := by
  cases f with
  | none => exact hm.elim
  | some x =>
    obtain ⟨_, _, a, b, rfl, ⟨A, hA, _⟩, ⟨B, hB, _⟩⟩ := hm
    unfold newTraits
    simp only [List.flatMap_cons, List.flatMap_nil, List.append_nil]
    rw [traitsT_eq hA, traitsT_eq hB, traitsT_eq (h.types _ _ hA), traitsT_eq (h.types _ _ hB)]

theorem other_mu {r0 r r' : Reg} (h : Mono r r') {K : List String} {R : Except PErr (List String)} {pc : Pc} (hp : PcOk r0 r R pc) :
    mu r' K pc ≤ mu r K pc := by
  have hpend : pend r' pc = pend r pc := by
    cases pc with
    | make d f =>
      obtain ⟨K', _, hm⟩ := hp
      simp only [pend]
      rw [newTraits_mono h hm]
    | _ => rfl
  have ha : alpha r' K pc ≤ alpha r K pc := by
    cases he : ended pc with
    | true => unfold alpha; rw [he]; exact Nat.le_refl _
    | false =>
      refine alpha_le ?_ he
      intro k hk hk'
      refine ⟨?_, by rw [← hpend]; exact hk'⟩
      cases hl : lookupT r.reg k with
      | none => rfl
      | some i =>
        have := h.keys k (by rw [hl]; rfl)
        cases hl' : lookupT r'.reg k with
        | none => rw [hl'] at this; cases this
        | some j => rw [hl'] at hk; cases hk
  unfold mu
  rcases Nat.lt_or_ge (alpha r' K pc) (alpha r K pc) with h | h
  · exact le_of_lt (Prod.Lex.toLex_lt_toLex.2 (.inr ⟨rfl, Prod.Lex.toLex_lt_toLex.2 (.inl h)⟩))
  · have : alpha r' K pc = alpha r K pc := by omega
    rw [this]

/-- What the thread wants, or nothing. -/
def wantOr : Except PErr (List String) → List String
  | .ok k => k
  | .error _ => []

/-- The first steps of an endless schedule. -/
def prefixOf (σ : Nat → Nat) (n : Nat) : List Nat := (List.range n).map σ

theorem prefixOf_succ {σ : Nat → Nat} {n : Nat} : prefixOf σ (n + 1) = prefixOf σ n ++ [σ n] := by
  simp [prefixOf, List.range_succ]

theorem run_prefix {s : Sys} {σ : Nat → Nat} {n : Nat} : run s (prefixOf σ (n + 1)) = tick (run s (prefixOf σ n)) (σ n) := by
  rw [prefixOf_succ, run_append]; rfl

theorem run_getElem {r0 : Reg} {Rs : List (Except PErr (List String))} {s : Sys} (h : SysOk r0 Rs s) {i : Nat} {R : Except PErr (List String)} (hR : Rs[i]? = some R) :
    ∃ pc, s.threads[i]? = some pc ∧ PcOk r0 s.reg R pc := by
  have hlt : i < s.threads.length := by rw [h.len]; exact (List.getElem?_eq_some_iff.1 hR).1
  exact ⟨_, List.getElem?_eq_getElem hlt, h.pcs i _ R (List.getElem?_eq_getElem hlt) hR⟩

/-- A thread that is given turns again and again ends. -/
theorem ends {r0 : Reg} (hi : Inv r0) {Rs : List (Except PErr (List String))} {s : Sys} (hs : SysOk r0 Rs s) {i : Nat} {R : Except PErr (List String)}
    (hR : Rs[i]? = some R) {σ : Nat → Nat} (hσ : ∀ m, ∃ n, m ≤ n ∧ σ n = i) :
    ∃ n pc, (run s (prefixOf σ n)).threads[i]? = some pc ∧ ended pc = true := by
  have hok : ∀ n, SysOk r0 Rs (run s (prefixOf σ n)) := fun n => run_ok hi hs
  have key : ∀ x : Nat ×ₗ (Nat ×ₗ Nat), ∀ n pc, (run s (prefixOf σ n)).threads[i]? = some pc → mu (run s (prefixOf σ n)).reg (wantOr R) pc = x →
      ∃ n pc, (run s (prefixOf σ n)).threads[i]? = some pc ∧ ended pc = true := by
    intro x
    induction x using WellFoundedLT.induction with
    | ind x ih =>
      intro n pc hpc hx
      cases he : ended pc with
      | true => exact ⟨n, pc, hpc, he⟩
      | false =>
        -- until its next turn it stays where it is
        obtain ⟨n', hn', hturn⟩ := hσ n
        have wait : ∀ k, (∃ m, n ≤ m ∧ m < n + k ∧ σ m = i) ∨ ((run s (prefixOf σ (n + k))).threads[i]? = some pc ∧
            mu (run s (prefixOf σ (n + k))).reg (wantOr R) pc ≤ x) := by
          intro k
          induction k with
          | zero => exact .inr ⟨hpc, le_of_eq hx⟩
          | succ k ihk =>
            rcases ihk with ⟨m, h1, h2, h3⟩ | ⟨h1, h2⟩
            · exact .inl ⟨m, h1, by omega, h3⟩
            · by_cases ht : σ (n + k) = i
              · exact .inl ⟨n + k, by omega, by omega, ht⟩
              · right
                rw [← Nat.add_assoc, run_prefix]
                have hp := (hok (n + k)).pcs i pc R h1 hR
                refine ⟨?_, (other_mu (tick_mono _ _) hp).trans h2⟩
                unfold tick
                split
                · exact h1
                · simp only [List.getElem?_set, if_neg ht]
                  exact h1
        -- the first turn from `n` on
        have first : ∃ m, n ≤ m ∧ σ m = i ∧ ∀ j, n ≤ j → j < m → σ j ≠ i := by
          have hex : ∃ m, n ≤ m ∧ σ m = i := ⟨n', hn', hturn⟩
          refine ⟨Nat.find hex, (Nat.find_spec hex).1, (Nat.find_spec hex).2, ?_⟩
          intro j hj hlt hji
          exact Nat.find_min hex hlt ⟨hj, hji⟩
        obtain ⟨m, hm1, hm2, hm3⟩ := first
        obtain ⟨h1, h2⟩ : (run s (prefixOf σ m)).threads[i]? = some pc ∧ mu (run s (prefixOf σ m)).reg (wantOr R) pc ≤ x := by
          have := wait (m - n)
          rw [Nat.add_sub_cancel' hm1] at this
          rcases this with ⟨j, hj1, hj2, hj3⟩ | h
          · exact absurd hj3 (hm3 j hj1 hj2)
          · exact h
        have hp := (hok m).pcs i pc R h1 hR
        have hlt := step_mu (K := wantOr R) (fun k hk => by rw [hk]; rfl) hp he
        have htick : run s (prefixOf σ (m + 1)) = ⟨(step (run s (prefixOf σ m)).reg pc).1, (run s (prefixOf σ m)).threads.set i (step (run s (prefixOf σ m)).reg pc).2⟩ := by
          rw [run_prefix, hm2, tick_some h1]
        refine ih _ (lt_of_lt_of_le hlt h2) (m + 1) (step (run s (prefixOf σ m)).reg pc).2 ?_ (by rw [htick])
        rw [htick]
        have hlen : i < (run s (prefixOf σ m)).threads.length := (List.getElem?_eq_some_iff.1 h1).1
        simp [hlen]
  obtain ⟨pc, hpc, _⟩ := run_getElem (hok 0) hR
  exact key _ 0 pc hpc rfl

/-! ## When the type is there -/

/-- The thread is on the way to a type that is registered. -/
def Ready (r0 r : Reg) (K : List String) : Pc → Prop
  | .start kw => traitKey r0 0 (mixKw (defaultsT r0 0) kw) = .ok K ∧ (lookupT r.reg K).isSome = true
  | .test key => key = K ∧ (lookupT r.reg K).isSome = true
  | .final key => key = K ∧ (lookupT r.reg K).isSome = true
  | .done _ => True
  | _ => False

theorem Ready.mono {r0 r r' : Reg} (h : Mono r r') {K : List String} {pc : Pc} (hp : Ready r0 r K pc) : Ready r0 r' K pc := by
  cases pc with
  | start kw => exact ⟨hp.1, h.keys _ hp.2⟩
  | test key => exact ⟨hp.1, h.keys _ hp.2⟩
  | final key => exact ⟨hp.1, h.keys _ hp.2⟩
  | done i => trivial
  | _ => exact hp.elim

theorem Ready.step {r0 r : Reg} (hi : Inv r0) (h : Sound r0 r) {K : List String} {pc : Pc} (hp : Ready r0 r K pc) :
    Ready r0 r K (step r pc).2 ∧ (step r pc).1 = r := by
  cases pc with
  | start kw =>
    obtain ⟨T0, hT0, _⟩ := hi.rootMro
    have hk : traitKey r 0 (mixKw (defaultsT r 0) kw) = .ok K := by
      rw [traitKey_ext hi h.ext (typeAt_lt hT0), defaultsT_eq (h.ext.at hT0), ← defaultsT_eq hT0]
      exact hp.1
    simp only [TraitThreads.step, startStep, hk]
    exact ⟨⟨rfl, hp.2⟩, trivial⟩
  | test key =>
    obtain ⟨rfl, hl⟩ := hp
    simp only [TraitThreads.step, if_pos hl]
    exact ⟨⟨rfl, hl⟩, trivial⟩
  | final key =>
    obtain ⟨rfl, hl⟩ := hp
    obtain ⟨i, hi⟩ := Option.isSome_iff_exists.1 hl
    simp only [TraitThreads.step, found, hi]
    exact ⟨trivial, trivial⟩
  | done i => exact ⟨trivial, rfl⟩
  | _ => exact hp.elim

theorem ready_tick {r0 : Reg} (hi : Inv r0) {s : Sys} (hs : Sound r0 s.reg) {K : List String} {j : Nat} {pc : Pc} (hpc : s.threads[j]? = some pc)
    (h : Ready r0 s.reg K pc) (i : Nat) : ∃ pc', (tick s i).threads[j]? = some pc' ∧ Ready r0 (tick s i).reg K pc' := by
  by_cases hij : i = j
  · subst hij
    have hlt : i < s.threads.length := (List.getElem?_eq_some_iff.1 hpc).1
    rw [tick_some hpc]
    refine ⟨(step s.reg pc).2, by simp [hlt], ?_⟩
    exact (h.step hi hs).1.mono (step_mono _ _)
  · refine ⟨pc, ?_, h.mono (tick_mono s i)⟩
    unfold tick
    split
    · exact hpc
    · simp only [List.getElem?_set, if_neg hij]
      exact hpc

theorem ready_run {r0 : Reg} (hi : Inv r0) {Rs : List (Except PErr (List String))} {K : List String} {j : Nat} : ∀ {is : List Nat} {s : Sys} {pc : Pc}, SysOk r0 Rs s →
    s.threads[j]? = some pc → Ready r0 s.reg K pc → ∃ pc', (run s is).threads[j]? = some pc' ∧ Ready r0 (run s is).reg K pc'
  | [], _, pc, _, hpc, h => ⟨pc, hpc, h⟩
  | i :: is, s, pc, hs, hpc, h => by
    obtain ⟨pc', h1, h2⟩ := ready_tick hi hs.sound hpc h i
    exact ready_run hi (is := is) (tick_ok hi hs i) h1 h2

/-! ## One thread alone -/

/-- So many steps of a thread that is alone. -/
def steps : Nat → Reg × Pc → Reg × Pc
  | 0, x => x
  | n + 1, x => steps n (step x.1 x.2)

/-- The thread gets there. -/
def Gets (x y : Reg × Pc) : Prop := ∃ n, steps n x = y

theorem Gets.rfl {x : Reg × Pc} : Gets x x := ⟨0, Eq.refl _⟩

theorem Gets.head {x y : Reg × Pc} (h : Gets (step x.1 x.2) y) : Gets x y := by
  obtain ⟨n, h⟩ := h
  exact ⟨n + 1, h⟩

theorem steps_add : ∀ {m n : Nat} {x : Reg × Pc}, steps (m + n) x = steps n (steps m x)
  | 0, n, x => by rw [Nat.zero_add]; rfl
  | m + 1, n, x => by
    rw [Nat.add_right_comm]
    simp only [steps]
    exact steps_add

theorem Gets.trans {x y z : Reg × Pc} (h : Gets x y) (h' : Gets y z) : Gets x z := by
  obtain ⟨m, h⟩ := h
  obtain ⟨n, h'⟩ := h'
  exact ⟨m + n, by rw [steps_add, h, h']⟩

theorem gets_scan {r : Reg} {f : Frame} {b : List String} : ∀ {os : List (List String)} {sf : Nat} {mix : Option (List String × List String)} {last : Option (List String)},
    Gets (r, .scan f b os sf mix last) (r, scanEnd f b (scanOthers r f.key b os sf mix last).1 (scanOthers r f.key b os sf mix last).2)
  | [], sf, mix, last => .head .rfl
  | o :: os, sf, mix, last => by
    refine .head ?_
    simp only [step, scanStep, scanOthers]
    split
    · exact gets_scan
    · split
      · split
        · exact .rfl
        · exact gets_scan
      · exact gets_scan

theorem newType_makeType {r : Reg} {d : Decl} (hb : ∀ b ∈ d.bases, b < r.types.length) (hl : lookupT r.reg (newTraits r d) = none) :
    newType r d = makeType r d := by
  unfold newType makeType
  rw [if_neg, hl]
  · rw [setT_append hl]
    simp only
    generalize ClassMeta.merge _ _ = x
    cases x <;> rfl
  · simp only [List.any_eq_true, decide_eq_true_eq, not_exists, not_and, Nat.not_le]
    exact hb

/-- How a thread goes on after a call of `MetaProperty.__new__`. -/
def afterNew (f : Frame) (p : List String) : Except PErr Nat × Reg → Reg × Pc
  | (.error e, r) => (r, .failed e)
  | (.ok _, r) => (r, nextBase f.key (addKey f.stock p) f.longest true f.bases)

theorem gets_check {r : Reg} {d : Decl} (hb : ∀ b ∈ d.bases, b < r.types.length) {f : Frame} {p : List String} :
    Gets (r, .check d (some (f, p))) (afterNew f p (newType r d)) := by
  refine .head ?_
  have hany : ¬ d.bases.any (fun b => decide (r.types.length ≤ b)) = true := by
    simp only [List.any_eq_true, decide_eq_true_eq, not_exists, not_and, Nat.not_le]
    exact hb
  simp only [step, checkStep, if_neg hany]
  cases hl : lookupT r.reg (newTraits r d) with
  | some i =>
    have : newType r d = (.error .typeClash, r) := by
      unfold newType
      rw [if_neg hany, hl]
    rw [this]
    exact .rfl
  | none =>
    rw [newType_makeType hb hl]
    refine .head ?_
    simp only [step, Option.isSome_none, Bool.false_eq_true, if_false]
    generalize makeType r d = x
    obtain ⟨y, r'⟩ := x
    cases y <;> exact .rfl

/-- How a thread goes on after a round of the loop over the bases. -/
def afterBase (key : List String) (longest : Nat) (made : Bool) (bs : List (List String)) : Except PErr (List (List String) × Bool) × Reg → Reg × Pc
  | (.error e, r) => (r, .failed e)
  | (.ok (stock, made'), r) => (r, nextBase key stock longest (made || made') bs)

theorem gets_oneBase {r : Reg} (hi : Inv r) {key : List String} {stock : List (List String)} {longest : Nat} {made : Bool} {bs : List (List String)} {b : List String} :
    Gets (r, .scan ⟨key, stock, longest, made, bs⟩ b (sortK stock) (key.length - b.length) none none)
      (afterBase key longest made bs (oneBase r key stock b)) := by
  refine gets_scan.trans ?_
  unfold oneBase
  simp only
  generalize scanOthers r key b (sortK stock) (key.length - b.length) none none = x
  obtain ⟨mix, last⟩ := x
  have hn : Gets (r, nextBase key stock longest made bs) (afterBase key longest made bs (.ok (stock, false), r)) := by
    simp only [afterBase, Bool.or_false]
    exact .rfl
  cases mix with
  | none => exact hn
  | some mp =>
    cases last with
    | none => exact hn
    | some o =>
      obtain ⟨m, p⟩ := mp
      simp only [scanEnd]
      refine .head ?_
      simp only [step, found]
      cases hbt : lookupT r.reg b with
      | none => exact .rfl
      | some bt =>
        refine .head ?_
        simp only [step, found]
        cases hot : lookupT r.reg o with
        | none => exact .rfl
        | some ot =>
          obtain ⟨B, hB, _⟩ := (hi.reg _ _).1 hbt
          obtain ⟨O, hO, _⟩ := (hi.reg _ _).1 hot
          refine (gets_check ?_).trans ?_
          · intro x hx
            rcases List.mem_cons.1 hx with rfl | hx
            · exact typeAt_lt hB
            · rw [List.mem_singleton] at hx
              subst hx
              exact typeAt_lt hO
          · simp only
            generalize newType r _ = x
            obtain ⟨y, r'⟩ := x
            cases y with
            | error e => exact .rfl
            | ok i =>
              simp only [afterNew, afterBase, Bool.or_true]
              exact .rfl

/-- How a thread goes on after the loop over the bases. -/
def afterEach (key : List String) : Except PErr (List (List String) × Bool) × Reg → Reg × Pc
  | (.error e, r) => (r, .failed e)
  | (.ok (stock, made), r) => (r, if made then .loop key stock else .failed .mixinFailure)

theorem gets_eachBase {key : List String} {longest : Nat} : ∀ {bs : List (List String)} {r : Reg} {stock : List (List String)} {made : Bool}, Inv r →
    Gets (r, nextBase key stock longest made bs) (afterEach key (eachBase key longest r stock made bs))
  | [], r, stock, made, hi => by
    simp only [nextBase, eachBase, afterEach]
    exact .rfl
  | b :: bs, r, stock, made, hi => by
    simp only [nextBase, eachBase]
    split
    · exact gets_eachBase hi
    · refine (gets_oneBase hi).trans ?_
      have hk := (oneBase_keeps r key stock b hi).1
      generalize oneBase r key stock b = x at hk
      obtain ⟨y, r'⟩ := x
      cases y with
      | error e => exact .rfl
      | ok z =>
        obtain ⟨stock', made'⟩ := z
        exact gets_eachBase hk

/-- How a thread goes on after the creation of types. -/
def afterCompose (key : List String) : Except PErr Unit × Reg → Reg × Pc
  | (.error e, r) => (r, .failed e)
  | (.ok _, r) => (r, .final key)

theorem gets_compose {key : List String} : ∀ {n : Nat} {r : Reg} {stock : List (List String)}, Inv r → (compose key n r stock).1 ≠ .error .diverge →
    Gets (r, .loop key stock) (afterCompose key (compose key n r stock))
  | 0, _, _, _, h => absurd (Eq.refl _) h
  | n + 1, r, stock, hi, h => by
    refine .head ?_
    simp only [step, loopStep]
    simp only [compose] at h ⊢
    split
    · exact .rfl
    · rename_i hnot
      rw [if_neg hnot] at h
      cases hst : startWith key stock with
      | nil => exact .rfl
      | cons k ks =>
        simp only [hst] at h ⊢
        refine (gets_eachBase hi).trans ?_
        have hk := (eachBase_keeps key (maxLen (k :: ks)) (sortK (k :: ks)) r stock false hi).1
        generalize eachBase key (maxLen (k :: ks)) r stock false (sortK (k :: ks)) = x at hk h
        obtain ⟨y, r'⟩ := x
        cases y with
        | error e => exact .rfl
        | ok z =>
          obtain ⟨stock', made⟩ := z
          cases made with
          | false => exact .rfl
          | true => exact gets_compose hk h

/-- How a call ends. -/
def ending : Except PErr Nat × Reg → Reg × Pc
  | (.error e, r) => (r, .failed e)
  | (.ok i, r) => (r, .done i)

theorem gets_has {r : Reg} (hi : Inv r) (kw : List (String × Kw)) :
    Gets (r, .start kw) (ending (has r 0 (mixKw (defaultsT r 0) kw))) := by
  have hd := has_noDiverge hi 0 (mixKw (defaultsT r 0) kw)
  refine .head ?_
  simp only [step, startStep]
  unfold has at hd ⊢
  cases hk : traitKey r 0 (mixKw (defaultsT r 0) kw) with
  | error e => exact .rfl
  | ok key =>
    simp only [hk] at hd ⊢
    refine .head ?_
    simp only [step]
    cases hl : lookupT r.reg key with
    | some i =>
      simp only [Option.isSome_some, if_true]
      refine .head ?_
      simp only [step, found, hl]
      exact .rfl
    | none =>
      simp only [Option.isSome_none, Bool.false_eq_true, if_false]
      simp only [hl] at hd
      refine .head ?_
      simp only [step, snapStep]
      unfold create at hd ⊢
      cases hm : missing r key with
      | cons t ts => exact .rfl
      | nil =>
        simp only [hm] at hd ⊢
        have hnd : (compose key (2 ^ key.length + 1) r (stockTypes r key)).1 ≠ .error .diverge := by
          intro h
          apply hd
          have : compose key (2 ^ key.length + 1) r (stockTypes r key) = (.error .diverge, (compose key (2 ^ key.length + 1) r (stockTypes r key)).2) := Prod.ext h (Eq.refl _)
          rw [this]
        refine (gets_compose hi hnd).trans ?_
        generalize compose key (2 ^ key.length + 1) r (stockTypes r key) = x
        obtain ⟨y, r'⟩ := x
        cases y with
        | error e => exact .rfl
        | ok u =>
          simp only [afterCompose]
          refine .head ?_
          simp only [step, found]
          cases hl' : lookupT r'.reg key <;> exact .rfl

theorem gets_call {r : Reg} (hi : Inv r) (kw : List (String × Kw)) (n : Nat) : Gets (r, .start kw) (ending (call (n + 1) r 0 kw)) := by
  refine (gets_has hi kw).trans ?_
  obtain ⟨T0, hT0, hm0, _⟩ := hi.rootMro
  have hk := (has_keeps r 0 (mixKw (defaultsT r 0) kw) hi).2
  unfold call
  rw [if_neg (by have := typeAt_lt hT0; omega)]
  simp only [construct]
  generalize has r 0 (mixKw (defaultsT r 0) kw) = x at hk
  obtain ⟨y, r'⟩ := x
  cases y with
  | error e => exact .rfl
  | ok i =>
    simp only
    rw [after_noBases ⟨T0, hk.at hT0, hm0⟩]
    exact .rfl

theorem run_steps {n : Nat} {x : Reg × Pc} : run ⟨x.1, [x.2]⟩ (List.replicate n 0) = ⟨(steps n x).1, [(steps n x).2]⟩ := by
  induction n generalizing x with
  | zero => rfl
  | succ n ih =>
    simp only [List.replicate_succ, run, steps]
    exact ih

theorem steps_ended {n : Nat} {r : Reg} {pc : Pc} (h : ended pc = true) : steps n (r, pc) = (r, pc) := by
  induction n with
  | zero => rfl
  | succ n ih =>
    cases pc with
    | done i => exact ih
    | failed e => exact ih
    | _ => cases h

theorem ending_ended (x : Except PErr Nat × Reg) : ended (ending x).2 = true := by
  obtain ⟨y, r⟩ := x
  cases y <;> rfl

end Normalize.TraitThreads
