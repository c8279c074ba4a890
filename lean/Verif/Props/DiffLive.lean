import Verif.Spec.DiffLive
import Verif.Props.SelectorObj
import Verif.Props.DiffEx

/-!
# C133: the selectors of a difference belong to whoever gets it
-/

namespace Normalize.DiffLive
open SelObj Spec
open Diff (DInfo)

/-- C133: whatever a consumer does with the selectors of the differences it has got, the next differences are reported with
the right paths. -/
def C133_statement : Prop :=
  ∀ (use : Consumer) (evs : List Ev), Changes use handed → (session use evs).read = (reportAll [] [] evs).map asRead

theorem target_of_becomes {v : Nat → Row} {op : Op} {k : Nat} {r : Row} (h : selOutcome v op = .becomes k r) :
    selTarget op = some k := by
  have hc : ∀ r', checked r' ≠ .becomes k r := by
    intro r' h'
    simp only [checked] at h'
    split at h' <;> simp at h'
  cases op with
  | make xs => exact absurd h (hc _)
  | remake i => exact absurd h (hc _)
  | addProperty i e => rcases e with (s | n | _) | b <;> simp [selOutcome] at h <;> simp [selTarget, h.1]
  | addIndex i e => rcases e with (s | n | _) | b <;> simp [selOutcome] at h <;> simp [selTarget, h.1]
  | addFullCollection i => simp [selOutcome] at h; simp [selTarget, h.1]
  | extend i j => simp [selOutcome] at h; simp [selTarget, h.1]
  | plus i j =>
    simp only [selOutcome] at h
    split at h
    · simp at h
    · exact absurd h (hc _)
  | plusItems i xs => exact absurd h (hc _)
  | plusComp i e =>
    rcases e with (s | n | _) | b
    · exact absurd h (hc _)
    · exact absurd h (hc _)
    all_goals simp [selOutcome] at h
  | slice i lo hi => exact absurd h (hc _)
  | copy i => simp [selOutcome] at h
  | deepcopy i => simp [selOutcome] at h

theorem step_frame {m : Mem} {op : Op} (h : Own m) (hop : NoShallow op) :
    Own (SelObj.step m op).1 ∧ m.objs.length ≤ (SelObj.step m op).1.objs.length ∧
      ∀ i, i < m.objs.length → selTarget op ≠ some i → (SelObj.step m op).1.row i = m.row i := by
  obtain ⟨h1, h2, _⟩ := step_ok h hop
  have hl : (selAct (selValues m) op).length = (SelObj.step m op).1.objs.length := by rw [← h2, values_length]
  refine ⟨h1, ?_, fun i hi ht => ?_⟩
  · rw [← hl, ← values_length m]
    simp only [selAct]
    split <;> simp
  · rw [← values_getD, h2, ← values_getD]
    have hi' : i < (selValues m).length := by rw [values_length]; exact hi
    simp only [selAct]
    split
    · simp [List.getD_eq_getElem?_getD, List.getElem?_append_left hi']
    · rename_i k r hk
      have hki : k ≠ i := by
        rintro rfl
        exact ht (target_of_becomes hk)
      simp [List.getD_eq_getElem?_getD, List.getElem?_set_ne hki]
    · rfl

theorem run_frame {m : Mem} (h : Own m) (ops : List Op) (hops : ∀ op ∈ ops, NoShallow op) :
    Own (SelObj.run m ops).1 ∧ m.objs.length ≤ (SelObj.run m ops).1.objs.length ∧
      ∀ i, i < m.objs.length → (∀ op ∈ ops, selTarget op ≠ some i) → (SelObj.run m ops).1.row i = m.row i := by
  induction ops generalizing m with
  | nil => exact ⟨h, le_refl _, fun _ _ _ => rfl⟩
  | cons op ops ih =>
    obtain ⟨h1, h2, h3⟩ := step_frame h (hops op List.mem_cons_self)
    obtain ⟨h4, h5, h6⟩ := ih h1 (fun o ho => hops o (List.mem_cons_of_mem _ ho))
    refine ⟨h4, le_trans h2 h5, fun i hi ht => ?_⟩
    exact (h6 i (lt_of_lt_of_le hi h2) (fun o ho => ht o (List.mem_cons_of_mem _ ho))).trans
      (h3 i hi (ht op List.mem_cons_self))

/-- `fs + [k]` is a new selector with the path of `fs` and `k`. -/
theorem grow_ok {m : Mem} (h : Own m) {i : Nat} {p : FS} (hp : m.row i = p.map .ok) (k : Comp) :
    Own (grow m i k).1 ∧ (grow m i k).2 = m.objs.length ∧ (grow m i k).1.objs.length = m.objs.length + 1 ∧
      (grow m i k).1.row m.objs.length = (p ++ [k]).map .ok ∧
      ∀ j, j < m.objs.length → (grow m i k).1.row j = m.row j := by
  obtain ⟨h1, h2, _⟩ := step_ok h (op := .plusItems i [.ok k]) trivial
  have ho : selOutcome (fun i => (selValues m).getD i []) (.plusItems i [.ok k]) = .new ((p ++ [k]).map .ok) := by
    simp only [selOutcome, values_getD, hp]
    have : ¬ ∃ e ∈ p.map RawComp.ok ++ [RawComp.ok k], e.valid = false ∧ e.truthy = true := by
      rintro ⟨e, he, hv, _⟩
      simp only [List.mem_append, List.mem_map, List.mem_singleton] at he
      rcases he with ⟨c, _, rfl⟩ | rfl <;> simp [RawComp.valid] at hv
    rw [checked, if_neg this]
    simp
  have h3 : selValues (grow m i k).1 = selValues m ++ [(p ++ [k]).map .ok] := by
    have := h2
    simp only [selAct, ho] at this
    exact this
  refine ⟨h1, rfl, ?_, ?_, fun j hj => ?_⟩
  · rw [← values_length, h3]
    simp [values_length]
  · rw [← values_getD, h3]
    simp [List.getD_eq_getElem?_getD, values_length]
  · rw [← values_getD, h3, ← values_getD]
    have hj' : j < (selValues m).length := by rw [values_length]; exact hj
    simp [List.getD_eq_getElem?_getD, List.getElem?_append_left hj']

/-- The selectors in `C` are in use by the generators and out of reach of the consumer. -/
structure Inv (C : List Nat) (s : Session) : Prop where
  own : Own s.mem
  bound : ∀ c ∈ C, c < s.mem.objs.length
  mine : ∀ i ∈ s.mine, i < s.mem.objs.length ∧ i ∉ C
  handed : ∀ i ∈ handedNew s, i < s.mem.objs.length ∧ i ∉ C
  used : ∀ i ∈ handedUsed s, i < s.mem.objs.length ∧ i ∉ handedNew s
  nodup : (handedNew s).Nodup

/-- Same selectors in use, same contents, and these differences were read. -/
structure Went (C : List Nat) (s t : Session) (ds : List DInfo) : Prop where
  inv : Inv C t
  rows : ∀ c ∈ C, t.mem.row c = s.mem.row c
  read : t.read = s.read ++ ds.map asRead

theorem Inv.grow {C : List Nat} {s : Session} (h : Inv C s) {i : Nat} {p : FS} (hp : s.mem.row i = p.map .ok) (k : Comp) :
    Inv (s.mem.objs.length :: C) { s with mem := (DiffLive.grow s.mem i k).1 } := by
  obtain ⟨h1, _, h3, _, _⟩ := grow_ok h.own hp k
  refine ⟨h1, ?_, ?_, ?_, fun j hj => ⟨?_, (h.used j hj).2⟩, h.nodup⟩
  rotate_right
  · show j < (DiffLive.grow s.mem i k).1.objs.length
    have := (h.used j hj).1
    rw [h3]
    omega
  · intro c hc
    show c < (DiffLive.grow s.mem i k).1.objs.length
    rw [h3]
    rcases List.mem_cons.1 hc with rfl | hc
    · omega
    · have := h.bound c hc
      omega
  · intro j hj
    have := h.mine j hj
    refine ⟨?_, ?_⟩
    · show j < (DiffLive.grow s.mem i k).1.objs.length
      rw [h3]
      omega
    · simp only [List.mem_cons, not_or]
      exact ⟨by omega, this.2⟩
  · intro j hj
    have := h.handed j hj
    refine ⟨?_, ?_⟩
    · show j < (DiffLive.grow s.mem i k).1.objs.length
      rw [h3]
      omega
    · simp only [List.mem_cons, not_or]
      exact ⟨by omega, this.2⟩

/-- After a difference was delivered, the selectors in use are as before. -/
theorem deliver_ok {use : Consumer} (hu : Changes use handedNew) {C : List Nat} {s : Session} (h : Inv C s) (g : Got)
    (d : DInfo) (hd : (g.kind, s.mem.row g.base, s.mem.row g.other) = asRead d)
    (hb : g.newBase = true → g.base < s.mem.objs.length ∧ g.base ∉ C)
    (ho : g.newOther = true → g.other < s.mem.objs.length ∧ g.other ∉ C)
    (hu1 : ∀ i ∈ handedUsed { s with got := s.got ++ [g] }, i < s.mem.objs.length ∧ i ∉ handedNew { s with got := s.got ++ [g] })
    (hn1 : (handedNew { s with got := s.got ++ [g] }).Nodup) : Went C s (deliver use s g) [d] := by
  have hnew : ∀ i ∈ handedNew { s with got := s.got ++ [g], read := s.read ++ [(g.kind, s.mem.row g.base, s.mem.row g.other)] },
      i < s.mem.objs.length ∧ i ∉ C := by
    intro i hi
    simp only [handedNew, List.flatMap_append, List.mem_append, List.flatMap_cons, List.flatMap_nil, List.append_nil] at hi
    rcases hi with hi | hi | hi
    · exact h.handed i hi
    · split at hi
      · rename_i hg
        rw [List.mem_singleton.1 hi]
        exact hb hg
      · cases hi
    · split at hi
      · rename_i hg
        rw [List.mem_singleton.1 hi]
        exact ho hg
      · cases hi
  have hu' := hu { s with got := s.got ++ [g], read := s.read ++ [(g.kind, s.mem.row g.base, s.mem.row g.other)] }
  obtain ⟨h1, h2, h3⟩ := run_frame h.own _ (fun op hop => (hu' op hop).1)
  have hC : ∀ c ∈ C, ∀ op ∈ use { s with got := s.got ++ [g], read := s.read ++ [(g.kind, s.mem.row g.base, s.mem.row g.other)] },
      selTarget op ≠ some c := by
    intro c hc op hop ht
    rcases (hu' op hop).2 c ht with hm | hl | hn
    · exact (h.mine c hm).2 hc
    · have := h.bound c hc
      have hl : s.mem.objs.length ≤ c := hl
      omega
    · exact (hnew c hn).2 hc
  refine ⟨⟨h1, fun c hc => lt_of_lt_of_le (h.bound c hc) h2, ?_, ?_,
    fun i hi => ⟨lt_of_lt_of_le (hu1 i hi).1 h2, (hu1 i hi).2⟩, hn1⟩, ?_, ?_⟩
  · intro i hi
    have hi : i ∈ s.mine ++ (List.range (deliver use s g).mem.objs.length).drop s.mem.objs.length := hi
    rcases List.mem_append.1 hi with hi | hi
    · exact ⟨lt_of_lt_of_le (h.mine i hi).1 h2, (h.mine i hi).2⟩
    · obtain ⟨j, hj, rfl⟩ := List.mem_iff_getElem.1 hi
      simp only [List.getElem_drop, List.getElem_range]
      simp only [List.length_drop, List.length_range] at hj
      refine ⟨by omega, fun hc => ?_⟩
      have := h.bound _ hc
      omega
  · intro i hi
    have := hnew i hi
    exact ⟨lt_of_lt_of_le this.1 h2, this.2⟩
  · intro c hc
    exact h3 c (h.bound c hc) (hC c hc)
  · show s.read ++ [(g.kind, s.mem.row g.base, s.mem.row g.other)] = _
    rw [hd]
    rfl

theorem Inv.weaken {C C' : List Nat} {s : Session} (h : Inv C s) (hs : ∀ c ∈ C', c ∈ C) : Inv C' s :=
  ⟨h.own, fun c hc => h.bound c (hs c hc), fun i hi => ⟨(h.mine i hi).1, fun hc => (h.mine i hi).2 (hs i hc)⟩,
    fun i hi => ⟨(h.handed i hi).1, fun hc => (h.handed i hi).2 (hs i hc)⟩, h.used, h.nodup⟩

theorem used_snoc (s : Session) (g : Got) : handedUsed { s with got := s.got ++ [g] } = handedUsed s ++
    ((if g.newBase then [] else [g.base]) ++ (if g.newOther then [] else [g.other])) := by
  simp [handedUsed]

theorem new_snoc (s : Session) (g : Got) : handedNew { s with got := s.got ++ [g] } = handedNew s ++
    ((if g.newBase then [g.base] else []) ++ (if g.newOther then [g.other] else [])) := by
  simp [handedNew]

/-- A difference with new selectors, and at most one that is in use. -/
theorem snoc_ok {C : List Nat} {s : Session} (h : Inv C s) (g : Got) {n : Nat} (hn : s.mem.objs.length ≤ n)
    (hb : if g.newBase then s.mem.objs.length ≤ g.base ∧ g.base < n else g.base ∈ C)
    (ho : if g.newOther then s.mem.objs.length ≤ g.other ∧ g.other < n else g.other ∈ C)
    (hbo : g.newBase = true → g.newOther = true → g.base ≠ g.other) :
    (∀ i ∈ handedUsed { s with got := s.got ++ [g] }, i < n ∧ i ∉ handedNew { s with got := s.got ++ [g] }) ∧
    (handedNew { s with got := s.got ++ [g] }).Nodup := by
  rw [used_snoc, new_snoc]
  have hC : ∀ i ∈ C, i < s.mem.objs.length ∧ i ∉ handedNew s := fun i hi => ⟨h.bound i hi, fun hx => (h.handed i hx).2 hi⟩
  have hU : ∀ i ∈ handedUsed s, i < s.mem.objs.length ∧ i ∉ handedNew s := h.used
  have hN : ∀ i ∈ handedNew s, i < s.mem.objs.length := fun i hi => (h.handed i hi).1
  obtain ⟨kind, base, other, nb, no⟩ := g
  simp only at hb ho hbo
  have hnew : ∀ i, s.mem.objs.length ≤ i → i ∉ handedNew s := fun i hi hx => by
    have := hN i hx
    omega
  cases nb <;> cases no <;> simp only [Bool.false_eq_true, if_false, if_true] at hb ho
  · have h1 := hC _ hb
    have h2 := hC _ ho
    refine ⟨fun i hi => ?_, by simpa using h.nodup⟩
    simp only [Bool.false_eq_true, if_false, List.mem_append, List.mem_cons, List.not_mem_nil, or_false] at hi ⊢
    rcases hi with hi | rfl | rfl
    · exact ⟨by have := (hU i hi).1; omega, (hU i hi).2⟩
    · exact ⟨by omega, h1.2⟩
    · exact ⟨by omega, h2.2⟩
  · have h1 := hC _ hb
    refine ⟨fun i hi => ?_, ?_⟩
    · simp only [Bool.false_eq_true, if_false, if_true, List.nil_append, List.append_nil, List.mem_append, List.mem_cons, List.not_mem_nil, or_false] at hi ⊢
      rcases hi with hi | rfl
      · exact ⟨by have := (hU i hi).1; omega, by rintro (hx | rfl); exacts [(hU i hi).2 hx, by have := (hU i hi).1; omega]⟩
      · exact ⟨by omega, by rintro (hx | rfl); exacts [h1.2 hx, by omega]⟩
    · simp only [Bool.false_eq_true, if_false, if_true, List.nil_append]
      exact List.nodup_append.2 ⟨h.nodup, by simp, fun a ha b hb' => by
        rw [List.mem_singleton.1 hb']
        rintro rfl
        exact hnew _ ho.1 ha⟩
  · have h2 := hC _ ho
    refine ⟨fun i hi => ?_, ?_⟩
    · simp only [Bool.false_eq_true, if_false, if_true, List.nil_append, List.append_nil, List.mem_append, List.mem_cons, List.not_mem_nil, or_false] at hi ⊢
      rcases hi with hi | rfl
      · exact ⟨by have := (hU i hi).1; omega, by rintro (hx | rfl); exacts [(hU i hi).2 hx, by have := (hU i hi).1; omega]⟩
      · exact ⟨by omega, by rintro (hx | rfl); exacts [h2.2 hx, by omega]⟩
    · simp only [Bool.false_eq_true, if_false, if_true, List.append_nil]
      exact List.nodup_append.2 ⟨h.nodup, by simp, fun a ha b hb' => by
        rw [List.mem_singleton.1 hb']
        rintro rfl
        exact hnew _ hb.1 ha⟩
  · have hne : base ≠ other := hbo rfl rfl
    refine ⟨fun i hi => ?_, ?_⟩
    · simp only [if_true, List.append_nil, List.cons_append, List.nil_append, List.mem_append, List.mem_cons, List.not_mem_nil, or_false] at hi ⊢
      have := hU i hi
      exact ⟨by omega, by rintro (hx | rfl | rfl); exacts [this.2 hx, by omega, by omega]⟩
    · simp only [if_true, List.cons_append, List.nil_append]
      refine List.nodup_append.2 ⟨h.nodup, by simpa using hne, fun a ha b hb' => ?_⟩
      simp only [List.mem_cons, List.not_mem_nil, or_false] at hb'
      rintro rfl
      rcases hb' with rfl | rfl
      · exact hnew _ hb.1 ha
      · exact hnew _ ho.1 ha

mutual

theorem play_ok {use : Consumer} (hu : Changes use handedNew) {C : List Nat} {s : Session} (h : Inv C s) {fa fb : Nat}
    {pa pb : FS} (ha : fa ∈ C) (hb : fb ∈ C) (hpa : s.mem.row fa = pa.map .ok) (hpb : s.mem.row fb = pb.map .ok) :
    (e : Ev) → Went C s (play use fa fb s e) (reportOf pa pb e)
  | .both kind ka kb => by
    obtain ⟨g1, g2, g3, g4, g5⟩ := grow_ok h.own hpa ka
    have hpb' : (grow s.mem fa ka).1.row fb = pb.map .ok := (g5 fb (h.bound fb hb)).trans hpb
    obtain ⟨k1, k2, k3, k4, k5⟩ := grow_ok g1 hpb' kb
    have i1 := h.grow hpa ka
    have i2 := i1.grow hpb' kb
    have hlt : s.mem.objs.length < (grow s.mem fa ka).1.objs.length := by omega
    have hs := snoc_ok h ⟨kind, (grow s.mem fa ka).2, (grow (grow s.mem fa ka).1 fb kb).2, true, true⟩
      (n := (grow (grow s.mem fa ka).1 fb kb).1.objs.length) (by omega) (by simp only [if_true]; omega)
      (by simp only [if_true]; omega) (fun _ _ => by simp only; omega)
    have w := deliver_ok hu (i2.weaken (C' := C) (fun c hc => by simp [hc]))
      ⟨kind, (grow s.mem fa ka).2, (grow (grow s.mem fa ka).1 fb kb).2, true, true⟩ ⟨kind, pa ++ [ka], pb ++ [kb]⟩
      (by
        show (kind, (grow (grow s.mem fa ka).1 fb kb).1.row (grow s.mem fa ka).2,
          (grow (grow s.mem fa ka).1 fb kb).1.row (grow (grow s.mem fa ka).1 fb kb).2) = _
        rw [g2, k2, k4, k5 _ hlt, g4]
        rfl)
      (fun _ => by
        refine ⟨?_, fun hc => ?_⟩
        · show (grow s.mem fa ka).2 < (grow (grow s.mem fa ka).1 fb kb).1.objs.length
          omega
        · have := h.bound _ hc
          have : (grow s.mem fa ka).2 < s.mem.objs.length := this
          omega)
      (fun _ => by
        refine ⟨?_, fun hc => ?_⟩
        · show (grow (grow s.mem fa ka).1 fb kb).2 < (grow (grow s.mem fa ka).1 fb kb).1.objs.length
          omega
        · have := h.bound _ hc
          have : (grow (grow s.mem fa ka).1 fb kb).2 < s.mem.objs.length := this
          omega)
      hs.1 hs.2
    refine ⟨w.inv, fun c hc => ?_, w.read⟩
    have hcb := h.bound c hc
    exact (w.rows c hc).trans ((k5 c (by omega)).trans (g5 c hcb))
  | .removed ka => by
    obtain ⟨g1, g2, g3, g4, g5⟩ := grow_ok h.own hpa ka
    have i1 := h.grow hpa ka
    have hs := snoc_ok h ⟨.removed, (grow s.mem fa ka).2, fb, true, false⟩ (n := (grow s.mem fa ka).1.objs.length) (by omega)
      (by simp only [if_true]; omega) (by simpa using hb) (fun _ h => by simp at h)
    have w := deliver_ok hu (i1.weaken (C' := C) (fun c hc => by simp [hc]))
      ⟨.removed, (grow s.mem fa ka).2, fb, true, false⟩ ⟨.removed, pa ++ [ka], pb⟩
      (by
        show (Diff.DType.removed, (grow s.mem fa ka).1.row (grow s.mem fa ka).2, (grow s.mem fa ka).1.row fb) = _
        rw [g2, g4, g5 fb (h.bound fb hb), hpb]
        rfl)
      (fun _ => by
        refine ⟨?_, fun hc => ?_⟩
        · show (grow s.mem fa ka).2 < (grow s.mem fa ka).1.objs.length
          omega
        · have := h.bound _ hc
          have : (grow s.mem fa ka).2 < s.mem.objs.length := this
          omega)
      (fun hf => by simp at hf) hs.1 hs.2
    exact ⟨w.inv, fun c hc => (w.rows c hc).trans (g5 c (h.bound c hc)), w.read⟩
  | .added kb => by
    obtain ⟨g1, g2, g3, g4, g5⟩ := grow_ok h.own hpb kb
    have i1 := h.grow hpb kb
    have hs := snoc_ok h ⟨.added, fa, (grow s.mem fb kb).2, false, true⟩ (n := (grow s.mem fb kb).1.objs.length) (by omega)
      (by simpa using ha) (by simp only [if_true]; omega) (fun h _ => by simp at h)
    have w := deliver_ok hu (i1.weaken (C' := C) (fun c hc => by simp [hc]))
      ⟨.added, fa, (grow s.mem fb kb).2, false, true⟩ ⟨.added, pa, pb ++ [kb]⟩
      (by
        show (Diff.DType.added, (grow s.mem fb kb).1.row fa, (grow s.mem fb kb).1.row (grow s.mem fb kb).2) = _
        rw [g2, g4, g5 fa (h.bound fa ha), hpa]
        rfl)
      (fun hf => by simp at hf)
      (fun _ => by
        refine ⟨?_, fun hc => ?_⟩
        · show (grow s.mem fb kb).2 < (grow s.mem fb kb).1.objs.length
          omega
        · have := h.bound _ hc
          have : (grow s.mem fb kb).2 < s.mem.objs.length := this
          omega)
      hs.1 hs.2
    exact ⟨w.inv, fun c hc => (w.rows c hc).trans (g5 c (h.bound c hc)), w.read⟩
  | .sub ka kb evs => by
    obtain ⟨g1, g2, g3, g4, g5⟩ := grow_ok h.own hpa ka
    have hpb' : (grow s.mem fa ka).1.row fb = pb.map .ok := (g5 fb (h.bound fb hb)).trans hpb
    obtain ⟨k1, k2, k3, k4, k5⟩ := grow_ok g1 hpb' kb
    have i2 := (h.grow hpa ka).grow hpb' kb
    have hlt : s.mem.objs.length < (grow s.mem fa ka).1.objs.length := by omega
    have w := playAll_ok hu i2 (fa := (grow s.mem fa ka).2) (fb := (grow (grow s.mem fa ka).1 fb kb).2)
      (pa := pa ++ [ka]) (pb := pb ++ [kb]) (by rw [g2]; simp) (by rw [k2]; simp)
      (by
        show (grow (grow s.mem fa ka).1 fb kb).1.row (grow s.mem fa ka).2 = _
        rw [g2, k5 _ hlt, g4])
      (by
        show (grow (grow s.mem fa ka).1 fb kb).1.row (grow (grow s.mem fa ka).1 fb kb).2 = _
        rw [k2, k4])
      evs
    refine ⟨w.inv.weaken (fun c hc => by simp [hc]), fun c hc => ?_, w.read⟩
    have hcb := h.bound c hc
    exact (w.rows c (by simp [hc])).trans ((k5 c (by omega)).trans (g5 c hcb))

theorem playAll_ok {use : Consumer} (hu : Changes use handedNew) {C : List Nat} {s : Session} (h : Inv C s) {fa fb : Nat}
    {pa pb : FS} (ha : fa ∈ C) (hb : fb ∈ C) (hpa : s.mem.row fa = pa.map .ok) (hpb : s.mem.row fb = pb.map .ok) :
    (evs : List Ev) → Went C s (playAll use fa fb s evs) (reportAll pa pb evs)
  | [] => ⟨h, fun _ _ => rfl, by simp [playAll, reportAll]⟩
  | e :: es => by
    have w1 := play_ok hu h ha hb hpa hpb e
    have w2 := playAll_ok hu w1.inv ha hb ((w1.rows fa ha).trans hpa) ((w1.rows fb hb).trans hpb) es
    refine ⟨w2.inv, fun c hc => (w2.rows c hc).trans (w1.rows c hc), ?_⟩
    show (playAll use fa fb (play use fa fb s e) es).read = _
    rw [w2.read, w1.read]
    simp [reportAll]

end

theorem session_ok (use : Consumer) (evs : List Ev) (hu : Changes use handedNew) :
    Went [0] { mem := (SelObj.step start (.make [])).1 } (session use evs) (reportAll [] [] evs) :=
  playAll_ok hu ⟨(step_ok own_start (op := .make []) trivial).1, by decide, by decide, by decide, by decide, by decide⟩
    (fa := 0) (fb := 0) (pa := []) (pb := []) (by simp) (by simp) rfl rfl evs

/-- C133 (partial): it holds of consumers that leave alone `other` of items that were removed and `base` of items that were
added, which are the selectors that the generator goes on to use (`C133_violated`).  They may change all other selectors that
they got, and those that they made. -/
theorem C133_partial (use : Consumer) (evs : List Ev) (hu : Changes use handedNew) :
    (session use evs).read = (reportAll [] [] evs).map asRead := by
  simpa using (session_ok use evs hu).read

/-- All the selectors that such a consumer may change are different objects, which nobody else has: each was handed out with
one difference only, on one side. -/
theorem C133_distinct (use : Consumer) (evs : List Ev) (hu : Changes use handedNew) :
    (handedNew (session use evs)).Nodup ∧ (∀ i ∈ handedUsed (session use evs), i ∉ handedNew (session use evs)) ∧
    (session use evs).mem.objs.Nodup :=
  have h := (session_ok use evs hu).inv
  ⟨h.nodup, fun i hi => (h.used i hi).2, h.own.nodup⟩

/-- Two items were added to a list, and the consumer extends the path of the list that it got with the first. -/
def extender : Consumer := fun s => match s.got with
  | [g] => [.addProperty g.base (.ok (.str "x"))]
  | _ => []

/-- The path of the second is wrong on both sides, because both sides start with one selector. -/
example : (session extender [.added (.int 0), .added (.int 1)]).read =
    [(.added, [], [.ok (.int 0)]), (.added, [.ok (.str "x")], [.ok (.str "x"), .ok (.int 1)])] := by decide +kernel

theorem C133_violated : ¬ C133_statement := by
  intro h
  have := h extender [.added (.int 0), .added (.int 1)] ?_
  · exact absurd this (by decide +kernel)
  · intro s op hop
    unfold extender at hop
    split at hop
    · rename_i g hg
      rw [List.mem_singleton.1 hop]
      refine ⟨trivial, fun i hi => .inr (.inr ?_)⟩
      simp only [selTarget, Option.some.injEq] at hi
      simp [handed, hg, ← hi]
    · cases hop

/-! ## The comparisons as events -/

open Diff

variable {E F : Type} [DecidableEq E] [DecidableEq F]

theorem report_append (pa pb : FS) (es fs : List Ev) : reportAll pa pb (es ++ fs) = reportAll pa pb es ++ reportAll pa pb fs := by
  induction es with
  | nil => rfl
  | cons e es ih => simp [reportAll, ih]

/-- What a comparison reports, at whatever paths, are these events. -/
def Uniform (g : FS → FS → Gen) : Prop :=
  ∃ (evs : List Ev) (e : Option Exc), ∀ fa fb, (g fa fb).out = reportAll fa fb evs ∧ (g fa fb).exc = e

theorem Uniform.nil : Uniform (fun _ _ => Gen.nil) := ⟨[], none, fun _ _ => ⟨rfl, rfl⟩⟩

theorem Uniform.raise (e : Exc) : Uniform (fun _ _ => Gen.raise e) := ⟨[], some e, fun _ _ => ⟨rfl, rfl⟩⟩

theorem Uniform.both (k : DType) (ka kb : Comp) : Uniform (fun fa fb => Gen.yield k (fa ++ [ka]) (fb ++ [kb])) :=
  ⟨[.both k ka kb], none, fun _ _ => ⟨rfl, rfl⟩⟩

theorem Uniform.removed (ka : Comp) : Uniform (fun fa fb => Gen.yield .removed (fa ++ [ka]) fb) :=
  ⟨[.removed ka], none, fun _ _ => ⟨rfl, rfl⟩⟩

theorem Uniform.added (kb : Comp) : Uniform (fun fa fb => Gen.yield .added fa (fb ++ [kb])) :=
  ⟨[.added kb], none, fun _ _ => ⟨rfl, rfl⟩⟩

theorem Uniform.append {g h : FS → FS → Gen} (hg : Uniform g) (hh : Uniform h) : Uniform (fun fa fb => g fa fb ++ h fa fb) := by
  obtain ⟨es, e, he⟩ := hg
  obtain ⟨fs, f, hf⟩ := hh
  cases e with
  | none =>
    refine ⟨es ++ fs, f, fun fa fb => ⟨?_, ?_⟩⟩
    · rw [Gen.out_append (he fa fb).2, (he fa fb).1, (hf fa fb).1, report_append]
    · have : (g fa fb ++ h fa fb).exc = (h fa fb).exc := by
        simp only [Gen.append_def, Gen.append, (he fa fb).2]
      rw [this, (hf fa fb).2]
  | some x =>
    refine ⟨es, some x, fun fa fb => ?_⟩
    have : g fa fb ++ h fa fb = g fa fb := Gen.append_raised (he fa fb).2
    simp only [this]
    exact he fa fb

theorem Uniform.when {g : FS → FS → Gen} (b : Bool) (hg : Uniform g) : Uniform (fun fa fb => Gen.when b (g fa fb)) := by
  cases b with
  | true => exact hg
  | false => exact .nil

theorem Uniform.bindE {α : Type} {r : Except Exc α} {g : α → FS → FS → Gen} (hg : ∀ a, r = .ok a → Uniform (g a)) :
    Uniform (fun fa fb => Gen.bindE r (fun a => g a fa fb)) := by
  cases r with
  | error e => exact .raise e
  | ok a => exact hg a rfl

theorem Uniform.forEach {α : Type} {g : α → FS → FS → Gen} (l : List α) (hg : ∀ a, Uniform (g a)) :
    Uniform (fun fa fb => Gen.forEach (fun a => g a fa fb) l) := by
  induction l with
  | nil => exact .nil
  | cons x xs ih => exact (hg x).append ih

/-- A comparison below a key on either side. -/
theorem Uniform.sub {g : FS → FS → Gen} (hg : Uniform g) (ka kb : Comp) :
    Uniform (fun fa fb => g (fa ++ [ka]) (fb ++ [kb])) := by
  obtain ⟨es, e, he⟩ := hg
  exact ⟨[.sub ka kb es], e, fun fa fb => ⟨by simp [reportAll, reportOf, (he _ _).1], (he _ _).2⟩⟩

mutual

theorem kinds_report (pa pb qa qb : FS) : (e : Ev) → (reportOf pa pb e).map (·.kind) = (reportOf qa qb e).map (·.kind)
  | .both _ _ _ => rfl
  | .removed _ => rfl
  | .added _ => rfl
  | .sub ka kb evs => kinds_reportAll _ _ _ _ evs

theorem kinds_reportAll (pa pb qa qb : FS) :
    (es : List Ev) → (reportAll pa pb es).map (·.kind) = (reportAll qa qb es).map (·.kind)
  | [] => rfl
  | e :: es => by simp [reportAll, kinds_report pa pb qa qb e, kinds_reportAll pa pb qa qb es]

end

/-- The kinds do not depend on the paths. -/
theorem Uniform.kinds {g : FS → FS → Gen} (hg : Uniform g) : ∃ (ks : List DType) (e : Option Exc), ∀ fa fb,
    (g fa fb).out.map (·.kind) = ks ∧ (g fa fb).exc = e := by
  obtain ⟨es, e, he⟩ := hg
  exact ⟨(reportAll [] [] es).map (·.kind), e, fun fa fb => ⟨by rw [(he fa fb).1]; exact kinds_reportAll .., (he fa fb).2⟩⟩

theorem uniform_matched (o : Opts) (k : Comp × Comp) : Uniform (fun fa fb => matched o fa fb k) := by
  unfold matched
  split
  · exact .both ..
  · exact .when _ (.both ..)

theorem uniform_simple (H : Hooks E F) (o : Opts) (a b : Option Val) : Uniform (fun fa fb => compareSimple H o a b fa fb) := by
  unfold compareSimple
  refine .bindE fun A _ => .bindE fun B _ => ?_
  unfold compareBags
  exact (((Uniform.when _ (.forEach _ fun k => uniform_matched o k)).append (.forEach _ fun e => .when _ (.removed _))).append
    (.forEach _ fun e => .when _ (.added _))).append (.forEach _ fun k => .both ..)

/-- All comparisons that one makes. -/
def UniformRec (rec : Rec) : Prop := ∀ a b, Uniform (rec a b)

theorem uniform_net {o : Opts} {g : FS → FS → Gen} (hg : Uniform g) (ka kb : Comp) :
    Uniform (fun fa fb => net o (fa ++ [ka]) (fb ++ [kb]) (g (fa ++ [ka]) (fb ++ [kb]))) := by
  obtain ⟨ks, e, h⟩ := hg.kinds
  cases e with
  | some e =>
    have : (fun fa fb => net o (fa ++ [ka]) (fb ++ [kb]) (g (fa ++ [ka]) (fb ++ [kb]))) = fun _ _ => Gen.raise e := by
      funext fa fb
      simp only [net, (h (fa ++ [ka]) (fb ++ [kb])).2]
    rw [this]
    exact .raise e
  | none =>
    simp only [net, (h _ _).1, (h _ _).2]
    split
    · exact .when _ (.both ..)
    · exact .both ..
    · exact .raise _

theorem uniform_vals (H : Hooks E F) (o : Opts) {rec : Rec} (hr : UniformRec rec) (va vb : Option Val) (ka kb : Comp) :
    Uniform (fun fa fb => compareVals H o rec va vb (fa ++ [ka]) (fb ++ [kb])) := by
  unfold compareVals
  cases va with
  | none =>
    cases vb with
    | none => exact .nil
    | some y =>
      simp only
      split
      · exact uniform_net (hr _ _) ka kb
      · exact .both ..
  | some x =>
    cases vb with
    | none =>
      simp only
      split
      · exact uniform_net (hr _ _) ka kb
      · exact .both ..
    | some y =>
      simp only
      split
      · exact (hr _ _).sub ka kb
      · refine .bindE fun eq _ => ?_
        cases eq with
        | true => exact .when _ (.both ..)
        | false => exact .both ..

theorem uniform_record (H : Hooks E F) {o : Opts} (hf : o.active = none) {rec : Rec} (hr : UniformRec rec) (a b : Option Val) :
    Uniform (fun fa fb => compareRecord H o rec a b fa fb) := by
  unfold compareRecord
  split
  · exact .raise _
  · refine .forEach _ fun p => ?_
    have : (fun fa fb => compareProp H o rec a b fa fb p) = fun fa fb => Gen.when (!(!o.extraneous && p.extraneous))
        (.bindE (H.normSlot (readSlot H a p.name) p a) (fun va =>
          .bindE (H.normSlot (readSlot H b p.name) p b) (fun vb =>
            compareVals H o rec va vb (fa ++ [.str p.name]) (fb ++ [.str p.name])))) := by
      funext fa fb
      simp [compareProp, isFiltered, hf]
    rw [this]
    exact .when _ (.bindE fun va _ => .bindE fun vb _ => uniform_vals H o hr va vb _ _)

theorem uniform_descend {rec : Rec} (hr : UniformRec rec) (a b : Option Val) (k : Comp × Comp) :
    Uniform (fun fa fb => descend rec a b fa fb k) := by
  unfold descend
  exact .bindE fun x _ => .bindE fun y _ => (hr _ _).sub _ _

theorem uniform_fuzzy (o : Opts) {rec : Rec} (hr : UniformRec rec) (a b : Option Val) (p : Ent (Diff.Id E) × Ent (Diff.Id E)) :
    Uniform (fun fa fb => fuzzyPair o rec a b fa fb p) := by
  obtain ⟨ks, e, h⟩ := (uniform_descend hr a b (p.1.2, p.2.2)).kinds
  have ha : ∀ fa fb, anyDiffs (descend rec a b fa fb (p.1.2, p.2.2)) = ks.any (fun t => decide (t ≠ .noChange)) := by
    intro fa fb
    rw [← (h fa fb).1]
    simp [anyDiffs, List.any_map, Function.comp_def]
  unfold fuzzyPair
  refine (uniform_descend hr a b _).append ?_
  simp only [ha]
  split
  · exact .both ..
  · exact .when _ (.both ..)

theorem uniform_members (H : Hooks E F) (o : Opts) {rec : Rec} (hr : UniformRec rec) (a b : Option Val)
    (A B : List (Ent (Diff.Id E))) : Uniform (fun fa fb => compareMembers H o rec a b fa fb A B) := by
  unfold compareMembers
  split
  · unfold compareKeys
    exact ((Uniform.forEach _ fun k => .when _ (.bindE fun x _ => .bindE fun y _ => (hr _ _).sub _ _)).append
      (.forEach _ fun k => .removed _)).append (.forEach _ fun k => .added _)
  · split
    · unfold compareOne
      refine .forEach _ fun e => ?_
      unfold descendOne
      cases a with
      | none => exact .bindE fun y _ => (hr _ _).sub _ _
      | some x => exact .bindE fun y _ => (hr _ _).sub _ _
    · unfold compareIds
      exact (Uniform.when _ (.forEach _ fun k => uniform_descend hr a b k)).append (.bindE fun ps _ =>
        (((Uniform.forEach _ fun p => uniform_fuzzy o hr a b p).append
          (.when _ (.forEach _ fun k => uniform_matched o k))).append (.forEach _ fun e => .removed _)).append
          (.forEach _ fun e => .added _))

theorem uniform_records (H : Hooks E F) {o : Opts} (hf : o.active = none) {rec : Rec} (hr : UniformRec rec) (it : Ident.Ty)
    (a b : Option Val) : Uniform (fun fa fb => compareRecords H o rec it a b fa fb) := by
  have : (fun fa fb => compareRecords H o rec it a b fa fb) = fun fa fb =>
      Gen.bindE (collBag H o (idType o it) (.fixed none) [] a) (fun A =>
        .bindE (collBag H o (idType o it) (.fixed none) [] b) (fun B => compareMembers H o rec a b fa fb A B)) := by
    funext fa fb
    simp [compareRecords, idArgs, hf, Gen.bindE, IdArgs.dead, collBag, IdArgs.looksAt]
  rw [this]
  exact .bindE fun A _ => .bindE fun B _ => uniform_members H o hr a b A B

theorem uniform_dispatch (H : Hooks E F) {o : Opts} (hf : o.active = none) {rec : Rec} (hr : UniformRec rec) (a b : Option Val) :
    Uniform (fun fa fb => dispatch H o rec a b fa fb) := by
  have hc : ∀ c, Uniform (fun fa fb => compareColl H o rec c a b fa fb) := by
    intro c
    unfold compareColl
    split
    · exact .raise _
    · exact .raise _
    · exact uniform_simple H o a b
    · exact uniform_records H hf hr _ a b
  unfold dispatch
  split
  · exact uniform_simple H o a b
  · exact uniform_simple H o a b
  · exact uniform_record H hf hr a b
  · exact (hc _).append (uniform_record H hf hr a b)
  · exact (hc _).append (uniform_record H hf hr a b)
  · exact .nil
  · exact .nil

theorem uniform_diff (H : Hooks E F) {o : Opts} (hf : o.active = none) : ∀ n, UniformRec (diffIter H o n)
  | 0 => fun _ _ => .raise _
  | n + 1 => fun a b => uniform_dispatch H hf (uniform_diff H hf n) a b

/-- C133 for comparisons (without a filter): what `diff_iter` does with selectors are some events, which say what it reports
at any paths that it may be started with, and a consumer that leaves alone the selectors named in `C133_partial` reads what is
to be reported. -/
theorem C133_diff_partial (H : Hooks E F) (o : Opts) (hf : o.compareFilter = none) (n : Nat) (x y : Val) : ∃ evs : List Ev,
    (∀ fa fb, (diffIter H o n (some x) (some y) fa fb).out = reportAll fa fb evs) ∧
    ∀ use, Changes use handedNew → (session use evs).read = (diff H o n x y).out.map asRead := by
  obtain ⟨evs, e, h⟩ := uniform_diff H (o := o) (by simp [Opts.active, hf]) n (some x) (some y)
  refine ⟨evs, fun fa fb => (h fa fb).1, fun use hu => ?_⟩
  rw [C133_partial use evs hu, Diff.diff, (h [] []).1]

/-- A consumer that makes a selector for what it got and changes that, and changes the new selectors that it got. -/
def tidy : Consumer := fun s => match s.got.getLast? with
  | some ⟨.removed, b, _, true, _⟩ => [.slice b (some 1) none, .addProperty s.mem.objs.length (.ok (.str "x")), .addFullCollection b]
  | _ => []

theorem tidy_changes : Changes tidy handedNew := by
  intro s op hop
  unfold tidy at hop
  split at hop
  · rename_i b c d hg
    have hm : (⟨.removed, b, c, true, d⟩ : Got) ∈ s.got := List.mem_of_getLast? hg
    simp only [List.mem_cons, List.not_mem_nil, or_false] at hop
    rcases hop with rfl | rfl | rfl
    · exact ⟨trivial, fun i hi => by simp [selTarget] at hi⟩
    · exact ⟨trivial, fun i hi => by simp [selTarget] at hi; exact .inr (.inl (by omega))⟩
    · refine ⟨trivial, fun i hi => .inr (.inr ?_)⟩
      simp only [selTarget, Option.some.injEq] at hi
      subst hi
      exact List.mem_flatMap.2 ⟨_, hm, by simp⟩
  · cases hop

/-- It reads the right paths, below a property and at the top. -/
example : Changes tidy handedNew ∧
    (session tidy [.sub (.str "tags") (.str "tags") [.removed (.int 1), .removed (.int 2), .added (.int 0)],
      .both .modified (.str "title") (.str "title")]).read =
      [(.removed, [.ok (.str "tags"), .ok (.int 1)], [.ok (.str "tags")]),
       (.removed, [.ok (.str "tags"), .ok (.int 2)], [.ok (.str "tags")]),
       (.added, [.ok (.str "tags")], [.ok (.str "tags"), .ok (.int 0)]),
       (.modified, [.ok (.str "title")], [.ok (.str "title")])] :=
  ⟨tidy_changes, by decide +kernel⟩

end Normalize.DiffLive
