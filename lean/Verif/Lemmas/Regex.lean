import Verif.Model.SelectorPath

/-! Lemmas about the matcher and the selector path tokens. -/

namespace Normalize

namespace Re

/-- Remainders of a greedy run over `u` followed by `t`, longest run first. -/
def sufs : List Char → List Char → List (List Char)
  | [], t => [t]
  | c :: u, t => sufs u t ++ [c :: (u ++ t)]

theorem sufs_snoc (u : List Char) (a : Char) (t : List Char) :
    sufs (u ++ [a]) t = t :: sufs u (a :: t) := by
  induction u with
  | nil => simp [sufs]
  | cons c u ih => simp [sufs, ih]

theorem sufs_head (u t : List Char) : ∃ l, sufs u t = t :: l := by
  rcases List.eq_nil_or_concat u with rfl | ⟨u', a, rfl⟩
  · exact ⟨[], rfl⟩
  · rw [List.concat_eq_append, sufs_snoc]; exact ⟨_, rfl⟩

theorem starN_stop (step : List Char → List (Caps × List Char)) (n : Nat) (s : List Char)
    (h : step s = []) : starN step n s = [([], s)] := by
  cases n <;> simp [starN, h]

theorem starN_chr (p : Char → Bool) (u t : List Char) (n : Nat) (hn : u.length ≤ n)
    (hu : ∀ c ∈ u, p c = true) (ht : ∀ c t', t = c :: t' → p c = false) :
    starN (run (chr p)) n (u ++ t) = (sufs u t).map (fun r => ([], r)) := by
  induction u generalizing n with
  | nil =>
    have : run (chr p) t = [] := by
      cases t with
      | nil => rfl
      | cons c t' => simp [run, ht c t' rfl]
    simp [starN_stop _ _ _ this, sufs]
  | cons c u ih =>
    cases n with
    | zero => simp at hn
    | succ n =>
      have hc : p c = true := hu c (by simp)
      have hu' : ∀ d ∈ u, p d = true := fun d hd => hu d (by simp [hd])
      have := ih n (by simpa using hn) hu'
      simp [starN, run, hc, this, sufs, Function.comp_def]

theorem run_star_chr (p : Char → Bool) (u t : List Char)
    (hu : ∀ c ∈ u, p c = true) (ht : ∀ c t', t = c :: t' → p c = false) :
    run (star (chr p)) (u ++ t) = (sufs u t).map (fun r => ([], r)) := by
  simp only [run]
  exact starN_chr p u t _ (by simp) hu ht

theorem run_plus_chr (p : Char → Bool) (c : Char) (u t : List Char) (hc : p c = true)
    (hu : ∀ c ∈ u, p c = true) (ht : ∀ c t', t = c :: t' → p c = false) :
    run (plus (chr p)) (c :: (u ++ t)) = (sufs u t).map (fun r => ([], r)) := by
  have := run_star_chr p u t hu ht
  simp [plus, run.eq_4, run, hc] at this ⊢
  rw [this]

theorem run_plus_chr_fail (p : Char → Bool) (t : List Char)
    (ht : ∀ c t', t = c :: t' → p c = false) : run (plus (chr p)) t = [] := by
  cases t with
  | nil => rfl
  | cons c t' => simp [plus, run, ht c t' rfl]

theorem run_lit_cons (c : Char) (s : List Char) : run (lit c) (c :: s) = [([], s)] := by
  simp [lit, run]

theorem run_lit_ne (c d : Char) (s : List Char) (h : d ≠ c) : run (lit c) (d :: s) = [] := by
  simp [lit, run, h]

end Re

open Re

/-- The alternatives inside the key pattern. -/
private def kstep : List Char → List (Caps × List Char) :=
  run (alt (plus (chr (fun c => c != '\''))) (seq (lit '\\') (lit '\'')))

theorem keyBody_run (s : List Char) : run keyBodyRe s = starN kstep s.length s := rfl

theorem findSome?_congr' {α β : Type} {f g : α → Option β} : ∀ {l : List α}, (∀ x ∈ l, f x = g x) →
    l.findSome? f = l.findSome? g
  | [], _ => rfl
  | x :: l, h => by
    rw [List.findSome?_cons, List.findSome?_cons, h x (by simp),
      findSome?_congr' (l := l) (fun y hy => h y (by simp [hy]))]

theorem starN_caps (step : List Char → List (Caps × List Char))
    (h : ∀ s, ∀ x ∈ step s, x.1 = []) : ∀ n s, ∀ x ∈ starN step n s, x.1 = [] := by
  intro n
  induction n with
  | zero => intro s x hx; simp [starN] at hx; simp [hx]
  | succ n ih =>
    intro s x hx
    simp only [starN, List.mem_append, List.mem_flatMap, List.mem_filter, List.mem_map,
      List.mem_singleton] at hx
    rcases hx with ⟨y, ⟨hy, _⟩, z, hz, rfl⟩ | rfl
    · simp [h s y hy, ih _ z hz]
    · rfl

theorem chr_caps (p : Char → Bool) (s : List Char) : ∀ x ∈ run (chr p) s, x.1 = [] := by
  intro x hx
  cases s with
  | nil => simp [run] at hx
  | cons c s => simp [run] at hx; simp [hx]

theorem seq_caps (a b : Re) (ha : ∀ s, ∀ x ∈ run a s, x.1 = []) (hb : ∀ s, ∀ x ∈ run b s, x.1 = [])
    (s : List Char) : ∀ x ∈ run (seq a b) s, x.1 = [] := by
  intro x hx
  simp only [run, List.mem_flatMap, List.mem_map] at hx
  obtain ⟨y, hy, z, hz, rfl⟩ := hx
  simp [ha _ y hy, hb _ z hz]

theorem keyBody_caps (s : List Char) : ∀ x ∈ run keyBodyRe s, x.1 = [] := by
  refine starN_caps _ ?_ _ _
  intro s x hx
  rw [run.eq_5, List.mem_append] at hx
  rcases hx with hx | hx
  · refine seq_caps _ (star _) (chr_caps _) (fun s => ?_) s x hx
    exact starN_caps _ (chr_caps _) _ _
  · exact seq_caps _ _ (chr_caps _) (chr_caps _) s x hx

/-- Text in which every quote follows a backslash. -/
inductive Esc : List Char → Prop
  | nil : Esc []
  | chr (c : Char) (s : List Char) : c ≠ '\'' → Esc s → Esc (c :: s)
  | quo (s : List Char) : Esc s → Esc ('\\' :: '\'' :: s)

/-- `']` does not occur. -/
def NoQB (s : List Char) : Prop := ¬ ['\'', ']'] <:+: s

/-- A text without escapes, or the part before its first quote. -/
theorem Esc.split {s : List Char} (h : Esc s) :
    (∀ c ∈ s, c ≠ '\'') ∨
    ∃ u v, s = u ++ '\\' :: '\'' :: v ∧ (∀ c ∈ u, c ≠ '\'') ∧ Esc v := by
  induction h with
  | nil => left; simp
  | chr c s hc _ ih =>
    rcases ih with ih | ⟨u, v, rfl, hu, hv⟩
    · left; simpa [hc] using ih
    · right; exact ⟨c :: u, v, rfl, by simpa [hc] using hu, hv⟩
  | quo s hs ih => right; exact ⟨[], s, rfl, by simp, hs⟩

private theorem kstep_quote (t : List Char) : kstep ('\'' :: t) = [] := by
  simp [kstep, run, run_plus_chr_fail, lit]

/-- The greedy key body stops exactly at the first `']`. -/
theorem key_scan {β} (f : List Char → Option β) (rest : List Char) (b : β)
    (hf : f ('\'' :: ']' :: rest) = some b)
    (hnone : ∀ c t, c ≠ ']' → f ('\'' :: c :: t) = none) :
    ∀ (m : Nat) (pre : List Char), pre.length ≤ m → Esc pre → NoQB pre → ∀ n, pre.length ≤ n →
      (starN kstep n (pre ++ '\'' :: ']' :: rest)).findSome? (fun x => f x.2) = some b := by
  intro m
  have hstop : ∀ (n : Nat) (t : List Char), starN kstep n ('\'' :: t) = [([], '\'' :: t)] :=
    fun n t => starN_stop _ _ _ (kstep_quote t)
  induction m with
  | zero =>
    intro pre hm _ _ n _
    have : pre = [] := by cases pre <;> simp_all
    subst this
    simp [hstop, hf]
  | succ m ih =>
    intro pre hm he hq n hn
    rcases he.split with hnoq | ⟨u, v, rfl, hu, hv⟩
    · -- no quotes at all
      cases pre with
      | nil => simp [hstop, hf]
      | cons c w =>
        cases n with
        | zero => simp at hn
        | succ n =>
          have hrun := run_plus_chr (fun c => c != '\'') c w ('\'' :: ']' :: rest)
            (by simpa using hnoq c (by simp)) (fun d hd => by simpa using hnoq d (by simp [hd]))
            (by intro c t h; simp at h; simp [← h.1])
          obtain ⟨l, hl⟩ := sufs_head w ('\'' :: ']' :: rest)
          rw [hl] at hrun
          have : kstep (c :: (w ++ '\'' :: ']' :: rest)) = ([], '\'' :: ']' :: rest) ::
              (l.map (fun r => ([], r)) ++ run (seq (lit '\\') (lit '\''))
                (c :: (w ++ '\'' :: ']' :: rest))) := by
            simp only [kstep, run.eq_5, hrun]; rfl
          simp only [List.cons_append, starN]
          rw [this, List.findSome?_append, List.filter_cons_of_pos (by simp; omega),
            List.flatMap_cons, List.findSome?_append]
          simp [hstop, hf]
    · -- a first quote, preceded by a backslash
      have hq' : NoQB v := fun h => hq (h.trans ⟨u ++ ['\\', '\''], [], by simp⟩)
      have hnext : ∃ c t, v ++ '\'' :: ']' :: rest = c :: t ∧ c ≠ ']' := by
        cases v with
        | nil => exact ⟨'\'', _, rfl, by decide⟩
        | cons c v =>
          refine ⟨c, _, rfl, ?_⟩
          rintro rfl
          exact hq ⟨u ++ ['\\'], v, by simp⟩
      obtain ⟨c1, t1, ht1, hc1⟩ := hnext
      have hvlen : v.length ≤ m := by simp at hm; omega
      have hIH : ∀ k, v.length ≤ k →
          (starN kstep k (v ++ '\'' :: ']' :: rest)).findSome? (fun x => f x.2) = some b :=
        fun k hk => ih v hvlen hv hq' k hk
      -- at the backslash itself
      have hbs : kstep ('\\' :: '\'' :: (v ++ '\'' :: ']' :: rest)) =
          [([], '\'' :: (v ++ '\'' :: ']' :: rest)), ([], v ++ '\'' :: ']' :: rest)] := by
        have h1 := run_plus_chr (fun c => c != '\'') '\\' [] ('\'' :: (v ++ '\'' :: ']' :: rest))
            (by decide) (by simp) (by intro c t h; simp at h; simp [← h.1])
        simp only [List.nil_append, sufs, List.map_cons, List.map_nil] at h1
        simp only [kstep, run.eq_5, h1]
        simp [run, lit]
      have hBS : ∀ k, v.length + 1 ≤ k →
          (starN kstep k ('\\' :: '\'' :: (v ++ '\'' :: ']' :: rest))).findSome? (fun x => f x.2)
            = some b := by
        intro k hk
        cases k with
        | zero => omega
        | succ k =>
          have := hIH k (by omega)
          simp only [starN, hbs]
          rw [List.findSome?_append]
          simp [List.filter_cons, hstop, ht1, hnone c1 t1 hc1]
          rw [ht1] at this
          simp [Function.comp_def, this]
      cases u with
      | nil =>
        simp only [List.nil_append, List.cons_append]
        exact hBS n (by simp at hn; omega)
      | cons c w =>
        cases n with
        | zero => simp at hn
        | succ n =>
          have hrun := run_plus_chr (fun c => c != '\'') c (w ++ ['\\'])
            ('\'' :: (v ++ '\'' :: ']' :: rest))
            (by simpa using hu c (by simp))
            (fun d hd => by
              simp at hd
              rcases hd with hd | rfl
              · simpa using hu d (by simp [hd])
              · decide)
            (by intro c t h; simp at h; simp [← h.1])
          rw [sufs_snoc] at hrun
          obtain ⟨l, hl⟩ := sufs_head w ('\\' :: '\'' :: (v ++ '\'' :: ']' :: rest))
          rw [hl] at hrun
          have hk : kstep (c :: (w ++ '\\' :: '\'' :: (v ++ '\'' :: ']' :: rest))) =
              ([], '\'' :: (v ++ '\'' :: ']' :: rest)) ::
              ([], '\\' :: '\'' :: (v ++ '\'' :: ']' :: rest)) ::
              (l.map (fun r => ([], r)) ++ run (seq (lit '\\') (lit '\''))
                (c :: (w ++ '\\' :: '\'' :: (v ++ '\'' :: ']' :: rest)))) := by
            have e : c :: (w ++ '\\' :: '\'' :: (v ++ '\'' :: ']' :: rest)) =
              c :: ((w ++ ['\\']) ++ '\'' :: (v ++ '\'' :: ']' :: rest)) := by simp
            simp only [kstep, run.eq_5]
            rw [e, hrun]; rfl
          have hB := hBS n (by simp at hn; omega)
          have hlen1 : ('\'' :: (v ++ '\'' :: ']' :: rest)).length <
            (c :: (w ++ '\\' :: '\'' :: (v ++ '\'' :: ']' :: rest))).length := by simp; omega
          have hlen2 : ('\\' :: '\'' :: (v ++ '\'' :: ']' :: rest)).length <
            (c :: (w ++ '\\' :: '\'' :: (v ++ '\'' :: ']' :: rest))).length := by simp; omega
          simp only [List.cons_append, List.append_assoc, starN]
          rw [hk, List.findSome?_append, List.filter_cons_of_pos (by simpa using hlen1),
            List.filter_cons_of_pos (by simpa using hlen2), List.flatMap_cons, List.flatMap_cons,
            List.findSome?_append, List.findSome?_append]
          simp [hstop, ht1, hnone c1 t1 hc1] at hB ⊢
          simp [Function.comp_def, hB]

/-- The same for the whole text. -/
theorem key_scan_run {β} (f : List Char → Option β) (pre rest : List Char) (b : β)
    (hf : f ('\'' :: ']' :: rest) = some b)
    (hnone : ∀ c t, c ≠ ']' → f ('\'' :: c :: t) = none) (he : Esc pre) (hq : NoQB pre) :
    (run keyBodyRe (pre ++ '\'' :: ']' :: rest)).findSome? (fun x => f x.2) = some b := by
  rw [keyBody_run]
  exact key_scan f rest b hf hnone _ pre (Nat.le_refl _) he hq _ (by simp)

end Normalize
