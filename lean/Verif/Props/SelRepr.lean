import Verif.Model.SelRepr
import Verif.Lemmas.ReprEval
import Verif.Props.Mfs

/-! C98: `repr` of selectors prints source that gives the selector back. -/

namespace Normalize.Repr

open Normalize.Spec

/-- The expression of a component. -/
def compEx : Comp → Ex
  | .none => .none
  | .int i => .int i
  | .str s => .str s

theorem reads_comp (pr : Char → Bool) (k : Comp) : Starts (reprKey pr k) ∧ Reads (reprKey pr k) (compEx k) := by
  cases k with
  | none => exact ⟨⟨'N', ['o', 'n', 'e'], by simp only [reprKey]; decide, by decide⟩, reads_none⟩
  | int i => exact ⟨starts_int i, reads_int i⟩
  | str s => exact ⟨starts_str pr _, reads_str pr s⟩

theorem reads_fs (pr : Char → Bool) (q : FS) : Reads (reprFS pr q) (.list (q.map compEx)) := by
  apply reads_list
  induction q with
  | nil => exact .nil
  | cons c q ih => exact .cons (reads_comp pr c) ih

theorem evalComps_fs (q : FS) : evalComps (.list (q.map compEx)) = some q := by
  simp only [evalComps]
  induction q with
  | nil => rfl
  | cons c q ih =>
    rw [List.map_cons, List.mapM_cons, ih]
    cases c <;> rfl

theorem argText_fs (pr : Char → Bool) (q : FS) : ArgText (reprFS pr q) (none, .list (q.map compEx)) := by
  exact ⟨⟨'[', _, rfl, by decide⟩, reads_fs pr q⟩

theorem spell_fs : Spellable "FieldSelector" :=
  ⟨⟨'F', "ieldSelector".toList, by decide, by decide, by decide⟩, by decide⟩

theorem spell_mfs : Spellable "MultiFieldSelector" :=
  ⟨⟨'M', "ultiFieldSelector".toList, by decide, by decide, by decide⟩, by decide⟩

/-- C98: evaluating the `repr` of a field selector gives the selector back, whatever its components are. -/
theorem C98_fs (printable : Char → Bool) (q : FS) : evalFS (fsText printable q) = some q := by
  have h := reads_call spell_fs (ts := [reprFS printable q]) (.cons (argText_fs printable q) .nil)
  have ht : fsText printable q = "FieldSelector".toList ++ ('(' :: join [reprFS printable q] ++ [')']) := rfl
  rw [← ht] at h
  have := h (fsText printable q).length [] (by simp [Delim]) (by simp only [List.length_nil]; omega)
  rw [List.append_nil] at this
  rw [evalFS, this]
  exact (if_pos rfl).trans (evalComps_fs q)

/-- A call with one argument and a comma. -/
theorem reads_call_comma {cls : String} (hcls : Spellable cls) {t : List Char} {a : Option String × Ex}
    (h : ArgText t a) : pExpr (cls.toList ++ ('(' :: t ++ [',', ')'])).length (cls.toList ++ ('(' :: t ++ [',', ')'])) =
      some (.call cls [a], []) := by
  obtain ⟨⟨c, r, hc, h1, _⟩, hk⟩ := id hcls
  have hl : (cls.toList ++ ('(' :: t ++ [',', ')'])).length = (r.length + t.length + 3) + 1 := by
    rw [hc]; simp only [List.length_append, List.length_cons, List.length_nil]; omega
  have hsp := spell_span hcls (c := '(') (t := t ++ [',', ')']) (by decide)
  have ht : cls.toList ++ ('(' :: t ++ [',', ')']) = cls.toList ++ '(' :: (t ++ [',', ')']) := rfl
  have hst := starts_arg h
  have hra := readsAs_arg h (r.length + t.length + 3) [',', ')'] (by simp [Delim]) (by simp; omega)
  have hseq : ∀ n, pSeq (pArg (pExpr (r.length + t.length + 3))) ')' (n + 2) (t ++ [',', ')']) = some ([a], []) := by
    intro n
    rw [pSeq, skip_starts hst, if_neg (starts_ne_close hst (Or.inr (Or.inr rfl))), hra]
    have e1 : skip [',', ')'] = [',', ')'] := by decide
    have e2 : pSeq (pArg (pExpr (r.length + t.length + 3))) ')' (n + 1) [')'] = some ([], []) := by
      rw [pSeq, show skip [')'] = [')'] by decide]
      rfl
    simp only [e1, List.head?_cons, List.tail_cons, e2, show (some ',' = some ')') = False by decide, if_false, if_true]
  have hname : pName (pExpr (r.length + t.length + 3)) (cls.toList ++ '(' :: (t ++ [',', ')'])) =
      some (.call cls [a], []) := by
    have e1 : cls ≠ "None" := fun e => hk (by rw [e]; decide)
    have e2 : cls ≠ "True" := fun e => hk (by rw [e]; decide)
    have e3 : cls ≠ "False" := fun e => hk (by rw [e]; decide)
    have hs : skip ('(' :: (t ++ [',', ')'])) = '(' :: (t ++ [',', ')']) := skip_start (by decide)
    have hlen : (cls.toList ++ '(' :: (t ++ [',', ')'])).length = (r.length + t.length + 2) + 2 := by
      rw [← ht, hl]
    simp only [pName, hsp.1, hsp.2, String.ofList_toList, e1, e2, e3, hk, if_false, hs, List.head?_cons, if_true,
      List.tail_cons, hlen, hseq]
  have hd : ∀ rest, pExpr ((r.length + t.length + 3) + 1) (c :: rest) = pName (pExpr (r.length + t.length + 3)) (c :: rest) := by
    intro rest
    have g := id_start_not h1
    rw [pExpr, if_neg g.1, if_neg g.2.1, if_neg g.2.2.1, if_neg g.2.2.2.1, g.2.2.2.2, if_neg (by decide), if_pos h1]
  rw [hl, ht]
  rw [hc] at hname ⊢
  rw [List.cons_append] at hname ⊢
  rw [hd]
  exact hname

theorem parse_mfs (pr : Char → Bool) (qs : List FS) :
    pExpr ("MultiFieldSelector".toList ++ tupleText (qs.map (reprFS pr))).length
        ("MultiFieldSelector".toList ++ tupleText (qs.map (reprFS pr))) =
      some (.call "MultiFieldSelector" (qs.map (fun q => (none, .list (q.map compEx)))), []) := by
  have hall : ∀ qs : List FS, pExpr ("MultiFieldSelector".toList ++ ('(' :: join (qs.map (reprFS pr)) ++ [')'])).length
        ("MultiFieldSelector".toList ++ ('(' :: join (qs.map (reprFS pr)) ++ [')'])) =
      some (.call "MultiFieldSelector" (qs.map (fun q => (none, .list (q.map compEx)))), []) := by
    intro qs
    have h : List.Forall₂ ArgText (qs.map (reprFS pr)) (qs.map (fun q => (none, Ex.list (q.map compEx)))) := by
      induction qs with
      | nil => exact .nil
      | cons q qs ih => exact .cons (argText_fs pr q) ih
    have := reads_call spell_mfs h _ [] (by simp [Delim]) (Nat.le_refl _)
    simpa using this
  match qs with
  | [] => exact hall []
  | [q] => exact reads_call_comma spell_mfs (argText_fs pr q)
  | q1 :: q2 :: qs => exact hall (q1 :: q2 :: qs)

/-- C98: evaluating the `repr` of a multi-field selector gives a multi-field selector that selects the same paths. -/
theorem C98_mfs {ord ord' : List MArg → List MArg} (ho : Mfs.OrdOK ord) (ho' : Mfs.OrdOK ord') {h : Heads}
    {qs : List FS} (hb : Built ord h qs) (printable : Char → Bool) :
    ∃ h', evalMfs ord' (mfsText printable h) = some (.ok h') ∧
      ∀ p, Mfs.containsPath h' p = Mfs.containsPath h p := by
  obtain ⟨⟨h', h1, h2⟩, _⟩ := C15_iter_rebuild ho hb ord' ho'
  refine ⟨h', ?_, h2⟩
  have hm : ((Mfs.iter h).map (fun q => ((none : Option String), Ex.list (q.map compEx)))).mapM evalArg =
      some ((Mfs.iter h).map MArg.fs) := by
    generalize Mfs.iter h = l
    induction l with
    | nil => rfl
    | cons q l ih =>
      rw [List.map_cons, List.mapM_cons, ih]
      simp only [evalArg, evalComps_fs]
      rfl
  have hp : pExpr (mfsText printable h).length (mfsText printable h) = some (.call "MultiFieldSelector"
      ((Mfs.iter h).map (fun q => (none, .list (q.map compEx)))), []) := parse_mfs printable (Mfs.iter h)
  rw [evalMfs, hp]
  refine (if_pos rfl).trans ?_
  rw [hm, Option.map_some, h1]

/-- Different selectors print differently. -/
theorem C98_fs_distinct (printable : Char → Bool) (p q : FS) (h : fsText printable p = fsText printable q) : p = q := by
  have h1 := C98_fs printable p
  rw [h, C98_fs] at h1
  exact (Option.some.inj h1).symm

example : String.ofList (fsText (fun _ => true) [.str "foo", .int (-7), .none, .str "it's"]) =
    "FieldSelector(['foo', -7, None, \"it's\"])" := by decide +kernel

example : String.ofList (mfsText (fun _ => true) exMfs) =
    "MultiFieldSelector(['a', 'b'], ['a', 'd'], ['c'], [7, None, 'x'])" := by decide +kernel

example : String.ofList (mfsText (fun _ => true) [(.str "a", .all)]) = "MultiFieldSelector(['a'],)" := by
  decide +kernel

/-- The hypotheses of `C98_mfs` are met. -/
example : ∃ h', evalMfs id (mfsText (fun _ => true) exMfs) = some (.ok h') ∧
    ∀ p, Mfs.containsPath h' p = Mfs.containsPath exMfs p :=
  C98_mfs ordOK_id ordOK_id exMfs_built (fun _ => true)

end Normalize.Repr
