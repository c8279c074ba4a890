import Verif.Lemmas.SelectorPath
import Verif.Props.Mfs

/-!
# C02, C17: the text form of selectors
-/

namespace Normalize

open Spec

/-! ## C02 -/

/-- C02 as promised: `FieldSelector.from_path(fs.path) == fs` for every selector. -/
def C02_statement : Prop :=
  ∀ (cc : CharClass), cc.Lawful → ∀ fs : FS, FS.fromPath cc (FS.path cc fs) = fs

/-- C02, exactly: the text form reads back as the same selector iff every component is representable. -/
theorem C02_roundtrip_iff (cc : CharClass) (hcc : cc.Lawful) (fs : FS) :
    FS.fromPath cc (FS.path cc fs) = fs ↔ ∀ c ∈ fs, Representable cc c :=
  scan_path_iff cc hcc fs

/-- The promise is broken: a negative index is lost, an empty key is lost, a key containing `']` is cut
short, and an identifier followed by a newline loses the newline. -/
theorem C02_violated : ¬ C02_statement ∧
    FS.fromPath .ascii (FS.path .ascii [.str "a", .int (-1)]) = [.str "a"] ∧
    FS.fromPath .ascii (FS.path .ascii [.str "a", .str ""]) = [.str "a"] ∧
    FS.fromPath .ascii (FS.path .ascii [.str "a']b"]) = [.str "a\\"] ∧
    FS.fromPath .ascii (FS.path .ascii [.str "foo\n"]) = [.str "foo"] := by
  refine ⟨fun h => ?_, by decide +kernel, by decide +kernel, by decide +kernel, by decide +kernel⟩
  have := h .ascii CharClass.ascii_lawful [.int (-1)]
  exact absurd this (by decide +kernel)

/-- C02 (partial): it holds for every selector made of representable components.  Missing: negative
indices, empty keys, keys containing `']`, identifiers followed by a newline (`C02_violated`). -/
theorem C02_roundtrip_partial (cc : CharClass) (hcc : cc.Lawful) (fs : FS)
    (h : ∀ c ∈ fs, Representable cc c) : FS.fromPath cc (FS.path cc fs) = fs :=
  scan_path cc hcc fs h

/-- Distinct selectors made of representable components have distinct text forms. -/
theorem C02_path_injective (cc : CharClass) (hcc : cc.Lawful) (a b : FS)
    (ha : ∀ c ∈ a, Representable cc c) (hb : ∀ c ∈ b, Representable cc c)
    (h : FS.path cc a = FS.path cc b) : a = b := by
  rw [← scan_path cc hcc a ha, h, scan_path cc hcc b hb]

/-- A selector that exercises every kind of token. -/
def exPathFS : FS := [.str "foo", .int 12, .str "b 'ar\\", .none, .str "baz"]

example : FS.path .ascii exPathFS = ".foo[12]['b \\'ar\\\\'][*].baz".toList := by decide +kernel

example : ∀ c ∈ exPathFS, Representable .ascii c := by
  rw [← C02_roundtrip_iff .ascii CharClass.ascii_lawful]
  decide +kernel

/-! ## C17 -/

open Mfs

/-- Components of a tree are representable if those of the selectors it yields are. -/
theorem repT_of_iter {cc : CharClass} {h : Heads} (w : WF h)
    (hr : ∀ q ∈ iter h, ∀ c ∈ q, Representable cc c) : ∀ d t, (d, t) ∈ h → RepT cc d t := by
  induction w with
  | mk h hnd hsingle hne hsub ih =>
    intro d t hm
    cases t with
    | all => exact .all (hr [d] (single_mem_iter.2 hm) d (by simp))
    | node s =>
      obtain ⟨q, hq⟩ := iter_ne_nil (hsub d s hm) (hne d s hm)
      have hmem : ∀ q ∈ iter s, d :: q ∈ iter h := by
        intro q hq
        rw [mem_iter]
        exact ⟨d, .node s, hm, by rw [iterT]; exact List.mem_map.2 ⟨q, hq, rfl⟩⟩
      exact .node (hr _ (hmem q hq) d (by simp)) (hne d s hm)
        (ih d s hm (fun q hq c hc => hr _ (hmem q hq) c (by simp [hc])))

/-- C17 for every MultiFieldSelector. -/
def C17_statement : Prop :=
  ∀ (cc : CharClass), cc.Lawful → ∀ ord, OrdOK ord → ∀ h qs, Built ord h qs →
    ∃ h', fromPath cc ord (path cc h) = .ok h' ∧ ∀ p, containsPath h' p = containsPath h p

/-- It is false of the empty MultiFieldSelector: its path `()` reads back as the one that contains
everything. -/
theorem C17_violated : ¬ C17_statement := by
  intro hs
  obtain ⟨h', e, hc⟩ := hs .ascii CharClass.ascii_lawful id ordOK_id [] [] (.mk .nil rfl)
  have : fromPath .ascii id (path .ascii []) = .ok completeHeads := by
    have h1 : scanMfsPath .ascii (path .ascii []) = .ok [[]] := by decide +kernel
    simp only [fromPath, h1]
    rfl
  rw [this] at e
  injection e with e
  subst e
  have := hc []
  simp [completeHeads, containsPath, complete, hasNone, lookup] at this

/-- C17 (partial): for a non-empty MultiFieldSelector all of whose selectors have representable
components, the text form parses without raising, to exactly the selectors that iterating yields (in the
same order), and gives a MultiFieldSelector with the same members.  Missing: the empty one
(`C17_violated`) and components that are not representable (`C02_violated`). -/
theorem C17_roundtrip_partial (cc : CharClass) (hcc : cc.Lawful) {ord ord' : List MArg → List MArg}
    (ho : OrdOK ord) (ho' : OrdOK ord') {h : Heads} {qs : List FS} (hb : Built ord h qs) (hne : qs ≠ [])
    (hr : ∀ q ∈ iter h, ∀ c ∈ q, Representable cc c) :
    scanMfsPath cc (path cc h) = .ok (iter h) ∧
    ∃ h', fromPath cc ord' (path cc h) = .ok h' ∧ ∀ p, containsPath h' p = containsPath h p := by
  obtain ⟨w, _, hemp⟩ := built_sound ho hb
  have h1 := scan_mfs_path cc hcc h (fun e => hne (hemp.1 e)) (repT_of_iter w hr)
  refine ⟨h1, ?_⟩
  simp only [fromPath, h1]
  exact (C15_iter_rebuild ho hb ord' ho').1

example : path .ascii exMfs = "(.a(.b|.d)|.c|[7][*].x)".toList := by decide +kernel

example : ∀ q ∈ iter exMfs, ∀ c ∈ q, Representable .ascii c := by
  intro q hq
  rw [← C02_roundtrip_iff .ascii CharClass.ascii_lawful]
  revert q
  decide +kernel

end Normalize
