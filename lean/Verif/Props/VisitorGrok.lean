import Verif.Spec.VisitorGrok
import Verif.Props.VisitorValid

/-!
# C121: the data that `cast` refuses
-/

namespace Normalize.Visit
open Ident (IProp Ty ItemTy CollKind)
open Json (Setup Mk clsOf instOf)
open Spec (Leaf Chosen HasChosen Given Plural IsText Contents NoRecord NoCollection Needs Explains IsGrok)

variable {J : Setup} {o : Opts} {H : Hooks} {rev : Leaf} {sel : Option (List FS)} {ord : List MArg → List MArg}

/-! ## Where the exceptions come from -/

/-- The hooks raise exceptions with `Q` only, and so does the visitor itself. -/
structure Raises (H : Hooks) (R : FS → Slot → Prop) (Q : VErr → Prop) : Prop where
  raw : ∀ e, Q (.raw e)
  prop : ∀ fs e, Q (.prop fs e)
  unpack : ∀ {path x t e}, R path x → H.unpack x t path = .error e → Q e
  apply : ∀ {path x p e}, R path x → H.apply x p path = .error e → Q e
  collect : ∀ {path l t e}, H.collect l t path = .error e → Q e
  reduce : ∀ {path mp mc t e}, H.reduce mp mc t path = .error e → Q e

variable {R : FS → Slot → Prop} {Q : VErr → Prop}

theorem tryTypes_raises {go : Go} {x : Slot} {path : FS} (ih : ∀ t e, go x t path = .error e → Q e) :
    ∀ (ts : List Ty) (m : Val) (e : VErr), tryTypes J go x path ts m = .error e → Q e
  | [], _, _, h => by cases h
  | t :: ts, m, e, h => by
    unfold tryTypes at h
    split at h
    · split at h
      · exact tryTypes_raises ih ts _ e h
      · cases h
    · rename_i e' he
      split at h
      · exact tryTypes_raises ih ts _ e h
      · cases h; exact ih t _ he

theorem mapProp_raises (hq : Raises H R Q) {go : Go} {x : Slot} {path : FS} {p : IProp} {e : VErr} (hR : R path x)
    (ih : ∀ t e, go x t path = .error e → Q e) (h : mapProp J H go x p path = .error e) : Q e := by
  unfold mapProp at h
  split at h
  · split at h
    · split at h
      · exact ih _ _ h
      · exact hq.apply hR h
    · exact hq.apply hR h
  · exact ih _ _ h
  · exact hq.apply hR h
  · unfold mapUnion at h
    split at h
    · split at h
      · rename_i e' he
        cases h
        exact tryTypes_raises ih _ _ _ he
      · split at h
        · exact hq.apply hR h
        · cases h
    · exact tryTypes_raises ih _ _ _ h

theorem mapSlot_raises (hq : Raises H R Q) {go : Go} (ih : ∀ x t path e, R path x → go x t path = .error e → Q e)
    {get : IProp → Except Exc Val} {path : FS}
    (hg : ∀ p, (∀ v, get p = .ok v → R (path ++ [.str p.name]) (.val v)) ∧
      (∀ e, get p = .error e → R (path ++ [.str p.name]) (.miss e))) {p : IProp} {e : VErr}
    (h : mapSlot J H o go get path p = .error e) : Q e := by
  unfold mapSlot at h
  split at h
  · cases h
  · split at h
    · rename_i e' hf
      cases h
      unfold fetch at hf
      rw [pop_push] at hf
      split at hf
      · cases hf
      · split at hf
        · cases hf
        · cases hf; exact hq.prop _ _
    · rename_i s hf
      have hR : R (push path (.str p.name)) s := by
        unfold fetch at hf
        split at hf
        · rename_i u hu; cases hf; exact (hg p).1 u hu
        · rename_i e he
          split at hf
          · cases hf; exact (hg p).2 e he
          · split at hf <;> cases hf
      simp only [pop_push] at h
      split at h
      · split at h
        · rename_i e' he
          cases h
          exact mapProp_raises hq hR (fun t e => ih _ t _ e hR) he
        · cases h
      · cases h

theorem mapRecord_raises (hq : Raises H R Q) {go : Go} (ih : ∀ x t path e, R path x → go x t path = .error e → Q e)
    {get : IProp → Except Exc Val} {path : FS}
    (hg : ∀ p, (∀ v, get p = .ok v → R (path ++ [.str p.name]) (.val v)) ∧
      (∀ e, get p = .error e → R (path ++ [.str p.name]) (.miss e))) :
    ∀ (ps : List IProp) (e : VErr), mapRecord J H o go get ps path = .error e → Q e
  | [], _, h => by cases h
  | p :: ps, e, h => by
    unfold mapRecord at h
    split at h
    · rename_i e' he
      cases h
      exact mapSlot_raises hq ih hg he
    · rename_i r cue' hs
      have hc := mapSlot_cue hs
      subst hc
      split at h
      · rename_i e' he
        cases h
        exact mapRecord_raises hq ih hg ps _ he
      · cases h

theorem mapColl_raises (hq : Raises H R Q) {go : Go} (ih : ∀ x t path e, R path x → go x t path = .error e → Q e)
    {path : FS} {t : Ty} : ∀ (xs : List (Comp × Val)) (e : VErr), (∀ y ∈ xs, R (path ++ [y.1]) (.val y.2)) →
      mapColl J o go t xs path = .error e → Q e
  | [], _, _, h => by cases h
  | (k, v) :: xs, e, hxs, h => by
    unfold mapColl at h
    simp only [pop_push] at h
    split at h
    · rename_i e' he
      cases h
      unfold itemType at he
      split at he
      · split at he
        · cases he
        · cases he; exact hq.raw _
      · cases he; exact hq.raw _
    · split at h
      · rename_i e' he
        cases h
        exact ih _ _ _ _ (hxs (k, v) List.mem_cons_self) he
      · split at h
        · rename_i e' he
          cases h
          exact mapColl_raises hq ih xs _ (fun y hy => hxs y (List.mem_cons_of_mem _ hy)) he
        · cases h

theorem map_raises (ht : Tracks J H R) (hq : Raises H R Q) : ∀ (n : Nat) (x : Slot) (t : Ty) (path : FS) (e : VErr),
    R path x → map J H o n x t path = .error e → Q e
  | 0, _, _, _, _, _, h => by cases h; exact hq.raw _
  | n + 1, x, t, path, e, hR, h => by
    have ih := map_raises ht hq n
    unfold map at h
    split at h
    · rename_i e' he; cases h; exact hq.unpack hR he
    · cases h
    · rename_i props coll hu
      split at h
      · rename_i e' he
        cases h
        unfold collected at he
        split at he
        · cases he
        · rename_i xs
          split at he
          · rename_i e'' he'
            cases he
            exact mapColl_raises hq ih _ _ (fun y hy => ht.item hR hu hy) he'
          · split at he
            · rename_i e'' he'; cases he; exact hq.collect he'
            · cases he
      · split at h
        · split at h
          · rename_i e' he
            cases h
            exact mapRecord_raises hq ih (fun p => ht.slot hR hu) _ _ he
          · exact hq.reduce h
        · exact hq.apply hR h
        · exact hq.reduce h

/-! ## What `grok` refuses -/

theorem grokValues_contents {b : Bool} {vis : Prop} (hb : b = true ↔ vis) {v w : Val} (h : Contents vis v w) :
    grokValues b v = w := by
  cases h with
  | under h1 h2 =>
    cases hb.2 h1
    simp [grokValues, h2]
  | whole h1 =>
    unfold grokValues
    split
    · rename_i xs
      rw [h1 xs (hb.1 rfl) rfl]
    · rfl

theorem contents_grokValues {b : Bool} {vis : Prop} (hb : b = true ↔ vis) (v : Val) :
    Contents vis v (grokValues b v) := by
  unfold grokValues
  split
  · rename_i xs
    split
    · rename_i w hw; exact .under (hb.1 rfl) hw
    · rename_i hw
      refine .whole (fun ys _ hy => ?_)
      cases hy
      exact hw
  · rename_i h
    refine .whole (fun ys h1 hy => ?_)
    exact absurd hy (h ys (hb.2 h1))

theorem isGrokColl_iff {v : Val} : isGrokColl v = true ↔ Plural v ∨ IsText v := by
  unfold Plural IsText
  constructor
  · intro h
    unfold isGrokColl at h
    split at h
    · exact .inl (.inl ⟨_, rfl⟩)
    · exact .inl (.inr ⟨_, rfl⟩)
    · exact .inr ⟨_, rfl⟩
    · cases h
  · rintro ((⟨xs, rfl⟩ | ⟨xs, rfl⟩) | ⟨s, rfl⟩) <;> rfl

theorem isMapping_iff {v : Val} : isMapping v = true ↔ ∃ xs, v = .dict xs := by
  cases v <;> simp [isMapping]

theorem collTuples_plural {k : CollKind} {v : Val} {xs : List (Comp × Val)} (h : collTuples J k v = .ok xs) :
    Plural v := by
  unfold collTuples at h
  split at h
  · exact .inr ⟨_, rfl⟩
  · exact .inl ⟨_, rfl⟩
  · exact .inl ⟨_, rfl⟩
  · exact .inr ⟨_, rfl⟩
  · cases h

/-- What `grok` accepts. -/
theorem grok_accepts (hord : Mfs.OrdOK ord) (hf : FilterIs ord o sel) {x : Slot} {c : String} {path : FS} {u : Unpacked}
    (h : grok J o x (.cls c) path = .ok u) : ¬ NoRecord J o sel path c x ∧ ¬ NoCollection J o sel path c x := by
  have hb := any_chosen (J := J) hord hf (path := path) (c := c)
  cases x with
  | miss e =>
    simp only [grok] at h
    split at h
    · cases h
    · rename_i hb'
      split at h
      · rename_i hcoll
        exact ⟨fun hn => hb' (hb.2 hn.1), fun hn => hn.1 hcoll⟩
      · cases h
  | val v =>
    simp only [grok] at h
    split at h
    · cases h
    · rename_i hb'
      have h1 : ¬ NoRecord J o sel path c (.val v) := by
        rintro ⟨hc, hn⟩
        rw [hb.2 hc] at hb'
        simp only [Bool.true_and, Bool.not_eq_true', Bool.not_eq_false] at hb'
        obtain ⟨xs, rfl⟩ := isMapping_iff.1 hb'
        exact hn xs rfl
      refine ⟨h1, ?_⟩
      rintro ⟨hn, hw⟩
      split at h
      · rename_i hcoll; exact hn hcoll
      · split at h
        · cases h
        · rename_i k it hk xs hxs
          unfold grokColl at hxs
          split at hxs
          · exact hw v _ rfl (contents_grokValues hb v) (collTuples_plural hxs)
          · cases hxs

/-- What `grok` raises. -/
theorem grok_refuses (hord : Mfs.OrdOK ord) (hf : FilterIs ord o sel) {x : Slot} {t : Ty} {path : FS} {e : VErr}
    (h : grok J o x t path = .error e) : (∃ c, e = .grokRecord path ∧ NoRecord J o sel path c x) ∨
      (∃ c, e = .grokColl path ∧ NoCollection J o sel path c x) ∨ ∃ r, e = .raw r ∨ ∃ fs, e = .json fs r := by
  cases t with
  | other n => simp [grok] at h
  | cls c =>
    have hb := any_chosen (J := J) hord hf (path := path) (c := c)
    cases x with
    | miss er =>
      simp only [grok] at h
      split at h
      · rename_i hb'
        cases h
        exact .inl ⟨c, rfl, hb.1 hb', fun xs hx => by cases hx⟩
      · split at h
        · cases h
        · rename_i hcoll
          cases h
          exact .inr (.inl ⟨c, rfl, by rw [hcoll]; simp, fun v w hx => by cases hx⟩)
    | val v =>
      simp only [grok] at h
      split at h
      · rename_i hb'
        cases h
        rw [Bool.and_eq_true] at hb'
        refine .inl ⟨c, rfl, hb.1 hb'.1, fun xs hx => ?_⟩
        cases hx
        simp [isMapping] at hb'
      · split at h
        · cases h
        · rename_i k it hk
          split at h
          · rename_i e' he
            cases h
            unfold grokColl at he
            split at he
            · unfold collTuples at he
              split at he
              · cases he
              · cases he
              · cases he
              · split at he
                · rename_i je hje
                  cases he
                  cases je with
                  | raw r => exact .inr (.inr ⟨r, .inl rfl⟩)
                  | boxed fs r => exact .inr (.inr ⟨r, .inr ⟨fs, rfl⟩⟩)
                · cases he
              · cases he; exact .inr (.inr ⟨_, .inl rfl⟩)
            · rename_i hg
              cases he
              refine .inr (.inl ⟨c, rfl, by rw [hk]; simp, fun v' w hx hw hp => ?_⟩)
              cases hx
              rw [grokValues_contents hb hw] at hg
              exact hg (isGrokColl_iff.2 (.inl hp))
          · cases h

theorem ofJErr_notGrok {e : Json.JErr} : ¬ IsGrok (ofJErr e) := by
  rintro ⟨fs, h | h⟩ <;> cases e <;> cases h

theorem lift_notGrok {α : Type} {r : Except Json.JErr α} {e : VErr} (h : lift r = .error e) : ¬ IsGrok e := by
  cases r with
  | ok a => cases h
  | error e' => cases h; exact ofJErr_notGrok

theorem collect_notGrok {mk : Mk} {l : List (Comp × Val)} {t : Ty} {path : FS} {e : VErr}
    (h : collect J mk l t path = .error e) : ¬ IsGrok e := by
  unfold collect at h
  split at h
  · cases h; rintro ⟨fs, h | h⟩ <;> cases h
  · split at h
    · cases h; rintro ⟨fs, h | h⟩ <;> cases h
    · split at h
      · cases h; exact ofJErr_notGrok
      · split at h <;> cases h

theorem produce_notGrok {mk : Mk} {mp : Option (List (IProp × Val))} {mc : Option Val} {t : Ty} {path : FS} {e : VErr}
    (h : produce J mk mp mc t path = .error e) : ¬ IsGrok e := by
  unfold produce at h
  split at h
  · exact lift_notGrok h
  · split at h
    · exact lift_notGrok h
    · split at h
      · split at h <;> exact lift_notGrok h
      · cases h; rintro ⟨fs, h | h⟩ <;> cases h

/-- The exception of `cast` names a place where there is no record, or no collection. -/
theorem C121_place (hord : Mfs.OrdOK ord) (hf : FilterIs ord o sel)
    (hrev : ∀ x p path e, rev x p path = .error e → ¬ IsGrok e) {m n : Nat} {t : Ty} {v : Val} {e : VErr}
    (h : cast J m n o rev t v = .error e) (hg : IsGrok e) : Explains J o sel v e := by
  have key : IsGrok e → Explains J o sel v e :=
    map_raises (H := castHooks J (Json.make J m) o rev) (R := Given true v)
      (Q := fun e => IsGrok e → Explains J o sel v e)
      (grok_tracks (fun h => by cases h) (fun _ _ _ => rfl))
      { raw := fun _ hg => by obtain ⟨fs, h | h⟩ := hg <;> cases h
        prop := fun _ _ hg => by obtain ⟨fs, h | h⟩ := hg <;> cases h
        unpack := fun {path x t e} hR h hg => by
          rcases grok_refuses hord hf h with ⟨c, rfl, hn⟩ | ⟨c, rfl, hn⟩ | ⟨r, rfl | ⟨fs, rfl⟩⟩
          · exact .record hR hn
          · exact .coll hR hn
          · obtain ⟨fs, h | h⟩ := hg <;> cases h
          · obtain ⟨fs, h | h⟩ := hg <;> cases h
        apply := fun _ h hg => absurd hg (hrev _ _ _ _ h)
        collect := fun {path _ _ _} h hg => absurd hg (collect_notGrok (path := path) h)
        reduce := fun {path _ _ _ _} h hg => absurd hg (produce_notGrok (path := path) h) } n _ _ _ _ .root h
  exact key hg

/-! ## Everything that is needed is there -/

theorem mapRecord_each {go : Go} {get : IProp → Except Exc Val} {path : FS} :
    ∀ {ps : List IProp} {l : List (IProp × Val)}, mapRecord J H o go get ps path = .ok l →
      ∀ p ∈ ps, ∃ r, mapSlot J H o go get path p = .ok (r, path)
  | [], _, _, p, hp => by cases hp
  | q :: ps, l, h, p, hp => by
    unfold mapRecord at h
    split at h
    · cases h
    · rename_i r cue' hs
      have hc := mapSlot_cue hs
      subst hc
      split at h
      · cases h
      · rename_i l' hl
        rcases List.mem_cons.1 hp with rfl | hp
        · exact ⟨r, hs⟩
        · exact mapRecord_each hl p hp

theorem mapColl_each {go : Go} {t it : Ty} (hit : itemType J t = .ok it) {path : FS} :
    ∀ {xs l : List (Comp × Val)}, mapColl J o go t xs path = .ok l →
      ∀ y ∈ xs, ∃ w, go (.val y.2) it (path ++ [y.1]) = .ok w
  | [], _, _, y, hy => by cases hy
  | (k, v) :: xs, l, h, y, hy => by
    unfold mapColl at h
    rw [hit] at h
    simp only [pop_push] at h
    split at h
    · cases h
    · rename_i m hm
      split at h
      · cases h
      · rename_i l' hl
        rcases List.mem_cons.1 hy with rfl | hy
        · exact ⟨m, hm⟩
        · exact mapColl_each hit hl y hy

/-- What is cast with success is accepted by `grok`, and so are its parts. -/
theorem map_parts {mk : Mk} {n : Nat} {x : Slot} {c : String} {path : FS} {w : Val}
    (h : map J (castHooks J mk o rev) o (n + 1) x (.cls c) path = .ok w) :
    ∃ props coll, grok J o x (.cls c) path = .ok (.parts props coll) ∧
      (∀ get, props = some get → ∀ p ∈ (J.S.cls c).props, ∃ r,
        mapSlot J (castHooks J mk o rev) o (map J (castHooks J mk o rev) o n) get path p = .ok (r, path)) ∧
      ∀ xs it, coll = some xs → itemType J (.cls c) = .ok it → ∀ y ∈ xs, ∃ r,
        map J (castHooks J mk o rev) o n (.val y.2) it (path ++ [y.1]) = .ok r := by
  unfold map at h
  split at h
  · cases h
  · rename_i v hu
    exfalso
    have hu' : grok J o x (.cls c) path = .ok (.stop v) := hu
    unfold grok at hu'
    split at hu'
    · cases hu'
    · split at hu'
      · cases hu'
      · split at hu' <;> cases hu'
    · split at hu'
      · cases hu'
      · split at hu'
        · cases hu'
        · split at hu' <;> cases hu'
  · rename_i props coll hu
    refine ⟨props, coll, hu, ?_, ?_⟩
    · rintro get rfl p hp
      split at h
      · cases h
      · simp only at h
        split at h
        · cases h
        · rename_i mp hmp
          exact mapRecord_each hmp p hp
    · rintro xs it rfl hit y hy
      split at h
      · cases h
      · rename_i mc hmc
        unfold collected at hmc
        simp only at hmc
        split at hmc
        · cases hmc
        · rename_i l hl
          exact mapColl_each hit hl y hy

theorem grok_get {mk : Mk} (hord : Mfs.OrdOK ord) (hf : FilterIs ord o sel) {xs : List (Comp × Val)} {c : String} {path : FS}
    {props : Option (IProp → Except Exc Val)} {coll : Option (List (Comp × Val))} (hh : HasChosen J o sel path c)
    (h : grok J o (.val (.dict xs)) (.cls c) path = .ok (.parts props coll)) : props = some (readKey xs) := by
  have hb := (any_chosen (J := J) hord hf (path := path) (c := c)).2 hh
  simp only [grok, hb, isMapping] at h
  simp only [Bool.not_true, Bool.and_false, Bool.false_eq_true, if_false] at h
  split at h
  · cases h; rfl
  · split at h
    · cases h
    · cases h; rfl

theorem grok_coll (hord : Mfs.OrdOK ord) (hf : FilterIs ord o sel) {v w : Val} {c : String} {path : FS} {k : CollKind}
    {it : ItemTy} {props : Option (IProp → Except Exc Val)} {coll : Option (List (Comp × Val))}
    (hc : (J.S.cls c).coll = some (k, it)) (hw : Contents (HasChosen J o sel path c) v w)
    (h : grok J o (.val v) (.cls c) path = .ok (.parts props coll)) :
    ∃ xs, coll = some xs ∧ collTuples J k w = .ok xs := by
  have hb := any_chosen (J := J) hord hf (path := path) (c := c)
  simp only [grok, hc] at h
  split at h
  · cases h
  · split at h
    · cases h
    · rename_i xs hxs
      cases h
      unfold grokColl at hxs
      rw [grokValues_contents hb hw] at hxs
      split at hxs
      · exact ⟨xs, rfl, hxs⟩
      · cases hxs

theorem needs_done (hord : Mfs.OrdOK ord) (hf : FilterIs ord o sel) {m n : Nat} {top : String} {v w : Val}
    (h : cast J m n o rev (.cls top) v = .ok w) {path : FS} {x : Slot} {c : String}
    (hn : Needs J o sel top v path x c) :
    ∃ n' w', map J (castHooks J (Json.make J m) o rev) o (n' + 1) x (.cls c) path = .ok w' := by
  have succ : ∀ {n x t path w}, map J (castHooks J (Json.make J m) o rev) o n x t path = .ok w →
      ∃ n' w', map J (castHooks J (Json.make J m) o rev) o (n' + 1) x t path = .ok w' := by
    intro n x t path w h
    cases n with
    | zero => cases h
    | succ n => exact ⟨n, w, h⟩
  induction hn with
  | root => exact succ h
  | @key path xs u c d p h1 h2 h3 h4 h5 ih =>
    obtain ⟨n', w', hm⟩ := ih
    obtain ⟨props, coll, hg, hp, _⟩ := map_parts hm
    have hget := grok_get (mk := Json.make J m) hord hf ⟨p, h2, h3⟩ hg
    obtain ⟨r, hr⟩ := hp _ hget p h2
    rcases mapSlot_ok hr with ⟨hfil, _⟩ | ⟨_, s, hs, ⟨hw, _⟩ | ⟨_, u', hu', _⟩⟩
    · rw [(chosen_iff hord hf path p).2 h3] at hfil
      cases hfil
    · simp only [fetch, readKey, h5] at hs
      cases hs
      cases hw
    · simp only [fetch, readKey, h5] at hs
      cases hs
      simp only [mapProp, h4] at hu'
      exact succ hu'
  | @list path u ys c k d i y h1 h2 h3 h4 ih =>
    obtain ⟨n', w', hm⟩ := ih
    obtain ⟨props, coll, hg, _, hi⟩ := map_parts hm
    obtain ⟨xs, rfl, hxs⟩ := grok_coll hord hf h2 h3 hg
    have hx : xs = Ident.enum ys := by
      cases k <;> simp [collTuples] at hxs <;> exact hxs.symm
    subst hx
    have hy : (Comp.int i, y) ∈ Ident.enum ys := by
      refine List.mem_of_getElem? (i := i) ?_
      rw [enum_numbered ys i, h4]; rfl
    obtain ⟨r, hr⟩ := hi _ (.cls d) rfl (by simp [itemType, h2]) _ hy
    exact succ hr
  | @dict path u ys c d k y h1 h2 h3 h4 ih =>
    obtain ⟨n', w', hm⟩ := ih
    obtain ⟨props, coll, hg, _, hi⟩ := map_parts hm
    obtain ⟨xs, rfl, hxs⟩ := grok_coll hord hf h2 h3 hg
    simp only [collTuples, Except.ok.injEq] at hxs
    subst hxs
    obtain ⟨r, hr⟩ := hi _ (.cls d) rfl (by simp [itemType, h2]) _ h4
    exact succ hr

/-- If `cast` returns, then there are dicts where records are needed, and lists or dicts where collections are needed,
at any depth. -/
theorem C121_accepted (hord : Mfs.OrdOK ord) (hf : FilterIs ord o sel) {m n : Nat} {top : String} {v w : Val}
    (h : cast J m n o rev (.cls top) v = .ok w) {path : FS} {x : Slot} {c : String}
    (hn : Needs J o sel top v path x c) : ¬ NoRecord J o sel path c x ∧ ¬ NoCollection J o sel path c x := by
  obtain ⟨n', w', hm⟩ := needs_done hord hf h hn
  obtain ⟨props, coll, hg, _⟩ := map_parts hm
  exact grok_accepts hord hf hg

/-- C121: data that is no record or no collection is refused with the exception that says so. -/
def C121_statement : Prop :=
  ∀ (J : Setup) (o : Opts) (rev : Leaf) (sel : Option (List FS)) (ord : List MArg → List MArg), Mfs.OrdOK ord →
    FilterIs ord o sel → ∀ (m n : Nat) (c : String) (v : Val),
    (NoRecord J o sel [] c (.val v) → cast J m (n + 1) o rev (.cls c) v = .error (.grokRecord [])) ∧
    (¬ NoRecord J o sel [] c (.val v) → NoCollection J o sel [] c (.val v) →
      cast J m (n + 1) o rev (.cls c) v = .error (.grokColl []))

/-- C121, unless a text is given for a collection. -/
theorem C121_partial (hord : Mfs.OrdOK ord) (hf : FilterIs ord o sel) (m n : Nat) (c : String) (v : Val) :
    (NoRecord J o sel [] c (.val v) → cast J m (n + 1) o rev (.cls c) v = .error (.grokRecord [])) ∧
    (¬ NoRecord J o sel [] c (.val v) → NoCollection J o sel [] c (.val v) →
      (∀ w, Contents (HasChosen J o sel [] c) v w → ¬ IsText w) →
      cast J m (n + 1) o rev (.cls c) v = .error (.grokColl [])) := by
  have hb := any_chosen (J := J) hord hf (path := []) (c := c)
  constructor
  · rintro ⟨h1, h2⟩
    have hm : isMapping v = false := by
      cases hm : isMapping v with
      | false => rfl
      | true => obtain ⟨xs, rfl⟩ := isMapping_iff.1 hm; exact absurd rfl (h2 xs)
    simp [cast, map, castHooks, grok, hb.2 h1, hm]
  · intro hr hn ht
    obtain ⟨k, it, hk⟩ : ∃ k it, (J.S.cls c).coll = some (k, it) := by
      cases hc : (J.S.cls c).coll with
      | none => exact absurd hc hn.1
      | some ki => exact ⟨ki.1, ki.2, rfl⟩
    have hcont := contents_grokValues hb v
    have hno : isGrokColl (grokValues ((propsOf J (.cls c)).any (fun p => !isFiltered o [] p)) v) = false := by
      rw [Bool.eq_false_iff, Ne, isGrokColl_iff]
      rintro (h | h)
      · exact hn.2 v _ rfl hcont h
      · exact ht _ hcont h
    have hmap : ((propsOf J (.cls c)).any (fun p => !isFiltered o [] p) && !isMapping v) = false := by
      rw [Bool.eq_false_iff]
      intro h
      rw [Bool.and_eq_true] at h
      refine hr ⟨hb.1 h.1, fun xs hx => ?_⟩
      cases hx
      simp [isMapping] at h
    simp only [cast, map, castHooks, grok, hmap, hk, grokColl, hno]
    rfl

namespace Ex

/-- A person has a name and a list of tags; a tag has a label. -/
def profileClasses : String → Ident.ICls
  | "Profile" => { props := [{ name := "name", types := [.other 0] }, { name := "tags", types := [.cls "TagList"] }] }
  | "TagList" => { coll := some (.list, .one (.cls "Tag")) }
  | "Tag" => { props := [{ name := "label", types := [.other 0] }] }
  | _ => {}

def profileJ : Setup :=
  { S := Json.exSchema profileClasses, info := fun _ _ => {}, isJson := fun _ => false, isa := fun _ _ => true
    make := fun _ v => .ok v, loads := fun _ => .error .valueCheck }

/-- `{"name": "Ann", "tags": [{"label": "x"}, …]}` -/
def profileData (second : Val) : Val :=
  .dict [(.str "name", .str "Ann"), (.str "tags", .list [.dict [(.str "label", .str "x")], second])]

end Ex

theorem no_filter : FilterIs id ({} : Opts) none := .all rfl

/-- `cast` of a profile returns, or raises an exception that names the second tag. -/
example : (∃ w, cast Ex.profileJ 3 5 {} applyDefault (.cls "Profile")
      (Ex.profileData (.dict [(.str "label", .str "y")])) = .ok w) ∧
    cast Ex.profileJ 3 5 {} applyDefault (.cls "Profile") (Ex.profileData (.int 3)) =
      .error (.grokRecord [.str "tags", .int 1]) ∧
    Needs Ex.profileJ {} none "Profile" (Ex.profileData (.int 3)) [.str "tags", .int 1] (.val (.int 3)) "Tag" ∧
    NoRecord Ex.profileJ {} none [.str "tags", .int 1] "Tag" (.val (.int 3)) := by
  refine ⟨⟨.rcd "Profile" [("name", .str "Ann"), ("tags", .lcoll "TagList"
    [.rcd "Tag" [("label", .str "x")], .rcd "Tag" [("label", .str "y")]])], by decide +kernel⟩, by decide +kernel, ?_, ?_⟩
  · refine Needs.list (path := [.str "tags"]) (k := .list) (i := 1)
      (ys := [.dict [(.str "label", .str "x")], .int 3])
      (Needs.key (path := []) (p := { name := "tags", types := [.cls "TagList"] }) .root (by decide +kernel)
        ⟨.inl rfl, by simp⟩ rfl (by decide +kernel)) (by decide +kernel) (.whole (fun xs _ h => by cases h)) rfl
  · exact ⟨⟨{ name := "label", types := [.other 0] }, by decide +kernel, .inl rfl, by simp⟩, fun xs h => by cases h⟩

/-- A text is a sequence for `cast`, but not for the collection: the exception is a `CollectionCoerceError`, without
the place. -/
theorem C121_violated : ¬ C121_statement := by
  intro h
  have h1 := (h Ex.profileJ {} applyDefault none id (fun _ _ => Iff.rfl) no_filter 3 4 "TagList" (.str "x")).2
    (fun hn => by obtain ⟨⟨p, hp, _⟩, _⟩ := hn; exact absurd hp (by simp [Ex.profileJ, Json.exSchema, Ex.profileClasses]))
    ⟨by decide +kernel, fun v w hv hw hp => by
      cases hv
      cases hw with
      | whole _ => rcases hp with ⟨xs, h⟩ | ⟨xs, h⟩ <;> cases h⟩
  revert h1
  decide +kernel

end Normalize.Visit
