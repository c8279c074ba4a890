import Verif.Lemmas.JsonInMemInv
import Verif.Lemmas.JsonInMemSame
import Verif.Props.JsonMem

/-!
# C108: what a record made from JSON data shares with it
-/

namespace Normalize.JsonInMem

open Normalize.Mem Normalize.Spec
open Ident (IProp Ty ItemTy CollKind)

/-- `from_json` changes nothing that existed, the JSON data included, and the record it returns consists of new
objects, of parts of the JSON data, and of the defaults. -/
theorem C108 {W : World} {m m' : Mem} {A : Nat → Prop} {c : String} {n : Nat} {r y : Ref} (hW : Tame W m A)
    (hA : ∀ l, A l → l < m.length) (hr : Exist m r) (h : fromJson W n c m r = .ok (m', y)) :
    Grown m m' ∧ ∀ l, PartOf m' y l → (m.length ≤ l ∧ l < m'.length) ∨ PartOf m r l ∨ A l := by
  have I := known_inv (B := fun l => PartOf m r l ∨ A l) hW (fun l hl => Or.inr hl) hA
  have h1 := fromJson_ok I n c m r m' y (grown_refl m) ⟨hr, fun l hl => Or.inr (Or.inl hl)⟩ h
  refine ⟨h1.1, ?_⟩
  intro l hl
  rcases h1.2.2 l hl with h2 | h2
  · exact Or.inl ⟨h2, h1.2.1 l hl⟩
  · exact Or.inr h2

/-- Where every property is typed, the record and all its parts are new: it shares nothing with the JSON data,
whatever unknown keys that has. -/
theorem C108_partial {W : World} (hW : AllTyped W) {m m' : Mem} {c : String} {n : Nat} {r y : Ref} (hr : Exist m r)
    (hd : Document m r) (h : fromJson W n c m r = .ok (m', y)) : Grown m m' ∧ AllNew m m' y :=
  fromJson_ok (oneSide_inv hW hd hr) n c m r m' y (grown_refl m)
    ⟨hr, Or.inr (fun _ hl => hl)⟩ h

/-- Where the defaults are new objects, records made from separate JSON data are separate. -/
theorem C108_apart_partial {W : World} (hW : ∀ m, Tame W m (fun _ => False)) {m m1 m2 : Mem} {c c' : String}
    {n n' : Nat} {r r' y y' : Ref} (hr : Exist m r) (hr' : Exist m r') (hs : Separate m r r')
    (h : fromJson W n c m r = .ok (m1, y)) (h' : fromJson W n' c' m1 r' = .ok (m2, y')) : Separate m2 y y' := by
  have h1 := C108 (hW m) (fun l hl => hl.elim) hr h
  have hr1 := exist_onlyNew h1.1.2 h1.1.1 hr'
  have h2 := C108 (hW m1) (fun l hl => hl.elim) hr1 h'
  have hy : Exist m1 y := by
    intro l hl
    rcases h1.2 l hl with h3 | h3 | h3
    · exact h3.2
    · exact Nat.lt_of_lt_of_le (hr l h3) h1.1.1
    · exact h3.elim
  rintro l ⟨ha, hb⟩
  have ha := (part_onlyNew h2.1.2 hy).mp ha
  have hl := hy l ha
  rcases h2.2 l hb with h3 | h3 | h3
  · omega
  · have h3 := (part_onlyNew h1.1.2 hr').mp h3
    rcases h1.2 l ha with h4 | h4 | h4
    · have := hr' l h3
      omega
    · exact hs l ⟨h4, h3⟩
    · exact h4
  · exact h3

/-- What `from_json` makes of objects that look like JSON data is what it makes of the data: it fails for both, or
the record it makes of the objects looks like the one it makes of the data; and nothing that existed changes.  This
carries what is proved about `from_json` on trees over to objects, shared or not. -/
theorem C108_same {W : World} {m : Mem} (hW : FollowsIn W m) {j : Val} {r : Ref} (h : Looks m j r) (n : Nat)
    (c : String) : SameIn Looks m (Json.fromJson W.J n c j) (fromJson W n c m r) :=
  fromJson_same hW n c m j r (grown_refl m) h

/-! ## The theorems apply -/

def exStr : Ty := .other 0

/-- `class Photo(JsonRecord): title = Property(isa=str)`, `class Photos(JsonRecordList): itemtype = Photo` and
`class Album(JsonRecord): name = Property(isa=str); photos = Property(isa=Photos)`. -/
def exAlbumCls (c : String) : Ident.ICls :=
  if c = "Photo" then { props := [{ name := "title", types := [exStr] }, { name := "unknown_json_keys" }] }
  else if c = "Photos" then { props := [], coll := some (.list, .one (.cls "Photo")) }
  else if c = "Album" then { props := [{ name := "name", types := [exStr] }, { name := "photos", types := [.cls "Photos"] },
    { name := "unknown_json_keys" }] }
  else { props := [] }

def exTreeIsStr : Nat → Val → Bool
  | _, .atom (.str _) => true
  | _, _ => false

def exAlbumJ : Json.Setup :=
  { S := Json.exSchema exAlbumCls
    info := fun _ p => if p = "unknown_json_keys" then { json := some { jsonName := some none } } else {}
    isJson := fun _ => true
    isa := exTreeIsStr
    make := fun _ _ => .error .typeError
    loads := fun _ => .error .valueError }

def exIsStr : Nat → Mem → Ref → Bool
  | _, _, .atom (.str _) => true
  | _, _, _ => false

def exAlbumW : World :=
  { J := exAlbumJ, isa := exIsStr, make := fun _ _ _ => .error .typeError, loads := fun _ _ => .error .valueError }

theorem exIsStr_atom (n : Nat) (m : Mem) (v : Ref) (h : exIsStr n m v = true) : ∃ a, v = .atom a := by
  cases v with
  | atom a => exact ⟨a, rfl⟩
  | ptr l => cases h

theorem exAlbum_typed : AllTyped exAlbumW where
  typed c p hp ht := by
    refine ⟨rfl, ?_⟩
    have hp : p ∈ (exAlbumCls c).props := hp
    unfold exAlbumCls at hp
    split at hp
    · rcases List.mem_cons.mp hp with rfl | hp
      · cases ht
      · rw [List.mem_singleton.mp hp]; rfl
    · split at hp
      · cases hp
      · split at hp
        · rcases List.mem_cons.mp hp with rfl | hp
          · cases ht
          · rcases List.mem_cons.mp hp with rfl | hp
            · cases ht
            · rw [List.mem_singleton.mp hp]; rfl
        · cases hp
  unknown c p _ _ hn := by
    have hi : exAlbumJ.info c p.name = { json := some { jsonName := some none } } := if_pos hn
    show Json.jsonName exAlbumJ c p = none
    unfold Json.jsonName
    rw [hi]
  isa := exIsStr_atom
  make _ m r m' r' _ h := by cases h
  typeFromJson _ f h := by cases h
  jin _ _ f h := by cases h
  coerce _ _ f h := by cases h
  loads _ m m' v h := by cases h
  default _ _ f h := by cases h

/-- `{"name": "a", "photos": [{"title": "t", "size": [1]}]}` -/
def exAlbumM : Mem :=
  [.list [.atom (.int 1)], .dict [(.str "title", .atom (.str "t")), (.str "size", .ptr 0)], .list [.ptr 1],
   .dict [(.str "name", .atom (.str "a")), (.str "photos", .ptr 2)]]

theorem part_bound {m : Mem} (h : ∀ (l : Nat) (o : Obj), m[l]? = some o → ∀ k ∈ kids o, In (· < m.length) k) {r : Ref}
    (hr : In (· < m.length) r) : Exist m r := 
  fun _ hl => part_in (A := fun l => l < m.length) hl (fun l o _ ho k hk => h l o ho k hk) hr

theorem exAlbum_exist : Exist exAlbumM (.ptr 3) := by
  refine part_bound ?_ (by show 3 < 4; omega)
  intro l o ho k hk
  have hm := List.mem_of_getElem? ho
  simp only [exAlbumM, List.mem_cons, List.not_mem_nil, or_false] at hm
  rcases hm with rfl | rfl | rfl | rfl <;>
    simp only [kids, List.map_cons, List.map_nil, List.mem_cons, List.not_mem_nil, or_false] at hk
  · subst hk; trivial
  · rcases hk with rfl | rfl
    · trivial
    · show 0 < 4; omega
  · subst hk; show 1 < 4; omega
  · rcases hk with rfl | rfl
    · trivial
    · show 2 < 4; omega

theorem document_of {m : Mem} {r : Ref} (hr : Exist m r) (h : ∀ o ∈ m, ListOrDict o) : Document m r := by
  intro l hl
  have hlt := hr l hl
  exact ⟨m[l], List.getElem?_eq_getElem hlt, h _ (List.getElem_mem hlt)⟩

theorem exAlbum_doc : Document exAlbumM (.ptr 3) := by
  refine document_of exAlbum_exist ?_
  intro o ho
  simp only [exAlbumM, List.mem_cons, List.not_mem_nil, or_false] at ho
  rcases ho with rfl | rfl | rfl | rfl <;> trivial

/-- The album that is made: the list under the unknown key, at 4, is a copy of the one at 0.  (`deepcopy` copies
all objects; those at 5, 6 and 7 are part of nothing.) -/
example : fromJson exAlbumW 5 "Album" exAlbumM (.ptr 3) = .ok (exAlbumM ++
    [.list [.atom (.int 1)], .dict [(.str "title", .atom (.str "t")), (.str "size", .ptr 4)], .list [.ptr 5],
     .dict [(.str "name", .atom (.str "a")), (.str "photos", .ptr 6)], .dict [(.str "size", .ptr 4)],
     .rcd "Photo" [("title", .atom (.str "t")), ("unknown_json_keys", .ptr 8)], .lcoll "Photos" [.ptr 9],
     .rcd "Album" [("name", .atom (.str "a")), ("photos", .ptr 10)]], .ptr 11) := by decide +kernel

example {m' : Mem} {y : Ref} (h : fromJson exAlbumW 5 "Album" exAlbumM (.ptr 3) = .ok (m', y)) : AllNew exAlbumM m' y :=
  (C108_partial exAlbum_typed exAlbum_exist exAlbum_doc h).2

theorem exAlbum_follows (m : Mem) : FollowsIn exAlbumW m where
  isa n m t r h := by
    cases t with
    | atom a =>
      obtain ⟨ls, h, _⟩ := h
      subst h
      cases a <;> rfl
    | list ts => obtain ⟨ls, l, rs, ls', rfl, h⟩ := h; rfl
    | dict ts => obtain ⟨ls, l, rs, ls', rfl, h⟩ := h; rfl
    | lcoll d ts => obtain ⟨ls, l, rs, ls', rfl, h⟩ := h; rfl
    | dcoll d ts => obtain ⟨ls, l, rs, ls', rfl, h⟩ := h; rfl
    | rcd d ts => obtain ⟨ls, l, rs, ls', rfl, h⟩ := h; rfl
  make n m t r h := same_err _ _
  typeFromJson n := trivial
  jin c p := by
    show SameFn ((exAlbumJ.info c p).json.bind (·.jin)) none
    simp only [exAlbumJ]
    split <;> trivial
  coerce c p := by
    show SameFn (exAlbumJ.info c p).coerce none
    simp only [exAlbumJ]
    split <;> trivial
  check c p := by
    show SameCheck (exAlbumJ.info c p).check none
    simp only [exAlbumJ]
    split <;> trivial
  loads s m := same_err _ _
  default c p := by
    show SameDefault m (exAlbumJ.info c p).default none
    simp only [exAlbumJ]
    split <;> trivial

/-- The data as a tree. -/
def exAlbumT : Val :=
  .dict [(.str "name", .atom (.str "a")),
    (.str "photos", .list [.dict [(.str "title", .atom (.str "t")), (.str "size", .list [.atom (.int 1)])]])]

theorem exAlbum_looks : Looks exAlbumM exAlbumT (.ptr 3) := by
  refine ⟨[3, 2, 1, 0], 3, _, [2, 1, 0], rfl, rfl, ?_, rfl⟩
  refine ⟨_, _, [], [2, 1, 0], rfl, ⟨rfl, rfl⟩, ?_, rfl⟩
  refine ⟨_, _, [2, 1, 0], [], rfl, ?_, ⟨rfl, rfl⟩, rfl⟩
  refine ⟨2, _, [1, 0], rfl, rfl, ?_, rfl⟩
  refine ⟨_, _, [1, 0], [], rfl, ?_, ⟨rfl, rfl⟩, rfl⟩
  refine ⟨1, _, [0], rfl, rfl, ?_, rfl⟩
  refine ⟨_, _, [], [0], rfl, ⟨rfl, rfl⟩, ?_, rfl⟩
  refine ⟨_, _, [0], [], rfl, ?_, ⟨rfl, rfl⟩, rfl⟩
  refine ⟨0, _, [], rfl, rfl, ?_, rfl⟩
  exact ⟨_, _, [], [], rfl, ⟨rfl, rfl⟩, ⟨rfl, rfl⟩, rfl⟩

/-- The record that is made of the tree, and what is made of the objects looks like it. -/
example : ∃ m' y, fromJson exAlbumW 5 "Album" exAlbumM (.ptr 3) = .ok (m', y) ∧ Grown exAlbumM m' ∧
    Looks m' (.rcd "Album" [("name", .atom (.str "a")), ("photos", .lcoll "Photos"
      [.rcd "Photo" [("title", .atom (.str "t")),
        ("unknown_json_keys", .dict [(.str "size", .list [.atom (.int 1)])])]])]) y := by
  have h := C108_same (exAlbum_follows exAlbumM) exAlbum_looks 5 "Album"
  have hj : Json.fromJson exAlbumJ 5 "Album" exAlbumT = .ok (.rcd "Album" [("name", .atom (.str "a")),
      ("photos", .lcoll "Photos" [.rcd "Photo" [("title", .atom (.str "t")),
        ("unknown_json_keys", .dict [(.str "size", .list [.atom (.int 1)])])]])]) := by decide +kernel
  rw [show exAlbumW.J = exAlbumJ from rfl, hj] at h
  exact h

/-! ## What does not hold -/

/-- `class Note(JsonRecord): tags = Property()`. -/
def exNoteJ : Json.Setup :=
  { exAlbumJ with S := Json.exSchema (fun _ => { props := [{ name := "tags" }, { name := "unknown_json_keys" }] }) }

/-- The property may have a default: the object at 0. -/
def exNoteW (dflt : Bool) : World :=
  { J := exNoteJ, isa := exIsStr, make := fun _ _ _ => .error .typeError, loads := fun _ _ => .error .valueError
    default := fun _ p => if dflt = true ∧ p = "tags" then some (fun m => .ok (m, .ptr 0)) else none }

/-- `[]`, and `{"tags": <that list>}`. -/
def exNoteM : Mem := [.list [], .dict [(.str "tags", .ptr 0)], .dict []]

theorem exNote_zero {m : Mem} (h : Grown exNoteM m) : ∀ l, PartOf m (.ptr 0) l → l = 0 := by
  have h0 : m[0]? = some (.list []) := by rw [h.2 0 (by show 0 < 3; omega)]; rfl
  intro l hl
  cases hl with
  | self => rfl
  | kid ho hk _ =>
    rw [h0] at ho
    cases ho
    cases hk

theorem exNote_tame (d : Bool) : Tame (exNoteW d) exNoteM (fun l => d = true ∧ l = 0) where
  make _ m v m' v' _ h := by cases h
  typeFromJson _ f h := by cases h
  jin _ _ f h := by cases h
  coerce _ _ f h := by cases h
  loads _ m m' v h := by cases h
  default _ p f hf m m' v hG h := by
    simp only [exNoteW] at hf
    split at hf
    · rename_i hd
      cases hf
      cases h
      exact ⟨grown_refl m, fun l hl => Or.inr ⟨hd.1, exNote_zero hG l hl⟩⟩
    · cases hf

theorem exNote_exist (l : Nat) (hl : l < 3) : Exist exNoteM (.ptr l) := by
  refine part_bound ?_ hl
  intro l o ho k hk
  have hm := List.mem_of_getElem? ho
  simp only [exNoteM, List.mem_cons, List.not_mem_nil, or_false] at hm
  rcases hm with rfl | rfl | rfl
  · cases hk
  · rw [List.mem_singleton.mp hk]
    show 0 < 3
    omega
  · cases hk

/-- The theorems apply to notes, with and without the default. -/
theorem exNote_plain (m : Mem) : Tame (exNoteW false) m (fun _ => False) where
  make _ m v m' v' _ h := by cases h
  typeFromJson _ f h := by cases h
  jin _ _ f h := by cases h
  coerce _ _ f h := by cases h
  loads _ m m' v h := by cases h
  default _ p f hf := by
    simp only [exNoteW, Bool.false_eq_true, false_and, if_false] at hf
    cases hf

example {m1 m2 : Mem} {y y' : Ref} (h : fromJson (exNoteW false) 1 "Note" exNoteM (.ptr 1) = .ok (m1, y))
    (h' : fromJson (exNoteW false) 1 "Note" m1 (.ptr 2) = .ok (m2, y')) : Separate m2 y y' := by
  refine C108_apart_partial exNote_plain (exNote_exist 1 (by omega)) (exNote_exist 2 (by omega)) ?_ h h'
  rintro l ⟨ha, hb⟩
  cases hb with
  | self =>
    cases ha with
    | kid ho hk hp =>
      cases ho
      rw [List.mem_singleton.mp hk] at hp
      have := exNote_zero (grown_refl exNoteM) 2 hp
      omega
  | kid ho hk _ =>
    cases ho
    cases hk

example {m' : Mem} {y : Ref} (h : fromJson (exNoteW true) 1 "Note" exNoteM (.ptr 2) = .ok (m', y)) :
    ∀ l, PartOf m' y l → (3 ≤ l ∧ l < m'.length) ∨ PartOf exNoteM (.ptr 2) l ∨ (true = true ∧ l = 0) :=
  (C108 (exNote_tame true) (fun l hl => by rw [hl.2]; show 0 < 3; omega) (exNote_exist 2 (by omega)) h).2

/-- The full claim: a record made from JSON data shares nothing with it, whatever the types of its properties. -/
def C108_statement : Prop := ∀ (W : World) (m m' : Mem) (c : String) (n : Nat) (r y : Ref),
  Tame W m (fun _ => False) → Exist m r → Document m r → fromJson W n c m r = .ok (m', y) → Separate m' y r

/-- A property without a type holds the very list in the JSON data: changing one changes the other. -/
theorem C108_violated : ¬ C108_statement := by
  intro h
  have ht := exNote_plain exNoteM
  have hd : Document exNoteM (.ptr 1) := by
    refine document_of (exNote_exist 1 (by omega)) ?_
    intro o ho
    simp only [exNoteM, List.mem_cons, List.not_mem_nil, or_false] at ho
    rcases ho with rfl | rfl | rfl <;> trivial
  have hf : fromJson (exNoteW false) 1 "Note" exNoteM (.ptr 1) =
      .ok (exNoteM ++ [.rcd "Note" [("tags", .ptr 0)]], .ptr 3) := by decide +kernel
  exact h _ _ _ _ _ _ _ ht (exNote_exist 1 (by omega)) hd hf 0
    ⟨.kid (k := .ptr 0) rfl (by simp [kids]) .self, .kid (k := .ptr 0) rfl (by simp [kids]) .self⟩

/-- Records made from separate JSON data are separate, whatever the defaults are. -/
def C108_apart_statement : Prop := ∀ (W : World) (m m1 m2 : Mem) (A : Nat → Prop) (c : String) (n : Nat)
  (r r' y y' : Ref), Tame W m A → (∀ l, A l → l < m.length) → Exist m r → Exist m r' → Separate m r r' →
  fromJson W n c m r = .ok (m1, y) → fromJson W n c m1 r' = .ok (m2, y') → Separate m2 y y'

/-- With `default=[]`, all the records made without a value have the same list. -/
theorem C108_apart_violated : ¬ C108_apart_statement := by
  intro h
  have h1 : fromJson (exNoteW true) 1 "Note" exNoteM (.ptr 2) =
      .ok (exNoteM ++ [.rcd "Note" [("tags", .ptr 0)]], .ptr 3) := by decide +kernel
  have h2 : fromJson (exNoteW true) 1 "Note" (exNoteM ++ [.rcd "Note" [("tags", .ptr 0)]]) (.atom (.none)) =
      .ok (exNoteM ++ [.rcd "Note" [("tags", .ptr 0)], .rcd "Note" [("tags", .ptr 0)]], .ptr 4) := by decide +kernel
  exact h _ _ _ _ _ _ _ _ _ _ _ (exNote_tame true) (fun l hl => by rw [hl.2]; show 0 < 3; omega)
    (exNote_exist 2 (by omega)) (fun l hl => absurd hl atom_part) (fun l hl => atom_part hl.2) h1 h2 0
    ⟨.kid (k := .ptr 0) rfl (by simp [kids]) .self, .kid (k := .ptr 0) rfl (by simp [kids]) .self⟩

end Normalize.JsonInMem
