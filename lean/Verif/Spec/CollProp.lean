import Verif.Model.CollProp

/-!
# What a declaration of a collection property asks for
-/

namespace Normalize.Spec

open Normalize.Generic Normalize.CollProp

/-- The declaration asks for collections of this kind. -/
inductive WantsColl : CDecl → Container → Prop
  | coll {of : Option PyType} {c : Container} {isa : Option CRef} : WantsColl (.coll of (some c) isa) c
  | list {l of : Option PyType} {c : Container} {isa : Option CRef} {ct : Container} : WantsColl (.list l of (some c) isa ct) c
  | aList {l of : Option PyType} {coll : Option Container} {isa : Option CRef} {ct : Container} : WantsColl (.list l of coll isa ct) listCollection
  | listType {l of : Option PyType} {isa : Option CRef} {ct : Container} : WantsColl (.list l of none isa ct) ct
  | dict {l of : Option PyType} {c : Container} {isa : Option CRef} {ct : Container} : WantsColl (.dict l of (some c) isa ct) c
  | aDict {l of : Option PyType} {coll : Option Container} {isa : Option CRef} {ct : Container} : WantsColl (.dict l of coll isa ct) dictCollection
  | dictType {l of : Option PyType} {isa : Option CRef} {ct : Container} : WantsColl (.dict l of none isa ct) ct
  | generic {of : PyType} {c : Container} : WantsColl (.generic of c) c

/-- The declaration asks for items of this type. -/
inductive WantsItem : CDecl → PyType → Prop
  | coll {t : PyType} {c : Option Container} {isa : Option CRef} : WantsItem (.coll (some t) c isa) t
  | listOf {t : PyType} {of : Option PyType} {c : Option Container} {isa : Option CRef} {ct : Container} : WantsItem (.list (some t) of c isa ct) t
  | list {t : PyType} {l : Option PyType} {c : Option Container} {isa : Option CRef} {ct : Container} : WantsItem (.list l (some t) c isa ct) t
  | dictOf {t : PyType} {of : Option PyType} {c : Option Container} {isa : Option CRef} {ct : Container} : WantsItem (.dict (some t) of c isa ct) t
  | dict {t : PyType} {l : Option PyType} {c : Option Container} {isa : Option CRef} {ct : Container} : WantsItem (.dict l (some t) c isa ct) t
  | generic {t : PyType} {c : Container} : WantsItem (.generic t c) t

/-- The declaration names the collection type itself. -/
def WantsIsa : CDecl → Option CRef
  | .coll _ _ isa => isa
  | .list _ _ _ isa _ => isa
  | .dict _ _ _ isa _ => isa
  | .generic _ _ => none

/-- The container class a type may be generated from. -/
def usesColl : CDecl → Option Container
  | .coll _ c _ => c
  | .list _ _ c _ ct => some (c.getD ct)
  | .dict _ _ c _ ct => some (c.getD ct)
  | .generic _ c => some c

/-- `issubclass` is reflexive and transitive. -/
structure GoodClasses (W : Classes) : Prop where
  refl : ∀ c, W.subColl c c = true
  trans : ∀ a b c, W.subColl a b = true → W.subColl b c = true → W.subColl a c = true
  reflItem : ∀ t, W.subItem t t = true

/-- Collections of this type are collections of the given kind. -/
def KindOf (W : Classes) : CRef → Container → Prop
  | .cls k, c => W.subColl k c = true
  | .gen g, c => W.subColl g.base c = true

/-- Collections of this type have items of this type. -/
def ItemsOf (W : Classes) : CRef → PyType → Prop
  | .cls k, t => W.itemtype k = some t
  | .gen g, t => g.itemtype = t

/-- Container classes that have the same name are the same. -/
def NamesApart (l : List Container) : Prop := ∀ c ∈ l, ∀ c' ∈ l, c.name = c'.name → c = c'

end Normalize.Spec
