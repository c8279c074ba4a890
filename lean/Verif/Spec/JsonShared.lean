import Verif.Spec.JsonOut

/-!
# C138: properties that share a JSON name
-/

namespace Normalize.Spec
open Json (Setup Mk initKwargs)
open Ident (IProp)

/-- No key of the document is the JSON name of two properties of the class. -/
def OwnKeys (J : Setup) (c : String) (js : List (Comp × Val)) : Prop :=
  (J.S.cls c).props.Pairwise (fun p q =>
    ∀ nm, Named J c p (some nm) → Named J c q (some nm) → ∀ j, (Comp.str nm, j) ∉ js)

/-- C138: whatever is wrong with a JSON dictionary, making the arguments of a constructor of it raises an exception that
says where (a `JsonConversionError`), and nothing else. -/
def C138_statement : Prop :=
  ∀ (J : Setup) (mk : Mk) (c : String) (js : List (Comp × Val)) (kw : List (String × Val)) (x : Exc),
    (js.map (·.1)).Nodup → initKwargs J mk c (.dict js) kw ≠ .error (.raw x)

end Normalize.Spec
