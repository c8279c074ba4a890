import Verif.Model.Val

/-!
# Induction on object trees
-/

namespace Normalize

mutual
theorem Val.ind {P : Val → Prop}
    (atom : ∀ a, P (.atom a))
    (list : ∀ xs, (∀ x ∈ xs, P x) → P (.list xs))
    (dict : ∀ xs : List (Comp × Val), (∀ x ∈ xs, P x.2) → P (.dict xs))
    (rcd : ∀ c (xs : List (String × Val)), (∀ x ∈ xs, P x.2) → P (.rcd c xs))
    (lcoll : ∀ c xs, (∀ x ∈ xs, P x) → P (.lcoll c xs))
    (dcoll : ∀ c (xs : List (Comp × Val)), (∀ x ∈ xs, P x.2) → P (.dcoll c xs)) : ∀ v, P v
  | .atom a => atom a
  | .list xs => list xs (Val.indL atom list dict rcd lcoll dcoll xs)
  | .dict xs => dict xs (Val.indC atom list dict rcd lcoll dcoll xs)
  | .rcd c xs => rcd c xs (Val.indS atom list dict rcd lcoll dcoll xs)
  | .lcoll c xs => lcoll c xs (Val.indL atom list dict rcd lcoll dcoll xs)
  | .dcoll c xs => dcoll c xs (Val.indC atom list dict rcd lcoll dcoll xs)

theorem Val.indL {P : Val → Prop}
    (atom : ∀ a, P (.atom a))
    (list : ∀ xs, (∀ x ∈ xs, P x) → P (.list xs))
    (dict : ∀ xs : List (Comp × Val), (∀ x ∈ xs, P x.2) → P (.dict xs))
    (rcd : ∀ c (xs : List (String × Val)), (∀ x ∈ xs, P x.2) → P (.rcd c xs))
    (lcoll : ∀ c xs, (∀ x ∈ xs, P x) → P (.lcoll c xs))
    (dcoll : ∀ c (xs : List (Comp × Val)), (∀ x ∈ xs, P x.2) → P (.dcoll c xs)) :
    ∀ (xs : List Val), ∀ x ∈ xs, P x
  | [], _, h => by simp at h
  | y :: ys, x, h =>
    (List.mem_cons.mp h).elim (fun e => e ▸ Val.ind atom list dict rcd lcoll dcoll y)
      (fun h => Val.indL atom list dict rcd lcoll dcoll ys x h)

theorem Val.indC {P : Val → Prop}
    (atom : ∀ a, P (.atom a))
    (list : ∀ xs, (∀ x ∈ xs, P x) → P (.list xs))
    (dict : ∀ xs : List (Comp × Val), (∀ x ∈ xs, P x.2) → P (.dict xs))
    (rcd : ∀ c (xs : List (String × Val)), (∀ x ∈ xs, P x.2) → P (.rcd c xs))
    (lcoll : ∀ c xs, (∀ x ∈ xs, P x) → P (.lcoll c xs))
    (dcoll : ∀ c (xs : List (Comp × Val)), (∀ x ∈ xs, P x.2) → P (.dcoll c xs)) :
    ∀ (xs : List (Comp × Val)), ∀ x ∈ xs, P x.2
  | [], _, h => by simp at h
  | (k, y) :: ys, x, h =>
    (List.mem_cons.mp h).elim (fun e => e ▸ Val.ind atom list dict rcd lcoll dcoll y)
      (fun h => Val.indC atom list dict rcd lcoll dcoll ys x h)

theorem Val.indS {P : Val → Prop}
    (atom : ∀ a, P (.atom a))
    (list : ∀ xs, (∀ x ∈ xs, P x) → P (.list xs))
    (dict : ∀ xs : List (Comp × Val), (∀ x ∈ xs, P x.2) → P (.dict xs))
    (rcd : ∀ c (xs : List (String × Val)), (∀ x ∈ xs, P x.2) → P (.rcd c xs))
    (lcoll : ∀ c xs, (∀ x ∈ xs, P x) → P (.lcoll c xs))
    (dcoll : ∀ c (xs : List (Comp × Val)), (∀ x ∈ xs, P x.2) → P (.dcoll c xs)) :
    ∀ (xs : List (String × Val)), ∀ x ∈ xs, P x.2
  | [], _, h => by simp at h
  | (k, y) :: ys, x, h =>
    (List.mem_cons.mp h).elim (fun e => e ▸ Val.ind atom list dict rcd lcoll dcoll y)
      (fun h => Val.indS atom list dict rcd lcoll dcoll ys x h)
end

end Normalize
