import Verif.Model.Xof

/-! Algorithms with access to the hash function. -/

namespace Banquet.Spec

/-- `A` uses at most `q` values of the hash function it is given: for every hash function there are `q` inputs such that the result is the same for all hash functions with the
same values on these inputs. (Every algorithm that makes at most `q` calls has this property.) -/
def QueryBound {α : Type} (q : Nat) (A : Xof → α) : Prop := ∀ X : Xof, ∃ Q : List (ShakeKind × Bytes), Q.length ≤ q ∧ ∀ X' : Xof, (∀ x ∈ Q, X' x.1 x.2 = X x.1 x.2) → A X' = A X

end Banquet.Spec
