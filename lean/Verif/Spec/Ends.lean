import Verif.Spec.Oracle

/-! How long rejection sampling takes. -/

namespace Banquet.Spec

open Classical in
/-- The number of blocks whose values are not allowed. -/
noncomputable def misses {α : Type} (f : Bytes → α) (ok : α → Prop) (w : List Bytes) : Nat := ((w.map f).filter fun x => decide (¬ok x)).length

/-- The second challenge is not found in the first `n` blocks of a stream. -/
def Slow2 (I : Instance) (s : Stream) (n : Nat) : Prop := (firstOk blockElem (Fresh I.lambda I.m2) I.numRounds (streamBlocks s I.lambda n)).length ≠ I.numRounds

/-- There is a signature that is accepted, whose verification asks only for inputs in `Q`, if the second hash covers all corrections of `P` (`Forgeable` without a bound for the number of bytes that are read). -/
def ForgeableAny (X : Xof) (I : Instance) (pk : Bytes) (Q : List Bytes) : Prop :=
  ∃ msg sig ms v, SigWF I ms sig ∧ VerifiedBy (input2n (I.m2 + 1) I sig) X I pk msg sig v ∧ Asked I X pk msg sig v (input2n (I.m2 + 1) I sig) Q

end Banquet.Spec
