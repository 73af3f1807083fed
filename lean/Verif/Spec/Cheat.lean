import Verif.Spec.Rep
import Verif.Spec.WellFormed

/-! What a prover without key would have to do in one repetition. -/

namespace Banquet.Spec

/-- The tapes and corrections can be opened for the hidden parties `m` and `m'` with the same claimed values and the same shares, and the product check passes. -/
def Opens (lam : Nat) (I : Instance) (pt ct : Bytes) (r : Rep) (rs : List W64) (R : W64) (m m' : Nat) : Prop :=
  ∃ (cR : W64) (aR bR : List W64) (bc : Nat → Bytes) (c : Nat → W64) (a b : Nat → Nat → W64),
    Completes lam I pt ct r m rs R cR aR bR bc c a b ∧ Completes lam I pt ct r m' rs R cR aR bR bc c a b ∧
    ∑ j ∈ Finset.range I.m1, val lam (aR.getD j 0) * val lam (bR.getD j 0) = val lam cR

/-- The key shared by the parties. -/
def Rep.wholeKey (I : Instance) (r : Rep) : Bytes := xorOf I.aes.keySize ((List.range I.numParties).map (r.key I))

end Banquet.Spec
