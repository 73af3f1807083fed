import Verif.Spec.Snp

/-! Keccak-p with fewer rounds, and further ways to access the 200 bytes of the state. -/

namespace Banquet.Spec

/-- Keccak-p[1600, n] on lanes (FIPS 202, 3.3, algorithm 7 with `l = 6`): the rounds with index `24 - n` to `23`. -/
def keccakRounds (n : Nat) (a : Lanes) : Lanes := (roundConstants.drop (24 - n)).foldl keccakRound a

/-- Replace the bytes from `offset` on by `data`. -/
def replaceBytes (s : St) (data : Bytes) (offset : Nat) : St :=
  Vector.ofFn fun i => if offset ≤ i.val ∧ i.val < offset + data.length then data.getD (i.val - offset) 0 else s[i]

end Banquet.Spec
