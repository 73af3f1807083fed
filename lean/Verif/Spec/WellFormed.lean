import Verif.Model.Banquet
import Verif.Spec.Gf

/-! Which signature objects are in the format of an instance, and the length of their encoding. -/

namespace Banquet.Spec

/-- A list of `n` reduced field elements. -/
def Elements (lam n : Nat) (l : List W64) : Prop := l.length = n ∧ ∀ x ∈ l, Reduced lam x

/-- A repetition proof in the format of the instance, with the given hidden party. -/
structure ProofWF (I : Instance) (missing : Nat) (p : Proof) : Prop where
  missing : p.reveal.missing = missing
  seeds : p.reveal.seeds.length = Nat.clog 2 I.numParties ∧ ∀ s ∈ p.reveal.seeds, s.length = I.seedSize
  cE : p.cE.length = I.digestSize
  skDelta : p.skDelta.length = I.aes.keySize
  tDelta : p.tDelta.length = I.aes.numSboxes
  pDelta : Elements I.lambda (I.m2 + 1) p.pDelta
  pAtR : Reduced I.lambda p.pAtR
  sAtR : Elements I.lambda I.m1 p.sAtR
  tAtR : Elements I.lambda I.m1 p.tAtR

/-- A signature in the format of the instance, with the given hidden parties. -/
structure SigWF (I : Instance) (missing : List Nat) (s : Signature) : Prop where
  salt : s.salt.length = 32
  h1 : s.h1.length = I.digestSize
  h3 : s.h3.length = I.digestSize
  proofs : List.Forall₂ (ProofWF I) missing s.proofs

/-- Length of the encoding of one repetition. -/
def proofLength (I : Instance) : Nat :=
  Nat.clog 2 I.numParties * I.seedSize + I.digestSize + I.aes.keySize + I.aes.numSboxes + (I.m2 + 2 + 2 * I.m1) * I.lambda

/-- Length of the encoding of a signature. -/
def sigLength (I : Instance) : Nat := 32 + 2 * I.digestSize + I.numRounds * proofLength I

end Banquet.Spec
