import Verif.Spec.Rep

/-! Specification of the challenges: field elements and parties drawn from the blocks of a byte stream, one after the other, rejecting those that are not allowed. -/

namespace Banquet.Spec

/-- The first `n` blocks of `len` bytes of a stream. -/
def streamBlocks (s : Stream) (len n : Nat) : List Bytes := (List.range n).map fun i => s.squeeze (i * len) len

/-- A list of `n` blocks of `len` bytes. -/
def Blocks (len n : Nat) (w : List Bytes) : Prop := w.length = n ∧ ∀ b ∈ w, b.length = len

open Classical in
/-- The first `N` values of the blocks that are allowed. -/
noncomputable def firstOk {α : Type} (f : Bytes → α) (ok : α → Prop) (N : Nat) (w : List Bytes) : List α := ((w.map f).filter fun x => decide (ok x)).take N

/-- The field element given by a block. -/
def blockElem (b : Bytes) : W64 := BitVec.ofNat 64 (leNat b)

/-- Points which are not used for interpolation of the S-box inputs and outputs. -/
def Fresh (lam m2 : Nat) (R : W64) : Prop := ∀ k < m2, val lam R ≠ point lam k

/-- Number of bytes read for the choice of one of `n` parties. -/
def partyBytes (n : Nat) : Nat := if n ≤ 256 then 1 else 2

/-- The party given by a block, if it is below `n`. -/
def blockParty (n : Nat) (b : Bytes) : Nat := leNat b % 2 ^ Nat.clog 2 n

/-- The challenges `r_j` of repetition `e`: block `e * m1 + j` of the output for the first hash. -/
def challenge1 (X : Xof) (I : Instance) (h1 : Bytes) (e : Nat) : List W64 :=
  (List.range I.m1).map fun j => blockElem ((X (kindOf I.digestSize) h1).squeeze ((e * I.m1 + j) * I.lambda) I.lambda)

/-- `Rs` are the challenges `R` for the second hash. -/
def IsChallenge2 (X : Xof) (I : Instance) (h2 : Bytes) (Rs : List W64) : Prop :=
  Rs.length = I.numRounds ∧ ∃ n, firstOk blockElem (Fresh I.lambda I.m2) I.numRounds (streamBlocks (X (kindOf I.digestSize) h2) I.lambda n) = Rs

/-- `ms` are the hidden parties for the third hash. -/
def IsChallenge3 (X : Xof) (I : Instance) (h3 : Bytes) (ms : List Nat) : Prop :=
  ms.length = I.numRounds ∧ ∃ n, firstOk (blockParty I.numParties) (· < I.numParties) I.numRounds (streamBlocks (X (kindOf I.digestSize) h3) (partyBytes I.numParties) n) = ms

/-- When a signature is to be accepted, without reference to the functions of the model. -/
def Acceptable (X : Xof) (I : Instance) (pk msg : Bytes) (sig : Signature) : Prop :=
  ∃ (Rs : List W64) (bc : Nat → Nat → Bytes) (c : Nat → Nat → W64) (a b : Nat → Nat → Nat → W64),
    IsChallenge2 X I (digest X I (input2 I sig)) Rs ∧ IsChallenge3 X I sig.h3 (sig.proofs.map (·.reveal.missing)) ∧
    (∀ e pr, (pr, e) ∈ sig.proofs.zipIdx → Completes I.lambda I (slice pk 0 I.ctSize) (slice pk I.ctSize I.ctSize) (repOf X I sig e pr) pr.reveal.missing (challenge1 X I sig.h1 e) (Rs.getD e 0)
      pr.pAtR pr.sAtR pr.tAtR (bc e) (c e) (a e) (b e)) ∧
    sig.h1 = digest X I (input1 X I pk msg sig bc) ∧
    sig.h3 = digest X I (input3 I sig (digest X I (input2 I sig)) c a b) ∧
    ∀ pr ∈ sig.proofs, ∑ j ∈ Finset.range I.m1, val I.lambda (pr.sAtR.getD j 0) * val I.lambda (pr.tAtR.getD j 0) = val I.lambda pr.pAtR

end Banquet.Spec
