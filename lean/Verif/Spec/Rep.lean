import Verif.Model.Banquet
import Verif.Spec.Shares
import Verif.Spec.Xor
import Verif.Spec.Tree
import Verif.Spec.Shared

/-! Specification of the computation of the parties in one repetition, as functions of the corrections and the random tapes, and of the acceptance of a signature. Polynomials are given by their
values; nothing here interpolates. -/

namespace Banquet.Spec

/-- The number with the given base 256 digits, lowest first. -/
def leNat (bs : Bytes) : Nat := bs.foldr (fun b n => b.toNat + 256 * n) 0

/-- The lowest `n` base 256 digits of a word, lowest first. -/
def leDigits (n : Nat) (w : BitVec 64) : Bytes := (List.range n).map fun i => BitVec.ofNat 8 (w.toNat / 256 ^ i)

/-- Corrections and tapes of one repetition. -/
structure Rep where
  keyDelta : Bytes
  tDelta : Bytes
  pDelta : List W64
  tape : Nat → Bytes

namespace Rep
variable (I : Instance) (r : Rep) (pt : Bytes) (rs : List W64) (p j k : Nat)

/-- Key share of party `p`: the first bytes of the tape, corrected for party 0. -/
def key : Bytes := (List.range I.aes.keySize).map fun i => (r.tape p).getD i 0 ^^^ (if p = 0 then r.keyDelta.getD i 0 else 0)

/-- Share of the S-box outputs: the next bytes of the tape, corrected for party 0. -/
def t : Bytes := (List.range I.aes.numSboxes).map fun i => (r.tape p).getD (I.aes.keySize + i) 0 ^^^ (if p = 0 then r.tDelta.getD i 0 else 0)

/-- Shares of the S-box inputs and of the ciphertext. -/
def aes : Bytes × Bytes := Shared.evaluate (p == 0) (r.t I p) (I.aes.keySize / 4) I.aes.numBlocks (r.key I p) pt

/-- Field element number `i` in the part of the tape after the key and the S-box outputs. -/
noncomputable def elem (lam i : Nat) : GF lam := val lam (BitVec.ofNat 64 (leNat (slice (r.tape p) (I.aes.keySize + I.aes.numSboxes + i * lam) lam)))

/-- Share of `S_j` at point `k`: `r_j` times the lifted S-box input in column `j` and row `k`, then a random value. -/
noncomputable def sVal (lam : Nat) : GF lam :=
  if k < I.m2 then val lam (rs.getD j 0) * liftVal lam ((r.aes I pt p).1.getD (j + I.m1 * k) 0) else r.elem I p lam (2 * j)

/-- Share of `T_j` at point `k`: the lifted S-box output, then a random value. -/
noncomputable def tVal (lam : Nat) : GF lam := if k < I.m2 then liftVal lam ((r.t I p).getD (j + I.m1 * k) 0) else r.elem I p lam (2 * j + 1)

/-- Share of `P` at point `k`: `∑ r_j` for party 0 (and 0 for the others) at the first `m2` points, then random values, corrected for party 0. -/
noncomputable def pVal (lam : Nat) : GF lam :=
  if k < I.m2 then (if p = 0 then ∑ j ∈ Finset.range I.m1, val lam (rs.getD j 0) else 0)
  else r.elem I p lam (2 * I.m1 + (k - I.m2)) + (if p = 0 then val lam (r.pDelta.getD (k - I.m2) 0) else 0)

end Rep

/-- What is opened in one repetition: `a`, `b`, `c` are the shares of the values of `S_j`, `T_j` and `P` at `R`, and `bc` the broadcasts. Those of the opened parties follow from their tapes. Those of
the hidden party `m` complete the ciphertext and the claimed values. `lam` is the size of the field. -/
structure Completes (lam : Nat) (I : Instance) (pt ct : Bytes) (r : Rep) (m : Nat) (rs : List W64) (R : W64) (cR : W64) (aR bR : List W64)
    (bc : Nat → Bytes) (c : Nat → W64) (a b : Nat → Nat → W64) : Prop where
  bcOpened : ∀ p < I.numParties, p ≠ m → bc p = (r.aes I pt p).2
  bcHidden : (bc m).length = I.ctSize ∧ xorOf I.ctSize ((List.range I.numParties).map bc) = ct
  cOpened : ∀ p < I.numParties, p ≠ m → EvalAt lam (2 * I.m2 + 1) (fun k => r.pVal I rs p k lam) R (c p)
  cHidden : Reduced lam (c m) ∧ ∑ p ∈ Finset.range I.numParties, val lam (c p) = val lam cR
  aOpened : ∀ p < I.numParties, p ≠ m → ∀ j < I.m1, EvalAt lam (I.m2 + 1) (fun k => r.sVal I pt rs p j k lam) R (a p j)
  aHidden : ∀ j < I.m1, Reduced lam (a m j) ∧ ∑ p ∈ Finset.range I.numParties, val lam (a p j) = val lam (aR.getD j 0)
  bOpened : ∀ p < I.numParties, p ≠ m → ∀ j < I.m1, EvalAt lam (I.m2 + 1) (fun k => r.tVal I p j k lam) R (b p j)
  bHidden : ∀ j < I.m1, Reduced lam (b m j) ∧ ∑ p ∈ Finset.range I.numParties, val lam (b p j) = val lam (bR.getD j 0)

/-- The hash function of an instance. -/
def digest (X : Xof) (I : Instance) (input : Bytes) : Bytes := (X (kindOf I.digestSize) input).squeeze 0 I.digestSize

/-- Seed of party `p` from the revealed seeds of a repetition. -/
def partySeedOf (X : Xof) (I : Instance) (sig : Signature) (e : Nat) (pr : Proof) (p : Nat) : Bytes :=
  revealV X sig.salt e I.seedSize (revealedAt I.numParties pr.reveal.missing pr.reveal.seeds) (leafNode I.numParties p)

/-- The corrections of a repetition proof and the tapes from the revealed seeds. -/
def repOf (X : Xof) (I : Instance) (sig : Signature) (e : Nat) (pr : Proof) : Rep :=
  ⟨pr.skDelta, pr.tDelta, pr.pDelta, fun p => (X (kindOf (2 * I.seedSize)) (partySeedOf X I sig e pr p ++ sig.salt ++ le16 e ++ le16 p)).squeeze 0 I.tapeSize⟩

/-- Input of the first hash: tag, salt, public key, message, and for each repetition the commitments and broadcasts of the parties and the corrections. -/
def input1 (X : Xof) (I : Instance) (pk msg : Bytes) (sig : Signature) (bc : Nat → Nat → Bytes) : Bytes :=
  1 :: (sig.salt ++ pk ++ msg ++ sig.proofs.zipIdx.flatMap fun (pr, e) =>
    ((List.range I.numParties).flatMap fun p =>
      (if p = pr.reveal.missing then pr.cE else digest X I (sig.salt ++ le16 e ++ le16 p ++ partySeedOf X I sig e pr p)) ++ bc e p) ++ pr.skDelta ++ pr.tDelta)

/-- Input of the second hash: tag, salt, first hash and, for each repetition, the first `m2` of the `m2 + 1` corrections of `P`. -/
def input2 (I : Instance) (sig : Signature) : Bytes :=
  2 :: (sig.salt ++ sig.h1 ++ sig.proofs.flatMap fun pr => (pr.pDelta.take I.m2).flatMap (leDigits I.lambda))

/-- Input of the third hash: tag, salt, second hash and, for each repetition, the claimed values and all shares. -/
def input3 (I : Instance) (sig : Signature) (h2 : Bytes) (c : Nat → Nat → W64) (a b : Nat → Nat → Nat → W64) : Bytes :=
  3 :: (sig.salt ++ h2 ++ sig.proofs.zipIdx.flatMap fun (pr, e) =>
    leDigits I.lambda pr.pAtR ++ ((List.range I.numParties).flatMap fun p => leDigits I.lambda (c e p)) ++
    (List.range I.m1).flatMap fun j => leDigits I.lambda (pr.sAtR.getD j 0) ++ leDigits I.lambda (pr.tAtR.getD j 0) ++
      (List.range I.numParties).flatMap fun p => leDigits I.lambda (a e p j) ++ leDigits I.lambda (b e p j))

/-- When a signature is to be accepted. `fuel` bounds the iterations of the rejection sampling of the challenges (C25, C26 are about these). -/
def Accepted (X : Xof) (fuel : Nat) (F : FieldState) (I : Instance) (pk msg : Bytes) (sig : Signature) : Prop :=
  ∃ (Rs : List W64) (bc : Nat → Nat → Bytes) (c : Nat → Nat → W64) (a b : Nat → Nat → Nat → W64),
    phase2Expand X fuel F I (digest X I (input2 I sig)) (F.firstN I.m2) = .ok Rs ∧
    phase3Expand X fuel I sig.h3 = .ok (sig.proofs.map (·.reveal.missing)) ∧
    (∀ e pr, (pr, e) ∈ sig.proofs.zipIdx → Completes I.lambda I (slice pk 0 I.ctSize) (slice pk I.ctSize I.ctSize) (repOf X I sig e pr) pr.reveal.missing ((phase1Expand X F I sig.h1).getD e []) (Rs.getD e 0)
      pr.pAtR pr.sAtR pr.tAtR (bc e) (c e) (a e) (b e)) ∧
    sig.h1 = digest X I (input1 X I pk msg sig bc) ∧
    sig.h3 = digest X I (input3 I sig (digest X I (input2 I sig)) c a b) ∧
    ∀ pr ∈ sig.proofs, ∑ j ∈ Finset.range I.m1, val I.lambda (pr.sAtR.getD j 0) * val I.lambda (pr.tAtR.getD j 0) = val I.lambda pr.pAtR

end Banquet.Spec
