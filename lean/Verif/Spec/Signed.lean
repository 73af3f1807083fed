import Verif.Spec.Cheat
import Verif.Spec.Challenge
import Verif.Spec.Aes

/-! Specification of the output of an honest signer. -/

namespace Banquet.Spec

open Polynomial

/-- The bytes from which the signer takes the salt and the master seeds: output for the instance number, secret key, public key and message. -/
def secretStream (X : Xof) (I : Instance) (sk pk msg : Bytes) : Stream := X (kindOf I.digestSize) (le16 I.params ++ sk ++ pk ++ msg)

/-- The salt: the first 32 bytes. -/
def ownSalt (X : Xof) (I : Instance) (sk pk msg : Bytes) : Bytes := (secretStream X I sk pk msg).squeeze 0 32

/-- The master seed of repetition `e`: the `e`-th block after the salt. -/
def masterSeed (X : Xof) (I : Instance) (sk pk msg : Bytes) (e : Nat) : Bytes := (secretStream X I sk pk msg).squeeze (32 + e * I.seedSize) I.seedSize

/-- Seed of a node of the tree of repetition `e`. -/
def nodeSeed (X : Xof) (I : Instance) (sk pk msg : Bytes) (e node : Nat) : Bytes := seedAt X (masterSeed X I sk pk msg e) (ownSalt X I sk pk msg) e node

/-- The corrections of a repetition proof and the tapes of all parties. -/
def ownRep (X : Xof) (I : Instance) (sk pk msg : Bytes) (e : Nat) (pr : Proof) : Rep :=
  ⟨pr.skDelta, pr.tDelta, pr.pDelta, fun p =>
    (X (kindOf (2 * I.seedSize)) (nodeSeed X I sk pk msg e (leafNode I.numParties p) ++ ownSalt X I sk pk msg ++ le16 e ++ le16 p)).squeeze 0 I.tapeSize⟩

/-- The S-box inputs shared by the parties. -/
def Rep.wholeS (I : Instance) (pt : Bytes) (r : Rep) : Bytes := xorOf I.aes.numSboxes ((List.range I.numParties).map fun p => (r.aes I pt p).1)

/-- The S-box outputs shared by the parties. -/
def Rep.wholeT (I : Instance) (r : Rep) : Bytes := xorOf I.aes.numSboxes ((List.range I.numParties).map (r.t I))

/-- The ciphertext shared by the parties. -/
def Rep.wholeCt (I : Instance) (pt : Bytes) (r : Rep) : Bytes := xorOf I.ctSize ((List.range I.numParties).map fun p => (r.aes I pt p).2)

/-- Shared values of `S_j`, `T_j` and `P` at point `k`. -/
noncomputable def Rep.wholeSVal (lam : Nat) (I : Instance) (pt : Bytes) (rs : List W64) (r : Rep) (j k : Nat) : GF lam := ∑ p ∈ Finset.range I.numParties, r.sVal I pt rs p j k lam
@[inherit_doc Rep.wholeSVal]
noncomputable def Rep.wholeTVal (lam : Nat) (I : Instance) (r : Rep) (j k : Nat) : GF lam := ∑ p ∈ Finset.range I.numParties, r.tVal I p j k lam
@[inherit_doc Rep.wholeSVal]
noncomputable def Rep.wholePVal (lam : Nat) (I : Instance) (rs : List W64) (r : Rep) (k : Nat) : GF lam := ∑ p ∈ Finset.range I.numParties, r.pVal I rs p k lam

/-- The corrections make the parties share the key, the S-box inputs with their inverses, the ciphertext, and polynomials with `P = ∑ S_j T_j`. -/
structure Rep.Honest (lam : Nat) (I : Instance) (sk pt ct : Bytes) (rs : List W64) (r : Rep) : Prop where
  key : r.wholeKey I = sk
  sboxes : ∀ i < I.aes.numSboxes, Aes.mul ((r.wholeS I pt).getD i 0) ((r.wholeT I).getD i 0) = 1
  ct : r.wholeCt I pt = ct
  product : ∀ (S T : Nat → (GF lam)[X]) (P : (GF lam)[X]), (∀ j < I.m1, Interpolates lam (I.m2 + 1) (r.wholeSVal lam I pt rs j) (S j)) → (∀ j < I.m1, Interpolates lam (I.m2 + 1) (r.wholeTVal lam I j) (T j)) →
    Interpolates lam (2 * I.m2 + 1) (r.wholePVal lam I rs) P → P = ∑ j ∈ Finset.range I.m1, S j * T j

/-- The proof of repetition `e` for the challenges `rs` and `R` is that of the honest signer: the seeds beside the path to the hidden party, the commitment to the hidden seed, honest corrections, and the values of
the polynomials at `R`. -/
structure SignedRep (X : Xof) (I : Instance) (sk pk msg : Bytes) (rs : List W64) (R : W64) (e : Nat) (pr : Proof) : Prop where
  seeds : pr.reveal.seeds = (List.range (depth I.numParties)).map fun k => nodeSeed X I sk pk msg e (sibling (ancestor (leafNode I.numParties pr.reveal.missing) k))
  commitment : pr.cE = digest X I (ownSalt X I sk pk msg ++ le16 e ++ le16 pr.reveal.missing ++ nodeSeed X I sk pk msg e (leafNode I.numParties pr.reveal.missing))
  honest : (ownRep X I sk pk msg e pr).Honest I.lambda I sk (slice pk 0 I.ctSize) (slice pk I.ctSize I.ctSize) rs
  p : EvalAt I.lambda (2 * I.m2 + 1) ((ownRep X I sk pk msg e pr).wholePVal I.lambda I rs) R pr.pAtR
  s : ∀ j < I.m1, EvalAt I.lambda (I.m2 + 1) ((ownRep X I sk pk msg e pr).wholeSVal I.lambda I (slice pk 0 I.ctSize) rs j) R (pr.sAtR.getD j 0)
  t : ∀ j < I.m1, EvalAt I.lambda (I.m2 + 1) ((ownRep X I sk pk msg e pr).wholeTVal I.lambda I j) R (pr.tAtR.getD j 0)

/-- The signature of the honest signer: salt and seeds as above, acceptable hashes and hidden parties, honest repetitions. -/
def Signed (X : Xof) (I : Instance) (sk pk msg : Bytes) (sig : Signature) : Prop :=
  sig.salt = ownSalt X I sk pk msg ∧ Acceptable X I pk msg sig ∧ ∃ Rs, IsChallenge2 X I (digest X I (input2 I sig)) Rs ∧
    ∀ e pr, (pr, e) ∈ sig.proofs.zipIdx → SignedRep X I sk pk msg (challenge1 X I sig.h1 e) (Rs.getD e 0) e pr

end Banquet.Spec
