import Verif.Spec.Cheat
import Verif.Spec.Challenge
import Verif.Spec.Collide
import Mathlib.Data.Set.Card

/-! Two accepted signatures that agree up to the choice of the hidden parties. -/

namespace Banquet.Spec

/-- What a verification computes: the challenges `R`, and for each repetition and party the broadcast and the shares. -/
structure Values where
  Rs : List W64
  bc : Nat → Nat → Bytes
  c : Nat → Nat → W64
  a : Nat → Nat → Nat → W64
  b : Nat → Nat → Nat → W64

/-- The input of the third hash in a verification whose second hash is that of `i2`. -/
def hashed3By (i2 : Bytes) (X : Xof) (I : Instance) (sig : Signature) (v : Values) : Bytes := input3 I sig (digest X I i2) v.c v.a v.b

/-- The input of the third hash in a verification. -/
abbrev hashed3 (X : Xof) (I : Instance) (sig : Signature) (v : Values) : Bytes := hashed3By (input2 I sig) X I sig v

/-- An accepting verification that computes the values `v` (the conditions of `Acceptable`) and hashes `i2` in the second place. -/
structure VerifiedBy (i2 : Bytes) (X : Xof) (I : Instance) (pk msg : Bytes) (sig : Signature) (v : Values) : Prop where
  challenges : IsChallenge2 X I (digest X I i2) v.Rs
  hidden : IsChallenge3 X I sig.h3 (sig.proofs.map (·.reveal.missing))
  completes : ∀ e pr, (pr, e) ∈ sig.proofs.zipIdx → Completes I.lambda I (slice pk 0 I.ctSize) (slice pk I.ctSize I.ctSize) (repOf X I sig e pr) pr.reveal.missing (challenge1 X I sig.h1 e) (v.Rs.getD e 0)
    pr.pAtR pr.sAtR pr.tAtR (v.bc e) (v.c e) (v.a e) (v.b e)
  hash1 : sig.h1 = digest X I (input1 X I pk msg sig v.bc)
  hash3 : sig.h3 = digest X I (hashed3By i2 X I sig v)
  product : ∀ pr ∈ sig.proofs, ∑ j ∈ Finset.range I.m1, val I.lambda (pr.sAtR.getD j 0) * val I.lambda (pr.tAtR.getD j 0) = val I.lambda pr.pAtR

/-- An accepting verification by the code. -/
abbrev Verified (X : Xof) (I : Instance) (pk msg : Bytes) (sig : Signature) (v : Values) : Prop := VerifiedBy (input2 I sig) X I pk msg sig v

/-- Corrections and tapes of all parties in repetition `e`, from two signatures: the tape of the party hidden in the first is taken from the second, and so are the corrections of `P` if that is party 0. -/
def merge (X X' : Xof) (I : Instance) (sig sig' : Signature) (e : Nat) (pr pr' : Proof) : Rep :=
  ⟨pr.skDelta, pr.tDelta, if pr.reveal.missing = 0 then pr'.pDelta else pr.pDelta,
    fun p => if p = pr.reveal.missing then (repOf X' I sig' e pr').tape p else (repOf X I sig e pr).tape p⟩

/-- Two inputs hashed in the two verifications (or both in the first) collide. -/
def ForkCollision (X X' : Xof) (I : Instance) (pk msg : Bytes) (sig sig' : Signature) (v v' : Values) : Prop :=
  Collide X (kindOf I.digestSize) I.digestSize (input1 X I pk msg sig v.bc) (input1 X' I pk msg sig' v'.bc) ∨
  Collide X (kindOf I.digestSize) I.digestSize (hashed3 X I sig v) (hashed3 X' I sig' v') ∨
  Collide X (kindOf I.digestSize) I.digestSize (input1 X I pk msg sig v.bc) (hashed3 X I sig v) ∨
  Collide X (kindOf I.digestSize) I.digestSize (input2 I sig) (hashed3 X I sig v)

/-- The commitment for party `p` which is part of the input of the first hash. -/
def commitOf (X : Xof) (I : Instance) (sig : Signature) (e : Nat) (pr : Proof) (p : Nat) : Bytes :=
  if p = pr.reveal.missing then pr.cE else digest X I (sig.salt ++ le16 e ++ le16 p ++ partySeedOf X I sig e pr p)

/-- The corrections of `sk` and `t` are those in the signature, and the tapes come from seeds with the commitments that are hashed. -/
def Committed (X : Xof) (I : Instance) (sig : Signature) (e : Nat) (pr : Proof) (r : Rep) : Prop :=
  r.keyDelta = pr.skDelta ∧ r.tDelta = pr.tDelta ∧ ∀ p < I.numParties, ∃ seed, seed.length = I.seedSize ∧ commitOf X I sig e pr p = digest X I (sig.salt ++ le16 e ++ le16 p ++ seed) ∧
    r.tape p = (X (kindOf (2 * I.seedSize)) (seed ++ sig.salt ++ le16 e ++ le16 p)).squeeze 0 I.tapeSize

/-- The challenges `R` for which the repetition can be opened for two different hidden parties. -/
def lucky2 (I : Instance) (pk : Bytes) (r : Rep) (rs : List W64) : Set W64 :=
  {R | Reduced I.lambda R ∧ ∃ m m', m < I.numParties ∧ m' < I.numParties ∧ m ≠ m' ∧ Opens I.lambda I (slice pk 0 I.ctSize) (slice pk I.ctSize I.ctSize) r rs R m m'}

/-- The challenges `r` for which some corrections of `P` have more than `2 m2` such challenges `R`. -/
def lucky1 (I : Instance) (pk : Bytes) (r : Rep) : Set (List W64) :=
  {rs | Elements I.lambda I.m1 rs ∧ ∃ d, Elements I.lambda (I.m2 + 1) d ∧ 2 * I.m2 < (lucky2 I pk { r with pDelta := d } rs).ncard}

end Banquet.Spec
