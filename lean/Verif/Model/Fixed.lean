import Verif.Model.Banquet

/-! The code with one change: the loop of `phase_2_commitment` (banquet.cpp:155) runs over all `m2 + 1` corrections of `P`, `k <= m2` instead of `k < m2`. Everything else is used from `Model/Banquet`: `signBy` and `verifyBy`
are sign and verify with any function in place of `phase_2_commitment`, and with that of the code they are the model of the code (`signWith_code`, `verifyWith_code`). -/

namespace Banquet.Fixed

/-- All bytes hashed by `phase_2_commitment` (banquet.cpp:150-158) after the change. -/
def phase2Input (F : FieldState) (I : Instance) (salt h1 : Bytes) (pDeltas : List (List W64)) : Bytes :=
  [2] ++ salt ++ h1 ++ pDeltas.flatMap fun d => (List.range (I.m2 + 1)).flatMap fun k => gfHash F (d.getD k 0)

/-- `phase_2_commitment` (banquet.cpp:144-164) after the change. -/
def phase2Commit (X : Xof) (F : FieldState) (I : Instance) (salt h1 : Bytes) (pDeltas : List (List W64)) : Bytes :=
  (X (kindOf I.digestSize) (phase2Input F I salt h1 pDeltas)).squeeze 0 I.digestSize

/-- `banquet_sign` after the field initialisation (banquet.cpp:296-774), see `Banquet.signWith`. -/
def signBy (commit2 : Bytes → Bytes → List (List W64) → Bytes) (X : Xof) (fuel : Nat) (F : FieldState) (I : Instance) (sk pk msg : Bytes) : M Signature := do
  checkAes I.aes
  require .ub (decide (sk.length = I.aes.keySize ∧ 2 * I.ctSize ≤ pk.length))
  let pt := slice pk 0 I.ctSize
  let saved := (aesSave I.aes.keySize sk pt).2
  require .ub (decide (saved.2.length = I.aes.numSboxes ∧ I.m1 * I.m2 ≤ I.aes.numSboxes))
  let salt := genSalt X I sk pk msg
  let reps1 ← (List.range I.numRounds).mapM fun e => signRep1 X I sk pt saved.2 salt (genSeed X I sk pk msg e) e
  let h1 := phase1Commit X I salt pk msg (reps1.map fun r => ⟨r.commitments, r.ctShares, r.keyDelta, r.tDelta⟩)
  let rss := phase1Expand X F I h1
  let P := precomp F I
  let last := P.lagM2.getD I.m2 []
  let lastSq ← F.polyMul last last
  let prods ← (List.range I.m1).mapM (signProducts F I P saved)
  let reps2 ← (List.zip rss reps1).mapM fun (rs, r1) => signRep2 F I P lastSq prods rs r1
  let h2 := commit2 salt h1 (reps2.map (·.pDelta))
  let Rs ← phase2Expand X fuel F I h2 (F.firstN I.m2)
  let reps3 ← (List.zip Rs reps2).mapM fun (R, r2) => signRep3 F I P R r2
  let h3 := phase3Commit X F I salt h2 reps3
  let missing ← phase3Expand X fuel I h3
  let proofs ← (List.zip missing (List.zip reps1 (List.zip reps2 reps3))).mapM fun (m, r1, r2, r3) => signRep4 F I r1 r2 r3 m
  .ok ⟨salt, h1, h3, proofs⟩

/-- `banquet_sign` after the field initialisation (banquet.cpp:296-774), with the changed hash. -/
def signWith (X : Xof) (fuel : Nat) (F : FieldState) (I : Instance) (sk pk msg : Bytes) : M Signature := signBy (phase2Commit X F I) X fuel F I sk pk msg

theorem signWith_code (X : Xof) (fuel : Nat) (F : FieldState) (I : Instance) (sk pk msg : Bytes) : Banquet.signWith X fuel F I sk pk msg = signBy (Banquet.phase2Commit X F I) X fuel F I sk pk msg := rfl

/-- `banquet_sign` (banquet.cpp:290-775), with the changed hash. -/
def sign (X : Xof) (fuel : Nat) (I : Instance) (sk pk msg : Bytes) : M Signature := do
  let F ← initExtensionField I.lambda
  signWith X fuel F I sk pk msg

/-- All bytes hashed by `phase_2_commitment` (banquet.cpp:150-158) when the loop runs over the first `c` corrections: `c = m2` in the code, `c = m2 + 1` after the change. -/
def phase2InputN (c : Nat) (F : FieldState) (salt h1 : Bytes) (pDeltas : List (List W64)) : Bytes :=
  [2] ++ salt ++ h1 ++ pDeltas.flatMap fun d => (List.range c).flatMap fun k => gfHash F (d.getD k 0)

/-- `banquet_sign` (banquet.cpp:290-775) when the second hash covers the first `c` corrections. -/
def signN (c : Nat) (X : Xof) (fuel : Nat) (I : Instance) (sk pk msg : Bytes) : M Signature := do
  let F ← initExtensionField I.lambda
  signBy (fun salt h1 ds => (X (kindOf I.digestSize) (phase2InputN c F salt h1 ds)).squeeze 0 I.digestSize) X fuel F I sk pk msg

theorem signN_code (X : Xof) (fuel : Nat) (I : Instance) (sk pk msg : Bytes) : signN I.m2 X fuel I sk pk msg = Banquet.sign X fuel I sk pk msg := rfl

theorem signN_fixed (X : Xof) (fuel : Nat) (I : Instance) (sk pk msg : Bytes) : signN (I.m2 + 1) X fuel I sk pk msg = sign X fuel I sk pk msg := rfl

/-- `banquet_verify` after the field initialisation (banquet.cpp:785-1193), see `Banquet.verifyWith`. -/
def verifyBy (commit2 : Bytes → Bytes → List (List W64) → Bytes) (X : Xof) (dummy : Bytes) (fuel : Nat) (F : FieldState) (I : Instance) (pk : Bytes) (sig : Signature) (msg : Bytes) : M Bool := do
  checkAes I.aes
  require .ub (decide (2 * I.ctSize ≤ pk.length ∧ I.m1 * I.m2 ≤ I.aes.numSboxes))
  require .ub (sig.shaped I)
  let pt := slice pk 0 I.ctSize
  let ct := slice pk I.ctSize I.ctSize
  let h2 := commit2 sig.salt sig.h1 (sig.proofs.map (·.pDelta))
  let rss := phase1Expand X F I sig.h1
  let Rs ← phase2Expand X fuel F I h2 (F.firstN I.m2)
  let missing ← phase3Expand X fuel I sig.h3
  let reps1 ← ((List.zip missing sig.proofs).zipIdx).mapM fun ((m, proof), e) => verRep1 X dummy I pt ct sig.salt proof m e
  let P := precomp F I
  let reps3 ← (List.zip missing (List.zip sig.proofs (List.zip rss (List.zip Rs reps1)))).mapM fun (m, proof, rs, R, r1) =>
    verRep3 F I P proof m rs R r1
  let h1 := phase1Commit X I sig.salt pk msg
    ((List.zip sig.proofs reps1).map fun (proof, r) => ⟨r.commitments, r.ctShares, proof.skDelta, proof.tDelta⟩)
  let h3 := phase3Commit X F I sig.salt h2 reps3
  .ok (decide (h1 = sig.h1) && decide (h3 = sig.h3) && sig.proofs.all fun p => decide (sumProducts F I p.sAtR p.tAtR = p.pAtR))

/-- `banquet_verify` after the field initialisation (banquet.cpp:785-1193), with the changed hash. -/
def verifyWith (X : Xof) (dummy : Bytes) (fuel : Nat) (F : FieldState) (I : Instance) (pk : Bytes) (sig : Signature) (msg : Bytes) : M Bool := verifyBy (phase2Commit X F I) X dummy fuel F I pk sig msg

theorem verifyWith_code (X : Xof) (dummy : Bytes) (fuel : Nat) (F : FieldState) (I : Instance) (pk : Bytes) (sig : Signature) (msg : Bytes) :
    Banquet.verifyWith X dummy fuel F I pk sig msg = verifyBy (Banquet.phase2Commit X F I) X dummy fuel F I pk sig msg := rfl

/-- `banquet_verify` (banquet.cpp:777-1194), with the changed hash. -/
def verify (X : Xof) (fuel : Nat) (I : Instance) (pk : Bytes) (sig : Signature) (msg : Bytes) : M Bool := do
  let F ← initExtensionField I.lambda
  verifyWith X (List.replicate I.seedSize 0) fuel F I pk sig msg

end Banquet.Fixed
