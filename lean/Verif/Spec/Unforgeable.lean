import Verif.Spec.Hidden

/-! Forging a signature after seeing one. -/

namespace Banquet.Spec

/-- A message and a signature that the changed verify accepts, where the verification asks only for inputs in `Q`. -/
def Forges (X : Xof) (I : Instance) (pk : Bytes) (Q : List Bytes) (out : Bytes × Signature) : Prop :=
  (∃ ms, SigWF I ms out.2) ∧ (∃ fuel, Fixed.verify X fuel I pk out.2 out.1 = .ok true) ∧
  ∃ v, VerifiedBy (input2n (I.m2 + 1) I out.2) X I pk out.1 out.2 v ∧ Asked I X pk out.1 out.2 v (input2n (I.m2 + 1) I out.2) Q

/-- The hashes of the inputs in `Q` settle that the signature is accepted: it is, for all hash functions with the same values there. -/
def Settled (X : Xof) (I : Instance) (pk : Bytes) (Q : List Bytes) (out : Bytes × Signature) : Prop :=
  ∀ X' : Xof, (∀ s ∈ Q, X' (kindOf I.digestSize) s = X (kindOf I.digestSize) s) → Forges X' I pk Q out

/-- `Q` contains everything that the verification asks for: the inputs of `Asked`, the nodes of the trees that are expanded, and the inputs for the tapes. -/
structure AskedAll (I : Instance) (X : Xof) (pk msg : Bytes) (sig : Signature) (v : Values) (i2 : Bytes) (Q : List Bytes) : Prop extends Asked I X pk msg sig v i2 Q where
  nodes : ∀ e pr, (pr, e) ∈ sig.proofs.zipIdx → ∀ i, i + 1 < I.numParties → (∀ k, i ≠ ancestor (leafNode I.numParties pr.reveal.missing) k) →
    [1] ++ revealV X sig.salt e I.seedSize (revealedAt I.numParties pr.reveal.missing pr.reveal.seeds) i ++ sig.salt ++ le16 e ++ le16 i ∈ Q
  tapes : ∀ e pr, (pr, e) ∈ sig.proofs.zipIdx → ∀ p < I.numParties, p ≠ pr.reveal.missing → tapeInput (partySeedOf X I sig e pr p) sig.salt e p ∈ Q

/-- An algorithm that gets a signature, asks for `q` values of the hash function one after the other, and returns a message and a signature. -/
structure Forger (K : ShakeKind) (q : Nat) where
  ask : Signature → Xof → Nat → Bytes
  out : Signature → Xof → Bytes × Signature
  adaptive : ∀ sig, Adaptive K (ask sig)
  depends : ∀ sig X X', (∀ j < q, X' K (ask sig X j) = X K (ask sig X j)) → out sig X' = out sig X

/-- The forger is given the signature of `msg` by the changed code, and forges a signature of another message. -/
def ForgesReal {I : Instance} {D : Finset Bytes} {L q : Nat} (A : Forger (kindOf I.digestSize) q) (X0 : Xof) (fuel : Nat) (sk pk msg : Bytes) (f : D → Fin L → Byte) : Prop :=
  let X := withTable (kindOf I.digestSize) X0 f
  ∃ sig, Fixed.sign X fuel I sk pk msg = .ok sig ∧ (A.out sig X).1 ≠ msg ∧ Settled X I pk (asks (A.ask sig) X q) (A.out sig X)

/-- How many values of the hash function the simulator needs. -/
def simCount (I : Instance) : Nat := 3 + 3 * (I.numRounds * I.numParties)

/-- Input number `i` that the simulator asks for: the three hashes, the nodes of the trees, the commitments, the tapes. -/
def simInput (I : Instance) (coins : Stream) (d1 d2 d3 : Bytes) (X : Xof) (i : Nat) : Bytes :=
  let salt := coins.squeeze 0 32
  let e := (i - 3) % (I.numRounds * I.numParties) / I.numParties
  let p := (i - 3) % I.numParties
  let seed := seedAt X (coins.squeeze (32 + e * I.seedSize) I.seedSize) salt e
  if i < 3 then [d1, d2, d3].getD i []
  else if i < 3 + I.numRounds * I.numParties then [1] ++ seed p ++ salt ++ le16 e ++ le16 p
  else if i < 3 + 2 * (I.numRounds * I.numParties) then salt ++ le16 e ++ le16 p ++ seed (leafNode I.numParties p)
  else tapeInput (seed (leafNode I.numParties p)) salt e p

/-- Everything that is asked for by the simulator and then by the forger who gets the simulated signature. -/
def questions {I : Instance} {D : Finset Bytes} {L q : Nat} (A : Forger (kindOf I.digestSize) q) (X0 : Xof) (ω : Coins I D L) (o : Simulated) : List Bytes :=
  (List.range (simCount I)).map (simInput I ω.seeds (ω.hash 0) (ω.hash 1) (ω.hash 2) (ω.xof X0)) ++ asks (A.ask o.sig) (withTable (kindOf I.digestSize) X0 (ω.table o)) q

/-- Keys that are read off these questions: shared by the seeds in commitments (`extract`), or part of the question itself. The secret key is not an argument. -/
def keysFrom {I : Instance} {D : Finset Bytes} {L q : Nat} (A : Forger (kindOf I.digestSize) q) (X0 : Xof) (fuel : Nat) (pk msg : Bytes) (ω : Coins I D L) : List Bytes :=
  match ω.run X0 (I.m2 + 1) fuel pk msg with
  | .ok o => ((questions A X0 ω o).flatMap fun s => (List.range I.numRounds).map fun e => (extract I (ω.xof X0) (questions A X0 ω o) s e).wholeKey I) ++
      (asks (A.ask o.sig) (withTable (kindOf I.digestSize) X0 (ω.table o)) q).map (slice · 2 I.aes.keySize)
  | .error _ => []

/-- Bound for the probability of a forgery, apart from accidents and from finding a key, with `q` questions of at most `len` bytes. -/
noncomputable def seenBound (I : Instance) (q len : Nat) : ℚ :=
  let n := q + simCount I
  q * I.numRounds * (depth I.numParties + 2) / (256 ^ I.seedSize - 2 * q) + n * (n + 1) * (len + 1) / (2 * 256 ^ I.digestSize) + n * (3 / 2 ^ (8 * I.aes.keySize)) + n * (2 / 256 ^ I.digestSize)

end Banquet.Spec
