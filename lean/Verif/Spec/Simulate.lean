import Verif.Spec.Oracle
import Verif.Spec.Signed
import Verif.Spec.View
import Verif.Model.Fixed

/-! A simulator: it makes a signature for a public key without the secret key, and fixes three values of the hash function to fit. -/

namespace Banquet.Spec

/-- `n` field elements of `lam` bytes each in `u`, from position `off`. -/
def elemsAt (lam : Nat) (u : Bytes) (off n : Nat) : List W64 := (List.range n).map fun i => blockElem (slice u (off + i * lam) lam)

/-- The input from which the tape of a party is expanded. -/
def tapeInput (seed salt : Bytes) (e p : Nat) : Bytes := seed ++ salt ++ le16 e ++ le16 p

/-- Simulated proof of repetition `e` with master seed `root`, when party `m` is to be hidden: seeds and commitment are made as by the signer. The corrections and the values at `R` are bytes of the tape of the hidden party
(nobody else needs them, since this tape is not opened), and `P(R)` is what the final check of the verifier asks for. -/
def simProof (X : Xof) (F : FieldState) (I : Instance) (salt root : Bytes) (e m : Nat) : Proof :=
  let seed := seedAt X root salt e (leafNode I.numParties m)
  let u := (X (kindOf I.digestSize) (tapeInput seed salt e m)).squeeze 0 I.tapeSize
  let o := I.aes.keySize + I.aes.numSboxes
  let a := elemsAt I.lambda u (o + (I.m2 + 1) * I.lambda) I.m1
  let b := elemsAt I.lambda u (o + (I.m2 + 1 + I.m1) * I.lambda) I.m1
  ⟨⟨(List.range (depth I.numParties)).map fun k => seedAt X root salt e (sibling (ancestor (leafNode I.numParties m) k)), m⟩,
    digest X I (salt ++ le16 e ++ le16 m ++ seed), slice u 0 I.aes.keySize, slice u I.aes.keySize I.aes.numSboxes, elemsAt I.lambda u o (I.m2 + 1), sumProducts F I a b, a, b⟩

/-- What the simulator returns: a signature, and the inputs whose hashes are to be set to the first, second and third hash. -/
structure Simulated where
  sig : Signature
  in1 : Bytes
  in2 : Bytes
  in3 : Bytes

/-- The simulator. `coins` are random bytes for the salt and the master seeds, `d1`, `d2`, `d3` random values for the three hashes. The challenges are expanded from these first; the hidden parties are then known before the proofs are
made. The second hash covers `c` corrections (`m2` in the code). The inputs of the hashes are those that the verifier computes from the signature, by the functions of its model (`verRep1`, `verRep3`). The secret key is not an argument. -/
def simulate (c : Nat) (X : Xof) (fuel : Nat) (I : Instance) (pk msg : Bytes) (coins : Stream) (d1 d2 d3 : Bytes) : M Simulated := do
  let F ← initExtensionField I.lambda
  let salt := coins.squeeze 0 32
  let Rs ← phase2Expand X fuel F I d2 (F.firstN I.m2)
  let ms ← phase3Expand X fuel I d3
  let proof := fun e => simProof X F I salt (coins.squeeze (32 + e * I.seedSize) I.seedSize) e (ms.getD e 0)
  let reps ← (List.range I.numRounds).mapM fun e => do
    let r1 ← verRep1 X (List.replicate I.seedSize 0) I (slice pk 0 I.ctSize) (slice pk I.ctSize I.ctSize) salt (proof e) (ms.getD e 0) e
    let r3 ← verRep3 F I (precomp F I) (proof e) (ms.getD e 0) ((phase1Expand X F I d1).getD e []) (Rs.getD e 0) r1
    .ok ((⟨r1.commitments, r1.ctShares, (proof e).skDelta, (proof e).tDelta⟩ : Rep1Hash), r3)
  let proofs := (List.range I.numRounds).map proof
  .ok ⟨⟨salt, d1, d3, proofs⟩, phase1Input I salt pk msg (reps.map (·.1)), Fixed.phase2InputN c F salt d1 (proofs.map (·.pDelta)), phase3Input F I salt d2 (reps.map (·.2))⟩

/-! ## The simulator with a random hash function -/

/-- The answer `a` with its first bytes replaced by `v`. -/
def overwrite {L : Nat} (v : Bytes) (a : Fin L → Byte) : Fin L → Byte := fun i => v.getD i (a i)

/-- The table with the first bytes for some inputs replaced by given ones. -/
def patch {D : Finset Bytes} {L : Nat} (l : List (Bytes × Bytes)) (f : D → Fin L → Byte) : D → Fin L → Byte :=
  fun x => match l.find? fun q => q.1 = x.1 with
    | some q => overwrite q.2 (f x)
    | none => f x

/-- Random choices: bytes for salt and master seeds, three hashes, and the table of a hash function. -/
abbrev Coins (I : Instance) (D : Finset Bytes) (L : Nat) := (Fin L → Byte) × (Fin 3 → Fin I.digestSize → Byte) × (D → Fin L → Byte)

namespace Coins
variable {I : Instance} {D : Finset Bytes} {L : Nat} (ω : Coins I D L) (X0 : Xof)

/-- The hash function. -/
def xof : Xof := withTable (kindOf I.digestSize) X0 ω.2.2

/-- The bytes for salt and master seeds. -/
def seeds : Stream := answer ⟨fun _ => 0⟩ ω.1

/-- One of the three hashes. -/
def hash (k : Fin 3) : Bytes := List.ofFn (ω.2.1 k)

/-- A run of the simulator. -/
def run (c fuel : Nat) (pk msg : Bytes) : M Simulated := simulate c (ω.xof X0) fuel I pk msg ω.seeds (ω.hash 0) (ω.hash 1) (ω.hash 2)

/-- The table that the simulator leaves behind. -/
def table (o : Simulated) : D → Fin L → Byte := patch [(o.in1, ω.hash 0), (o.in2, ω.hash 1), (o.in3, ω.hash 2)] ω.2.2

/-- Seed of a node of the tree of repetition `e`. -/
def node (e i : Nat) : Bytes := seedAt (ω.xof X0) (ω.seeds.squeeze (32 + e * I.seedSize) I.seedSize) (ω.seeds.squeeze 0 32) e i

end Coins

/-- The input from which the signer expands salt and master seeds. -/
def secretInput (I : Instance) (sk pk msg : Bytes) : Bytes := le16 I.params ++ sk ++ pk ++ msg

/-- The inputs that are not to be found by those who see the signature: the one containing the secret key, and those for the tapes of the hidden parties. -/
def hiddenInputs {I : Instance} {D : Finset Bytes} {L : Nat} (X0 : Xof) (sk pk msg : Bytes) (ω : Coins I D L) (o : Simulated) : List Bytes :=
  secretInput I sk pk msg :: (List.range I.numRounds).map fun e =>
    tapeInput (ω.node X0 e (leafNode I.numParties ((o.sig.proofs.map (·.reveal.missing)).getD e 0))) o.sig.salt e ((o.sig.proofs.map (·.reveal.missing)).getD e 0)

/-- The simulator returns `o`, and there are no accidents: the salt is not found in the secret input (in particular not in the public key or the message), and is not the continuation of a seed of a party. -/
structure Clean {I : Instance} {D : Finset Bytes} {L : Nat} (X0 : Xof) (c : Nat) (fuel : Nat) (sk pk msg : Bytes) (ω : Coins I D L) (o : Simulated) : Prop where
  run : ω.run X0 c fuel pk msg = .ok o
  salt : ¬o.sig.salt <:+: secretInput I sk pk msg
  seeds : ∀ e < I.numRounds, ∀ p < I.numParties, ω.node X0 e (leafNode I.numParties p) ≠ o.sig.salt.take I.seedSize

/-- An algorithm that gets a signature, asks for `q` values of the hash function one after the other, and decides. -/
structure Observer (K : ShakeKind) (q : Nat) where
  ask : Signature → Xof → Nat → Bytes
  accept : Signature → Xof → Prop
  adaptive : ∀ sig, Adaptive K (ask sig)
  depends : ∀ sig X X', (∀ j < q, X' K (ask sig X j) = X K (ask sig X j)) → (accept sig X' ↔ accept sig X)

/-- The observer accepts the signature that the signer makes, when the second hash covers `c` corrections. -/
def AcceptsReal {I : Instance} {D : Finset Bytes} {L q : Nat} (O : Observer (kindOf I.digestSize) q) (X0 : Xof) (c : Nat) (fuel : Nat) (sk pk msg : Bytes) (f : D → Fin L → Byte) : Prop :=
  ∃ sig, Fixed.signN c (withTable (kindOf I.digestSize) X0 f) fuel I sk pk msg = .ok sig ∧ O.accept sig (withTable (kindOf I.digestSize) X0 f)

/-- The observer accepts the signature that the simulator makes, with the table that it leaves behind. -/
def AcceptsSimulated {I : Instance} {D : Finset Bytes} {L q : Nat} (O : Observer (kindOf I.digestSize) q) (X0 : Xof) (c : Nat) (fuel : Nat) (pk msg : Bytes) (ω : Coins I D L) : Prop :=
  ∃ o, ω.run X0 c fuel pk msg = .ok o ∧ O.accept o.sig (withTable (kindOf I.digestSize) X0 (ω.table o))

/-- The observer asks for the value at a hidden input. -/
def Finds {I : Instance} {D : Finset Bytes} {L q : Nat} (O : Observer (kindOf I.digestSize) q) (X0 : Xof) (c : Nat) (fuel : Nat) (sk pk msg : Bytes) (ω : Coins I D L) : Prop :=
  ∃ o, ω.run X0 c fuel pk msg = .ok o ∧ ∃ j < q, O.ask o.sig (withTable (kindOf I.digestSize) X0 (ω.table o)) j ∈ hiddenInputs X0 sk pk msg ω o

/-- A bound for the lengths of the inputs in signing. -/
def longest (I : Instance) (pk msg : Bytes) : Nat :=
  100 + pk.length + msg.length + 2 * I.digestSize + I.numRounds * (I.numParties * (I.digestSize + I.ctSize) + I.aes.keySize + I.aes.numSboxes + (I.m2 + 1) * I.lambda +
    (I.numParties + 1) * I.lambda + I.m1 * (2 * I.lambda + I.numParties * (2 * I.lambda)))

end Banquet.Spec
