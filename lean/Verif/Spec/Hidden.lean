import Verif.Spec.Simulate
import Verif.Spec.Tree

/-! What an observer of a simulated signature would have to find: seeds of hidden parties, or the secret key. -/

namespace Banquet.Spec

/-- The inputs with the seeds that are not opened in repetition `e` with hidden party `m`: for the tape of this party, for its commitment, and for expanding the nodes above it. -/
def pathInputs {I : Instance} {D : Finset Bytes} {L : Nat} (X0 : Xof) (ω : Coins I D L) (e m : Nat) : List Bytes :=
  let salt := ω.seeds.squeeze 0 32
  let leaf := leafNode I.numParties m
  tapeInput (ω.node X0 e leaf) salt e m :: (salt ++ le16 e ++ le16 m ++ ω.node X0 e leaf) ::
    (List.range (depth I.numParties)).map fun k => [1] ++ ω.node X0 e (ancestor leaf (k + 1)) ++ salt ++ le16 e ++ le16 (ancestor leaf (k + 1))

/-- The observer of the simulated signature asks for an input with a seed that is not opened. -/
def FindsSeed {I : Instance} {D : Finset Bytes} {L q : Nat} (O : Observer (kindOf I.digestSize) q) (X0 : Xof) (c : Nat) (fuel : Nat) (pk msg : Bytes) (ω : Coins I D L) : Prop :=
  ∃ o, ω.run X0 c fuel pk msg = .ok o ∧ ∃ j < q, ∃ e < I.numRounds,
    O.ask o.sig (withTable (kindOf I.digestSize) X0 (ω.table o)) j ∈ pathInputs X0 ω e ((o.sig.proofs.map (·.reveal.missing)).getD e 0)

/-- Keys that are read off what the observer of the simulated signature asks for. The secret key is not an argument. -/
def keyGuesses {I : Instance} {D : Finset Bytes} {L q : Nat} (O : Observer (kindOf I.digestSize) q) (X0 : Xof) (c : Nat) (fuel : Nat) (pk msg : Bytes) (ω : Coins I D L) : List Bytes :=
  match ω.run X0 c fuel pk msg with
  | .ok o => (List.range q).map fun j => slice (O.ask o.sig (withTable (kindOf I.digestSize) X0 (ω.table o)) j) 2 I.aes.keySize
  | .error _ => []

end Banquet.Spec
