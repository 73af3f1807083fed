import Verif.Spec.Grind
import Verif.Spec.Key

/-! Random hash functions, and algorithms that ask for their values one after the other. -/

namespace Banquet.Spec

/-- The stream that begins with the bytes `a` and goes on like `s`. -/
def answer {L : Nat} (s : Stream) (a : Fin L → Byte) : Stream := ⟨fun i => if h : i < L then a ⟨i, h⟩ else s.get i⟩

/-- The hash function whose first `L` bytes for inputs in `D` (and the kind `K`) are given by a table. Everything else is as in `X0`. To draw a random hash function is to draw the table. -/
def withTable (K : ShakeKind) (X0 : Xof) {D : Finset Bytes} {L : Nat} (f : D → Fin L → Byte) : Xof :=
  fun k s => if h : k = K ∧ s ∈ D then answer (X0 k s) (f ⟨s, h.2⟩) else X0 k s

/-- `ask X i` is input number `i` that an algorithm asks for when the hash function is `X`; it depends only on the answers to those before. -/
def Adaptive (K : ShakeKind) (ask : Xof → Nat → Bytes) : Prop := ∀ X X' i, (∀ j < i, X' K (ask X j) = X K (ask X j)) → ask X' i = ask X i

/-- The first `q` inputs. -/
def asks (ask : Xof → Nat → Bytes) (X : Xof) (q : Nat) : List Bytes := (List.range q).map (ask X)

/-- The second and third challenge are found within the first `L` bytes of the outputs. -/
def Quick (X : Xof) (I : Instance) (h2 h3 : Bytes) (L : Nat) : Prop :=
  (firstOk blockElem (Fresh I.lambda I.m2) I.numRounds (streamBlocks (X (kindOf I.digestSize) h2) I.lambda (L / I.lambda))).length = I.numRounds ∧
  (firstOk (blockParty I.numParties) (· < I.numParties) I.numRounds (streamBlocks (X (kindOf I.digestSize) h3) (partyBytes I.numParties) (L / partyBytes I.numParties))).length = I.numRounds

/-- There is a signature that is accepted, whose verification asks only for inputs in `Q`, if the second hash covers all corrections of `P`. -/
def Forgeable (X : Xof) (I : Instance) (pk : Bytes) (Q : List Bytes) (L : Nat) : Prop :=
  ∃ msg sig ms v, SigWF I ms sig ∧ VerifiedBy (input2n (I.m2 + 1) I sig) X I pk msg sig v ∧ Asked I X pk msg sig v (input2n (I.m2 + 1) I sig) Q ∧ Quick X I (digest X I (input2n (I.m2 + 1) I sig)) sig.h3 L

/-- The seeds in the inputs `Q` do not share a key for the public key. -/
def Keyless (X : Xof) (I : Instance) (pk : Bytes) (Q : List Bytes) : Prop := ∀ s ∈ Q, ∀ e < I.numRounds, ¬KeyPair I ((extract I X Q s e).wholeKey I) pk

/-- Bound for the probability of a forgery with `q` inputs of at most `len` bytes: a collision or a guessed hash, more than `t1` lucky repetitions in the first round, more than `t2` in the second, or all other hidden parties
guessed. -/
noncomputable def forgeBound (I : Instance) (q len t1 t2 : Nat) : ℚ :=
  q * (q + 1) * (len + 1) / (2 * 256 ^ I.digestSize) +
  q * ((few1 I (t1 + 1) : Nat) / (Round1 I).ncard + (few2 I (t2 + 1) : Nat) / (Round2 I).ncard + (I.numParties : ℚ) ^ (t1 + t2) / (Round3 I).ncard)

end Banquet.Spec
