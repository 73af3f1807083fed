import Verif.Spec.Fork
import Verif.Spec.Protocol

/-! What a forger can reach by asking the hash function again and again. The queries are a list of inputs, in the order in which they are asked. Everything the prover sends is read off the inputs of the three
hashes; the tapes of the parties are found in the queries asked before the first hash. -/

namespace Banquet.Spec

/-- Input of the second hash with the first `n` corrections of `P` of each repetition. The code hashes `m2` of them (`input2`); there are `m2 + 1`. -/
def input2n (n : Nat) (I : Instance) (sig : Signature) : Bytes :=
  2 :: (sig.salt ++ sig.h1 ++ sig.proofs.flatMap fun pr => (pr.pDelta.take n).flatMap (leDigits I.lambda))

/-- The queries before the first `x`. -/
def before (Q : List Bytes) (x : Bytes) : List Bytes := Q.takeWhile (· != x)

/-- Two queries have the same hash. -/
def CollisionIn (X : Xof) (I : Instance) (Q : List Bytes) : Prop := ∃ x ∈ Q, ∃ y ∈ Q, Collide X (kindOf I.digestSize) I.digestSize x y

/-- A query contains the hash of a query that was not asked before. -/
def GuessIn (X : Xof) (I : Instance) (Q : List Bytes) : Prop := ∃ x ∈ Q, ∃ y ∈ Q, digest X I x <:+: y ∧ x ∉ before Q y

/-- The seed committed to: from the first query for a commitment of party `p` in repetition `e` with this hash. -/
def seedFor (X : Xof) (I : Instance) (Q : List Bytes) (salt : Bytes) (e p : Nat) (com : Bytes) : Option Bytes :=
  (Q.find? fun q => decide (q.length = 36 + I.seedSize ∧ q.take 36 = salt ++ le16 e ++ le16 p ∧ digest X I q = com)).map (·.drop 36)

section
variable (I : Instance)

/-- Bytes of one repetition in the input of the first hash. -/
def length1 : Nat := I.numParties * (I.digestSize + I.ctSize) + I.aes.keySize + I.aes.numSboxes

/-- Bytes of one product in the input of the third hash. -/
def length3p : Nat := I.lambda + I.lambda + I.numParties * (I.lambda + I.lambda)

/-- Bytes of one repetition in the input of the third hash. -/
def length3 : Nat := I.lambda + I.numParties * I.lambda + I.m1 * length3p I

/-- The salt in the input of a hash. -/
def saltAt (s : Bytes) : Bytes := slice s 1 32

/-- Repetition `e` in the input of the first hash (from the end, since the length of the message is not known). -/
def part1At (s : Bytes) (e : Nat) : Bytes := slice s (s.length - I.numRounds * length1 I + e * length1 I) (length1 I)

/-- The commitment for party `p`. -/
def comAt (s : Bytes) (e p : Nat) : Bytes := slice (part1At I s e) (p * (I.digestSize + I.ctSize)) I.digestSize

/-- The broadcast of party `p`. -/
def bcAt (s : Bytes) (e p : Nat) : Bytes := slice (part1At I s e) (p * (I.digestSize + I.ctSize) + I.digestSize) I.ctSize

/-- The correction of the key. -/
def keyDeltaAt (s : Bytes) (e : Nat) : Bytes := slice (part1At I s e) (I.numParties * (I.digestSize + I.ctSize)) I.aes.keySize

/-- The correction of the S-box outputs. -/
def tDeltaAt (s : Bytes) (e : Nat) : Bytes := slice (part1At I s e) (I.numParties * (I.digestSize + I.ctSize) + I.aes.keySize) I.aes.numSboxes

/-- The seed of party `p` in repetition `e`, found in the queries before the first hash. -/
def foundSeed (X : Xof) (Q : List Bytes) (s : Bytes) (e p : Nat) : Option Bytes := seedFor X I (before Q s) (saltAt s) e p (comAt I s e p)

/-- Corrections and tapes of repetition `e`, from the input `s` of the first hash and the queries before; a party without seed gets zeros. The corrections of `P` are not sent yet. -/
def extract (X : Xof) (Q : List Bytes) (s : Bytes) (e : Nat) : Rep :=
  ⟨keyDeltaAt I s e, tDeltaAt I s e, [], fun p => match foundSeed I X Q s e p with
    | some seed => (X (kindOf (2 * I.seedSize)) (seed ++ saltAt s ++ le16 e ++ le16 p)).squeeze 0 I.tapeSize
    | none => List.replicate I.tapeSize 0⟩

/-- The corrections of `P` in repetition `e`, from the input of the second hash with all of them. -/
def pDeltaAt (s : Bytes) (e : Nat) : List W64 := (List.range (I.m2 + 1)).map fun k => blockElem (slice s (33 + I.digestSize + (e * (I.m2 + 1) + k) * I.lambda) I.lambda)

/-- Repetition `e` in the input of the third hash. -/
def part3At (s : Bytes) (e : Nat) : Bytes := slice s (33 + I.digestSize + e * length3 I) (length3 I)

/-- Product `j` of repetition `e` in the input of the third hash. -/
def productAt (s : Bytes) (e j : Nat) : Bytes := slice (part3At I s e) (I.lambda + I.numParties * I.lambda + j * length3p I) (length3p I)

/-- The last message of repetition `e`: the broadcasts from the input of the first hash, everything else from that of the third. -/
def openingAt (s1 s3 : Bytes) (e : Nat) : Opening :=
  ⟨blockElem (slice (part3At I s3 e) 0 I.lambda), (List.range I.m1).map fun j => blockElem (slice (productAt I s3 e j) 0 I.lambda),
    (List.range I.m1).map fun j => blockElem (slice (productAt I s3 e j) I.lambda I.lambda), bcAt I s1 e,
    fun p => blockElem (slice (part3At I s3 e) (I.lambda + p * I.lambda) I.lambda),
    fun p j => blockElem (slice (productAt I s3 e j) (I.lambda + I.lambda + p * (I.lambda + I.lambda)) I.lambda),
    fun p j => blockElem (slice (productAt I s3 e j) (I.lambda + I.lambda + p * (I.lambda + I.lambda) + I.lambda) I.lambda)⟩

/-- Challenges of the first round that are lucky in more than `t` repetitions. -/
def Bad1 (pk : Bytes) (r : Fin I.numRounds → Rep) (t : Nat) : Set (Fin I.numRounds → List W64) := {rs | rs ∈ Round1 I ∧ t < {e | rs e ∈ lucky1 I pk (r e)}.ncard}

/-- Challenges of the second round that are lucky in more than `t` of the other repetitions. -/
def Bad2 (pk : Bytes) (r : Fin I.numRounds → Rep) (d : Fin I.numRounds → List W64) (rs : Fin I.numRounds → List W64) (t : Nat) : Set (Fin I.numRounds → W64) :=
  {Rs | Rs ∈ Round2 I ∧ t < {e | rs e ∉ lucky1 I pk (r e) ∧ Rs e ∈ lucky2 I pk { r e with pDelta := d e } (rs e)}.ncard}

/-- Challenges of the third round for which all repetitions are accepted and no party without seed is opened. -/
def Bad3 (pk : Bytes) (r : Fin I.numRounds → Rep) (known : Fin I.numRounds → Nat → Prop) (d : Fin I.numRounds → List W64) (rs : Fin I.numRounds → List W64) (Rs : Fin I.numRounds → W64)
    (o : Fin I.numRounds → Opening) : Set (Fin I.numRounds → Nat) :=
  {ms | ms ∈ Round3 I ∧ ∀ e, RepAccepts I pk { r e with pDelta := d e } (rs e) (Rs e) (o e) (ms e) ∧ ∀ p < I.numParties, p ≠ ms e → known e p}

/-- The three ways to forge: the first challenges are lucky in more than `t1` repetitions, the second in more than `t2` others, or the hidden parties of the remaining ones are guessed. The sets are given by the
inputs `s1`, `s3` of the first and third hash, the queries before the first, and the corrections `d` of `P`. -/
def ThreeWays (X : Xof) (pk : Bytes) (Q : List Bytes) (s1 s3 : Bytes) (d : Fin I.numRounds → List W64) (rs : Fin I.numRounds → List W64) (Rs : Fin I.numRounds → W64) (ms : Fin I.numRounds → Nat) (t1 t2 : Nat) : Prop :=
  (rs ∈ Bad1 I pk (fun e => extract I X Q s1 e) t1 ∧ (Bad1 I pk (fun e => extract I X Q s1 e) t1).ncard ≤ few1 I (t1 + 1)) ∨
  (Rs ∈ Bad2 I pk (fun e => extract I X Q s1 e) d rs t2 ∧ (Bad2 I pk (fun e => extract I X Q s1 e) d rs t2).ncard ≤ few2 I (t2 + 1)) ∨
  (ms ∈ Bad3 I pk (fun e => extract I X Q s1 e) (fun e p => foundSeed I X Q s1 e p ≠ none) d rs Rs (fun e => openingAt I s1 s3 e) ∧
    (Bad3 I pk (fun e => extract I X Q s1 e) (fun e p => foundSeed I X Q s1 e p ≠ none) d rs Rs (fun e => openingAt I s1 s3 e)).ncard ≤ I.numParties ^ (t1 + t2))

/-- A verification asks for the three hashes and the commitments of the opened parties. The list of all queries may contain others, before, between and after. -/
structure Asked (X : Xof) (pk msg : Bytes) (sig : Signature) (v : Values) (i2 : Bytes) (Q : List Bytes) : Prop where
  first : input1 X I pk msg sig v.bc ∈ Q
  second : i2 ∈ Q
  third : hashed3By i2 X I sig v ∈ Q
  round1 : sig.h1 ∈ Q
  round2 : digest X I i2 ∈ Q
  round3 : sig.h3 ∈ Q
  commitments : ∀ e pr, (pr, e) ∈ sig.proofs.zipIdx → ∀ p < I.numParties, p ≠ pr.reveal.missing → sig.salt ++ le16 e ++ le16 p ++ partySeedOf X I sig e pr p ∈ Q

end

end Banquet.Spec
