import Verif.Model.Aes
import Verif.Model.Field
import Verif.Model.Tape
import Verif.Model.Tree

/-! Model of banquet.cpp: key generation, signing, verification, serialization.

Conventions. The loops over repetitions and over parties fill per-repetition and per-party slots that later code only reads at the same indices; the model writes them as lists
built by `List.map`/`List.mapM` over the index range. Loops over the same range are fused per phase. `RepContainer` slots are list entries (C40 is about the container itself).
Vectors whose size the code relies on without a check are guarded explicitly (`Err.ub`). -/

namespace Banquet

/-! ## Hash inputs -/

/-- `hash_update_GF2E` (banquet.cpp:17-24): `to_bytes` into a buffer and hash of its first λ bytes. In sign and verify the static byte size equals λ, so these are all
bytes written. -/
def gfHash (F : FieldState) (x : W64) : Bytes := F.toBytes x

/-- The stream of `generate_salt_and_seeds` (banquet.cpp:31-37). -/
def saltStream (X : Xof) (I : Instance) (sk pk msg : Bytes) : Stream :=
  X (kindOf I.digestSize) (le16 I.params ++ sk ++ pk ++ msg)

/-- The salt (banquet.cpp:39-40); `SALT_SIZE` is 32 (types.h:20). -/
def genSalt (X : Xof) (I : Instance) (sk pk msg : Bytes) : Bytes := (saltStream X I sk pk msg).squeeze 0 32

/-- The master seed of a repetition (banquet.cpp:41-46). -/
def genSeed (X : Xof) (I : Instance) (sk pk msg : Bytes) (rep : Nat) : Bytes :=
  (saltStream X I sk pk msg).squeeze (32 + rep * I.seedSize) I.seedSize

/-- `commit_to_party_seed` (banquet.cpp:50-63). -/
def commitSingle (X : Xof) (I : Instance) (seed salt : Bytes) (rep party : Nat) : Bytes :=
  (X (kindOf I.digestSize) (salt ++ le16 rep ++ le16 party ++ seed)).squeeze 0 I.digestSize

/-- One lane of `commit_to_4_party_seeds` (banquet.cpp:65-85). -/
def commitLane (X : Xof) (I : Instance) (seed salt : Bytes) (rep party : Nat) : Bytes :=
  (X (kindOf I.digestSize) (salt ++ le16 rep ++ le16 party ++ seed.take I.seedSize)).squeeze 0 I.digestSize

/-- The parties handled by the 4-way loops, e.g. banquet.cpp:345: `party < (N / 4) * 4`. -/
def fourWay (I : Instance) (party : Nat) : Bool := decide (party < I.numParties / 4 * 4)

/-- What one repetition contributes to the first hash (banquet.cpp:103-111). -/
structure Rep1Hash where
  commitments : List Bytes
  broadcasts : List Bytes
  keyDelta : Bytes
  tDelta : Bytes

/-- Bytes hashed for one repetition (banquet.cpp:103-111). -/
def Rep1Hash.bytes (I : Instance) (r : Rep1Hash) : Bytes :=
  ((List.range I.numParties).flatMap fun p => r.commitments.getD p [] ++ r.broadcasts.getD p []) ++ r.keyDelta ++ r.tDelta

/-- All bytes hashed by `phase_1_commitment` (banquet.cpp:97-112). -/
def phase1Input (I : Instance) (salt pk msg : Bytes) (reps : List Rep1Hash) : Bytes :=
  [1] ++ salt ++ pk ++ msg ++ reps.flatMap (Rep1Hash.bytes I)

/-- `phase_1_commitment` (banquet.cpp:87-118). -/
def phase1Commit (X : Xof) (I : Instance) (salt pk msg : Bytes) (reps : List Rep1Hash) : Bytes :=
  (X (kindOf I.digestSize) (phase1Input I salt pk msg reps)).squeeze 0 I.digestSize

/-- `phase_1_expand` (banquet.cpp:120-142): the challenges `r_{e,j}`. -/
def phase1Expand (X : Xof) (F : FieldState) (I : Instance) (h1 : Bytes) : List (List W64) :=
  let s := X (kindOf I.digestSize) h1
  (List.range I.numRounds).map fun e => (List.range I.m1).map fun j =>
    F.fromBytes (s.squeeze ((e * I.m1 + j) * I.lambda) I.lambda)

/-- All bytes hashed by `phase_2_commitment` (banquet.cpp:150-158): note `k < m2`, although there are `m2 + 1` deltas. -/
def phase2Input (F : FieldState) (I : Instance) (salt h1 : Bytes) (pDeltas : List (List W64)) : Bytes :=
  [2] ++ salt ++ h1 ++ pDeltas.flatMap fun d => (List.range I.m2).flatMap fun k => gfHash F (d.getD k 0)

/-- `phase_2_commitment` (banquet.cpp:144-164). -/
def phase2Commit (X : Xof) (F : FieldState) (I : Instance) (salt h1 : Bytes) (pDeltas : List (List W64)) : Bytes :=
  (X (kindOf I.digestSize) (phase2Input F I salt h1 pDeltas)).squeeze 0 I.digestSize

/-- The `while (true)` loop of `phase_2_expand` (banquet.cpp:178-195) from stream position `off`: the accepted candidate and the new position. -/
def phase2Loop (F : FieldState) (I : Instance) (s : Stream) (forbidden : List W64) : Nat → Nat → M (W64 × Nat)
  | 0, _ => .error .fuel
  | fuel + 1, off =>
    let cand := F.fromBytes (s.squeeze off I.lambda)
    if (List.range I.m2).any fun k => cand == forbidden.getD k 0 then phase2Loop F I s forbidden fuel (off + I.lambda)
    else .ok (cand, off + I.lambda)

/-- `phase_2_expand` (banquet.cpp:166-198). `fuel` bounds the rejections per repetition. -/
def phase2Expand (X : Xof) (fuel : Nat) (F : FieldState) (I : Instance) (h2 : Bytes) (forbidden : List W64) : M (List W64) := do
  let s := X (kindOf I.digestSize) h2
  let r ← (List.range I.numRounds).foldlM (fun (st : List W64 × Nat) _ => do
    let (c, off) ← phase2Loop F I s forbidden fuel st.2
    .ok (st.1 ++ [c], off)) ([], 0)
  .ok r.1

/-- What one repetition contributes to the third hash (banquet.cpp:215-228); shares are indexed by party, then by `j`. -/
structure Rep3 where
  c : W64
  cShares : List W64
  a : List W64
  b : List W64
  aShares : List (List W64)
  bShares : List (List W64)

/-- Bytes hashed for one repetition (banquet.cpp:216-227). -/
def Rep3.bytes (F : FieldState) (I : Instance) (r : Rep3) : Bytes :=
  gfHash F r.c ++ ((List.range I.numParties).flatMap fun p => gfHash F (r.cShares.getD p 0)) ++
  (List.range I.m1).flatMap fun j => gfHash F (r.a.getD j 0) ++ gfHash F (r.b.getD j 0) ++
    (List.range I.numParties).flatMap fun p =>
      gfHash F ((r.aShares.getD p []).getD j 0) ++ gfHash F ((r.bShares.getD p []).getD j 0)

/-- All bytes hashed by `phase_3_commitment` (banquet.cpp:211-228). -/
def phase3Input (F : FieldState) (I : Instance) (salt h2 : Bytes) (reps : List Rep3) : Bytes :=
  [3] ++ salt ++ h2 ++ reps.flatMap (Rep3.bytes F I)

/-- `phase_3_commitment` (banquet.cpp:200-234). -/
def phase3Commit (X : Xof) (F : FieldState) (I : Instance) (salt h2 : Bytes) (reps : List Rep3) : Bytes :=
  (X (kindOf I.digestSize) (phase3Input F I salt h2 reps)).squeeze 0 I.digestSize

/-- `num_squeeze_bytes` (banquet.cpp:243). -/
def numSqueezeBytes (n : Nat) : Nat := if n > 256 then 2 else 1

/-- The `uint16_t` candidate (banquet.cpp:250-252) read at stream position `off`. With one squeezed byte the upper byte is left over from before (initially uninitialised):
`junk`. `mask` is `(1 << ceil_log2(N)) - 1` as `uint16_t`. -/
def phase3Candidate (n : Nat) (s : Stream) (junk : Byte) (off : Nat) : Nat :=
  let lo := (s.get off).toNat
  let hi := if numSqueezeBytes n = 2 then (s.get (off + 1)).toNat else junk.toNat
  (lo + 256 * hi) &&& ((2 ^ ceilLog2 n - 1) % 2 ^ 16)

/-- The `do … while` loop of `phase_3_expand` (banquet.cpp:249-253). -/
def phase3Loop (n : Nat) (s : Stream) (junk : Nat → Byte) : Nat → Nat → M (Nat × Nat)
  | 0, _ => .error .fuel
  | fuel + 1, off =>
    let party := phase3Candidate n s (junk off) off
    if party ≥ n then phase3Loop n s junk fuel (off + numSqueezeBytes n)
    else .ok (party, off + numSqueezeBytes n)

/-- `phase_3_expand` (banquet.cpp:236-257) with explicit contents `junk` of the uninitialised byte (indexed by stream position) and `fuel` iterations per repetition. -/
def phase3ExpandJ (X : Xof) (junk : Nat → Byte) (fuel : Nat) (I : Instance) (h3 : Bytes) : M (List Nat) := do
  let s := X (kindOf I.digestSize) h3
  let r ← (List.range I.numRounds).foldlM (fun (st : List Nat × Nat) _ => do
    let (p, off) ← phase3Loop I.numParties s junk fuel st.2
    .ok (st.1 ++ [p], off)) ([], 0)
  .ok r.1

/-- `phase_3_expand` with zero in the uninitialised byte; C26 shows that the choice does not matter. -/
def phase3Expand (X : Xof) (fuel : Nat) (I : Instance) (h3 : Bytes) : M (List Nat) := phase3ExpandJ X (fun _ => 0) fuel I h3

/-! ## Key generation -/

/-- `banquet_keygen` (banquet.cpp:260-288). `draws i` are the bytes `rand_bytes` leaves in `key` and `pt` in iteration `i` (its return value is ignored by the code, so any contents
are possible). Returns `(sk, pk)`. -/
def keygen (I : Instance) (draws : Nat → Bytes × Bytes) : Nat → Nat → M (Bytes × Bytes)
  | 0, _ => .error .fuel
  | fuel + 1, i =>
    if I.aes.keySize = 16 ∨ I.aes.keySize = 24 ∨ I.aes.keySize = 32 then
      match aesPlain I.aes.keySize (draws i).1 (draws i).2 with
      | some ct => .ok ((draws i).1, (draws i).2 ++ ct)
      | none => keygen I draws fuel (i + 1)
    else .error .thrown

/-! ## Signatures -/

/-- `banquet_repetition_proof_t` (types.h:28-37). -/
structure Proof where
  reveal : RevealList
  cE : Bytes
  skDelta : Bytes
  tDelta : Bytes
  pDelta : List W64
  pAtR : W64
  sAtR : List W64
  tAtR : List W64
  deriving DecidableEq

/-- `banquet_signature_t` (types.h:39-44). -/
structure Signature where
  salt : Bytes
  h1 : Bytes
  h3 : Bytes
  proofs : List Proof
  deriving DecidableEq

/-- Size of plaintext and of ciphertext (banquet.cpp:299-300, 785). -/
def Instance.ctSize (I : Instance) : Nat := I.aes.blockSize * I.aes.numBlocks

/-- `random_tape_size` (banquet.cpp:328-330, 796-798). -/
def Instance.tapeSize (I : Instance) : Nat :=
  I.aes.keySize + I.aes.numSboxes + 2 * I.m1 * I.lambda + (I.m2 + 1) * I.lambda

/-- Position of the two extra points of `j` in the tape (banquet.cpp:583-584, 1027-1028). -/
def Instance.pointPos (I : Instance) (j : Nat) : Nat := I.aes.keySize + I.aes.numSboxes + j * 2 * I.lambda

/-- Position of the `P` shares in the tape (banquet.cpp:637-638, 1064-1065). -/
def Instance.pPos (I : Instance) : Nat := I.aes.keySize + I.aes.numSboxes + I.m1 * 2 * I.lambda

/-- The AES parameters are one of the three sets the AES code is compiled for (sizes are hard-wired there). Other sizes are out-of-range accesses; other key sizes throw
(banquet.cpp:316, 445, 947). -/
def checkAes (A : AesParams) : M Unit :=
  if A.keySize ≠ 16 ∧ A.keySize ≠ 24 ∧ A.keySize ≠ 32 then .error .thrown
  else require .ub (decide (A = aes128Params ∨ A = aes192Params ∨ A = aes256Params))

/-- The `fix first share` transforms (banquet.cpp:403-406, 423-426, 910-913, 925-928). -/
def fixFirst (delta : Bytes) : List Bytes → List Bytes
  | [] => []
  | s :: ss => xorBytes delta s :: ss

/-- `get_bytes` for the key share and the `t` share of each party (banquet.cpp:392-395, 413-417, 903-906, 918-922). -/
def rawShares (tapes : List Bytes) (start len : Nat) : List Bytes := tapes.map fun t => tapeBytes t start len

/-- `aes_*_s_shares` for all parties (banquet.cpp:432-445, 934-947): pairs of `s` share and ciphertext share. -/
def mpcAes (I : Instance) (keys ts : List Bytes) (pt : Bytes) : List (Bytes × Bytes) :=
  (List.range I.numParties).map fun p => aesParty I.aes.keySize (p == 0) (keys.getD p []) (ts.getD p []) pt

/-- `s_prime[e][party]` (banquet.cpp:574-595, 1018-1036): for each `j` the points `r_j * lift(s)` and the extra point from the tape. -/
def sPrime (F : FieldState) (I : Instance) (rs : List W64) (s tape : Bytes) : List (List W64) :=
  (List.range I.m1).map fun j =>
    ((List.range I.m2).map fun k => F.mul (rs.getD j 0) (F.lift (s.getD (j + I.m1 * k) 0))) ++
      [F.fromBytes (tapeBytes tape (I.pointPos j) I.lambda)]

/-- `t_prime[e][party]` (same lines). -/
def tPrime (F : FieldState) (I : Instance) (t tape : Bytes) : List (List W64) :=
  (List.range I.m1).map fun j =>
    ((List.range I.m2).map fun k => F.lift (t.getD (j + I.m1 * k) 0)) ++
      [F.fromBytes (tapeBytes tape (I.pointPos j + I.lambda) I.lambda)]

/-- `P_shares[party]` before the correction (banquet.cpp:617-644, 1043-1072). -/
def pRaw (F : FieldState) (I : Instance) (rs : List W64) (party : Nat) (tape : Bytes) : List W64 :=
  let sumR := (List.range I.m1).foldl (fun acc j => gfAdd acc (rs.getD j 0)) 0
  ((List.range I.m2).map fun _ => if party = 0 then sumR else 0) ++
    (List.range (I.m2 + 1)).map fun k => F.fromBytes (tapeBytes tape (I.pPos + k * I.lambda) I.lambda)

/-- `P_shares[0][k] += delta[k - m2]` for `k = m2 .. 2 m2` (banquet.cpp:654, 1074-1077). -/
def addDeltas (I : Instance) (deltas share : List W64) : List W64 :=
  (List.range (2 * I.m2 + 1)).map fun k =>
    if k < I.m2 then share.getD k 0 else gfAdd (share.getD k 0) (deltas.getD (k - I.m2) 0)

/-- The interpolation points and Lagrange polynomials (banquet.cpp:482-491, 965-974). -/
structure Precomp where
  xs2 : List W64
  lagM2 : List (List W64)
  lag2M2 : List (List W64)

/-- See `Precomp`. -/
def precomp (F : FieldState) (I : Instance) : Precomp :=
  let xs1 := F.firstN (I.m2 + 1)
  let xs2 := F.firstN (2 * I.m2 + 1)
  ⟨xs2, F.precomputeLagrange xs1, F.precomputeLagrange xs2⟩

/-- `lagrange_polys_evaluated_at_Re_*` (banquet.cpp:692-699, 1107-1114). -/
def lagAt (F : FieldState) (polys : List (List W64)) (n : Nat) (R : W64) : List W64 :=
  (List.range n).map fun k => F.eval (polys.getD k []) R

/-- `dot_product` for every `j` (banquet.cpp:704-709, 1123-1129). -/
def dots (F : FieldState) (I : Instance) (lag : List W64) (pts : List (List W64)) : M (List W64) :=
  (List.range I.m1).mapM fun j => F.dot lag (pts.getD j [])

/-- `c[e]`, `a[e][j]`, `b[e][j]` of the signer: sums over the parties (banquet.cpp:715-723). -/
def sumAt (I : Instance) (shares : List (List W64)) (j : Nat) : W64 :=
  (List.range I.numParties).foldl (fun acc p => gfAdd acc ((shares.getD p []).getD j 0)) 0

/-! ## Signing -/

/-- State of one repetition after the loops of banquet.cpp:337-369 and 386-461. -/
structure SignRep1 where
  tree : SeedTree
  tapes : List Bytes
  commitments : List Bytes
  keyDelta : Bytes
  tDelta : Bytes
  tShares : List Bytes
  sShares : List Bytes
  ctShares : List Bytes

/-- `get_leaf(party).value()`: throws `bad_optional_access` if there is no value. -/
def leafValue (t : SeedTree) (party : Nat) : M Bytes :=
  match t.getLeaf party with
  | some s => .ok s
  | none => .error .thrown

/-- Sharing of the key and of the S-box outputs and shared AES evaluation of one repetition (banquet.cpp:386-461). `savedT` are the S-box outputs `sbox_pairs.second`. -/
def signShares (I : Instance) (key pt savedT : Bytes) (tree : SeedTree) (commitments tapes : List Bytes) : SignRep1 :=
  let rawKeys := rawShares tapes 0 I.aes.keySize
  let keyDelta := rawKeys.foldl (fun d s => xorBytes s d) key
  let keys := fixFirst keyDelta rawKeys
  let rawT := rawShares tapes I.aes.keySize I.aes.numSboxes
  let tDelta := rawT.foldl (fun d s => xorBytes s d) savedT
  let tShares := fixFirst tDelta rawT
  let out := mpcAes I keys tShares pt
  ⟨tree, tapes, commitments, keyDelta, tDelta, tShares, out.map (·.1), out.map (·.2)⟩

/-- One repetition of banquet.cpp:337-369 and 386-461. -/
def signRep1 (X : Xof) (I : Instance) (key pt savedT salt masterSeed : Bytes) (rep : Nat) : M SignRep1 := do
  let tree ← SeedTree.ofSeed X masterSeed I.numParties salt rep
  let seeds ← (List.range I.numParties).mapM (leafValue tree)
  let commitments := (List.range I.numParties).map fun p =>
    if fourWay I p then commitLane X I (seeds.getD p []) salt rep p else commitSingle X I (seeds.getD p []) salt rep p
  let tapes := (List.range I.numParties).map fun p => genTape X I.tapeSize (seeds.getD p []) salt rep p
  .ok (signShares I key pt savedT tree commitments tapes)

/-- Product polynomials of one `j` (banquet.cpp:519-538): `ST`, `S_lag`, `T_lag`. -/
def signProducts (F : FieldState) (I : Instance) (P : Precomp) (saved : Saved) (j : Nat) :
    M (List W64 × List W64 × List W64) := do
  let last := P.lagM2.getD I.m2 []
  let S := ((List.range I.m2).map fun k => F.lift (saved.1.getD (j + I.m1 * k) 0)) ++ [0]
  let T := ((List.range I.m2).map fun k => F.lift (saved.2.getD (j + I.m1 * k) 0)) ++ [0]
  let S ← F.interpolate P.lagM2 S
  let T ← F.interpolate P.lagM2 T
  let st ← F.polyMul S T
  let sl ← F.polyMul S last
  let tl ← F.polyMul T last
  .ok (st, sl, tl)

/-- State of one repetition after the loop of banquet.cpp:540-656. -/
structure SignRep2 where
  sP : List (List (List W64))
  tP : List (List (List W64))
  pShares : List (List W64)
  pDelta : List W64

/-- `P` (banquet.cpp:598-612) from the challenges, the product polynomials and the sums of the extra points. -/
def signP (F : FieldState) (I : Instance) (rs sRand tRand lastSq : List W64)
    (prods : List (List W64 × List W64 × List W64)) : M (List W64) :=
  (List.range I.m1).foldlM (fun P j => do
    let (st, sl, tl) := prods.getD j ([], [], [])
    let r := rs.getD j 0
    let s := sRand.getD j 0
    let t := tRand.getD j 0
    let u ← vecAdd st (F.vecScale sl t)
    let v ← vecAdd (F.vecScale u r) (F.vecScale tl s)
    let w ← vecAdd v (F.vecScale (F.vecScale lastSq s) t)
    vecAdd P w) (List.replicate (2 * I.m2 + 1) 0)

/-- One repetition of banquet.cpp:540-656. -/
def signRep2 (F : FieldState) (I : Instance) (P : Precomp) (lastSq : List W64)
    (prods : List (List W64 × List W64 × List W64)) (rs : List W64) (r1 : SignRep1) : M SignRep2 := do
  let sP := (List.range I.numParties).map fun p => sPrime F I rs (r1.sShares.getD p []) (r1.tapes.getD p [])
  let tP := (List.range I.numParties).map fun p => tPrime F I (r1.tShares.getD p []) (r1.tapes.getD p [])
  let sRand := (List.range I.m1).map fun j =>
    (List.range I.numParties).foldl (fun acc p => gfAdd acc (((sP.getD p []).getD j []).getD I.m2 0)) 0
  let tRand := (List.range I.m1).map fun j =>
    (List.range I.numParties).foldl (fun acc p => gfAdd acc (((tP.getD p []).getD j []).getD I.m2 0)) 0
  let poly ← signP F I rs sRand tRand lastSq prods
  let raw := (List.range I.numParties).map fun p => pRaw F I rs p (r1.tapes.getD p [])
  let pDelta := (List.range (I.m2 + 1)).map fun k =>
    (List.range I.numParties).foldl (fun acc p => gfAdd acc ((raw.getD p []).getD (I.m2 + k) 0))
      (F.eval poly (P.xs2.getD (I.m2 + k) 0))
  let pShares := (List.range I.numParties).map fun p =>
    if p = 0 then addDeltas I pDelta (raw.getD p []) else raw.getD p []
  .ok ⟨sP, tP, pShares, pDelta⟩

/-- One repetition of banquet.cpp:688-724. -/
def signRep3 (F : FieldState) (I : Instance) (P : Precomp) (R : W64) (r2 : SignRep2) : M Rep3 := do
  let l1 := lagAt F P.lagM2 (I.m2 + 1) R
  let l2 := lagAt F P.lag2M2 (2 * I.m2 + 1) R
  let aShares ← (List.range I.numParties).mapM fun p => dots F I l1 (r2.sP.getD p [])
  let bShares ← (List.range I.numParties).mapM fun p => dots F I l1 (r2.tP.getD p [])
  let cShares ← (List.range I.numParties).mapM fun p => F.dot l2 (r2.pShares.getD p [])
  let c := cShares.foldl gfAdd 0
  .ok ⟨c, cShares, (List.range I.m1).map (sumAt I aShares), (List.range I.m1).map (sumAt I bShares), aShares, bShares⟩

/-- `accum` of the sanity check (banquet.cpp:763-766) and of the last check of verify (banquet.cpp:1184-1188). -/
def sumProducts (F : FieldState) (I : Instance) (a b : List W64) : W64 :=
  (List.range I.m1).foldl (fun acc j => gfAdd acc (F.mul (a.getD j 0) (b.getD j 0))) 0

/-- One repetition of banquet.cpp:739-770. -/
def signRep4 (F : FieldState) (I : Instance) (r1 : SignRep1) (r2 : SignRep2) (r3 : Rep3) (missing : Nat) : M Proof :=
  if sumProducts F I r3.a r3.b ≠ r3.c then .error .thrown
  else .ok ⟨r1.tree.revealAllBut missing, r1.commitments.getD missing [], r1.keyDelta, r1.tDelta, r2.pDelta, r3.c, r3.a, r3.b⟩

/-- `banquet_sign` after the field initialisation (banquet.cpp:296-774). Undefined behaviour: keys of other sizes than the AES parameters say (`memcpy`, AES loads, transforms);
an AES evaluation that met a zero S-box input, so that `sbox_pairs` is too short (the assertion on it is compiled out); `m1 * m2` above the number of S-boxes. -/
def signWith (X : Xof) (fuel : Nat) (F : FieldState) (I : Instance) (sk pk msg : Bytes) : M Signature := do
  checkAes I.aes
  require .ub (decide (sk.length = I.aes.keySize ∧ 2 * I.ctSize ≤ pk.length))
  let pt := slice pk 0 I.ctSize
  let saved := (aesSave I.aes.keySize sk pt).2
  require .ub (decide (saved.2.length = I.aes.numSboxes ∧ I.m1 * I.m2 ≤ I.aes.numSboxes))
  let salt := genSalt X I sk pk msg
  let reps1 ← (List.range I.numRounds).mapM fun e => signRep1 X I sk pt saved.2 salt (genSeed X I sk pk msg e) e
  let h1 := phase1Commit X I salt pk msg (reps1.map fun r => ⟨r.commitments, r.ctShares, r.keyDelta, r.tDelta⟩)
  let rss := phase1Expand X F I h1
  let P := precomp F I
  let last := P.lagM2.getD I.m2 []
  let lastSq ← F.polyMul last last
  let prods ← (List.range I.m1).mapM (signProducts F I P saved)
  let reps2 ← (List.zip rss reps1).mapM fun (rs, r1) => signRep2 F I P lastSq prods rs r1
  let h2 := phase2Commit X F I salt h1 (reps2.map (·.pDelta))
  let Rs ← phase2Expand X fuel F I h2 (F.firstN I.m2)
  let reps3 ← (List.zip Rs reps2).mapM fun (R, r2) => signRep3 F I P R r2
  let h3 := phase3Commit X F I salt h2 reps3
  let missing ← phase3Expand X fuel I h3
  let proofs ← (List.zip missing (List.zip reps1 (List.zip reps2 reps3))).mapM fun (m, r1, r2, r3) => signRep4 F I r1 r2 r3 m
  .ok ⟨salt, h1, h3, proofs⟩

/-- `banquet_sign` (banquet.cpp:290-775). -/
def sign (X : Xof) (fuel : Nat) (I : Instance) (sk pk msg : Bytes) : M Signature := do
  let F ← initExtensionField I.lambda
  signWith X fuel F I sk pk msg

/-! ## Verification -/

/-- Sizes of the vectors of a repetition proof on which the code relies. -/
def Proof.shaped (I : Instance) (p : Proof) : Bool :=
  decide (p.reveal.seeds.length = ceilLog2 I.numParties) && p.reveal.seeds.all (fun s => s.length == I.seedSize) &&
  decide (p.cE.length = I.digestSize) && decide (p.skDelta.length = I.aes.keySize) &&
  decide (p.tDelta.length = I.aes.numSboxes) && decide (p.pDelta.length = I.m2 + 1) &&
  decide (p.sAtR.length = I.m1) && decide (p.tAtR.length = I.m1)

/-- Sizes of the vectors of a signature on which the code relies. Sign and deserialize produce these sizes. -/
def Signature.shaped (I : Instance) (s : Signature) : Bool :=
  decide (s.salt.length = 32) && decide (s.h1.length = I.digestSize) && decide (s.h3.length = I.digestSize) &&
  decide (s.proofs.length = I.numRounds) && s.proofs.all (Proof.shaped I)

/-- State of one repetition after the loops of banquet.cpp:826-882 and 897-959. -/
structure VerRep1 where
  tapes : List Bytes
  commitments : List Bytes
  tShares : List Bytes
  sShares : List Bytes
  ctShares : List Bytes

/-- The missing ciphertext share (banquet.cpp:950-958): `ct` XOR the other shares. -/
def missingShare (I : Instance) (ct : Bytes) (missing : Nat) (shares : List Bytes) : Bytes :=
  ((List.range I.numParties).filter (· ≠ missing)).foldl (fun acc p => xorBytes (shares.getD p []) acc) ct

/-- One repetition of banquet.cpp:826-882 and 897-959. `dummy` is the zero seed used for the missing party (banquet.cpp:837, 867). -/
def verRep1 (X : Xof) (dummy : Bytes) (I : Instance) (pt ct salt : Bytes) (proof : Proof) (missing rep : Nat) : M VerRep1 := do
  require .thrown (decide (missing = proof.reveal.missing))
  let tree ← SeedTree.ofReveal X proof.reveal I.numParties salt rep
  let commitments ← (List.range I.numParties).mapM fun p =>
    if fourWay I p then .ok (commitLane X I ((tree.getLeaf p).getD dummy) salt rep p)
    else if p ≠ missing then do
      let s ← leafValue tree p
      .ok (commitSingle X I s salt rep p)
    else .ok (List.replicate I.digestSize 0)
  let commitments := commitments.set missing proof.cE
  let tapes := (List.range I.numParties).map fun p =>
    if fourWay I p then
      genTapeLane X I.tapeSize ((tree.getLeaf (p / 4 * 4)).getD dummy).length ((tree.getLeaf p).getD dummy) salt rep p
    else genTape X I.tapeSize ((tree.getLeaf p).getD dummy) salt rep p
  let keys := fixFirst proof.skDelta (rawShares tapes 0 I.aes.keySize)
  let tShares := fixFirst proof.tDelta (rawShares tapes I.aes.keySize I.aes.numSboxes)
  let out := mpcAes I keys tShares pt
  let cts := out.map (·.2)
  .ok ⟨tapes, commitments, tShares, out.map (·.1), cts.set missing (missingShare I ct missing cts)⟩

/-- One repetition of banquet.cpp:987-1086 and 1103-1158. Entries of the missing party are empty until they are filled from the proof. -/
def verRep3 (F : FieldState) (I : Instance) (P : Precomp) (proof : Proof) (missing : Nat) (rs : List W64) (R : W64)
    (r1 : VerRep1) : M Rep3 := do
  let l1 := lagAt F P.lagM2 (I.m2 + 1) R
  let l2 := lagAt F P.lag2M2 (2 * I.m2 + 1) R
  let aShares ← (List.range I.numParties).mapM fun p =>
    if p ≠ missing then dots F I l1 (sPrime F I rs (r1.sShares.getD p []) (r1.tapes.getD p [])) else .ok []
  let bShares ← (List.range I.numParties).mapM fun p =>
    if p ≠ missing then dots F I l1 (tPrime F I (r1.tShares.getD p []) (r1.tapes.getD p [])) else .ok []
  let cShares ← (List.range I.numParties).mapM fun p =>
    if p ≠ missing then
      let raw := pRaw F I rs p (r1.tapes.getD p [])
      F.dot l2 (if p = 0 then addDeltas I proof.pDelta raw else raw)
    else .ok 0
  let others := (List.range I.numParties).filter (· ≠ missing)
  let cMissing := others.foldl (fun acc p => gfAdd acc (cShares.getD p 0)) proof.pAtR
  let aMissing := (List.range I.m1).map fun j =>
    others.foldl (fun acc p => gfAdd acc ((aShares.getD p []).getD j 0)) (proof.sAtR.getD j 0)
  let bMissing := (List.range I.m1).map fun j =>
    others.foldl (fun acc p => gfAdd acc ((bShares.getD p []).getD j 0)) (proof.tAtR.getD j 0)
  .ok ⟨proof.pAtR, cShares.set missing cMissing, proof.sAtR, proof.tAtR, aShares.set missing aMissing, bShares.set missing bMissing⟩

/-- `banquet_verify` after the field initialisation (banquet.cpp:785-1193). A public key shorter than plaintext and ciphertext is read out of range; there is no check of the upper
length. Signatures whose vectors have other sizes than those of `Signature.shaped` are reported as undefined behaviour (some would be out-of-range accesses, for some the C++ behaviour is defined
but depends on the memory layout of the containers). -/
def verifyWith (X : Xof) (dummy : Bytes) (fuel : Nat) (F : FieldState) (I : Instance) (pk : Bytes) (sig : Signature) (msg : Bytes) : M Bool := do
  checkAes I.aes
  require .ub (decide (2 * I.ctSize ≤ pk.length ∧ I.m1 * I.m2 ≤ I.aes.numSboxes))
  require .ub (sig.shaped I)
  let pt := slice pk 0 I.ctSize
  let ct := slice pk I.ctSize I.ctSize
  let h2 := phase2Commit X F I sig.salt sig.h1 (sig.proofs.map (·.pDelta))
  let rss := phase1Expand X F I sig.h1
  let Rs ← phase2Expand X fuel F I h2 (F.firstN I.m2)
  let missing ← phase3Expand X fuel I sig.h3
  let reps1 ← ((List.zip missing sig.proofs).zipIdx).mapM fun ((m, proof), e) => verRep1 X dummy I pt ct sig.salt proof m e
  let P := precomp F I
  let reps3 ← (List.zip missing (List.zip sig.proofs (List.zip rss (List.zip Rs reps1)))).mapM fun (m, proof, rs, R, r1) =>
    verRep3 F I P proof m rs R r1
  let h1 := phase1Commit X I sig.salt pk msg
    ((List.zip sig.proofs reps1).map fun (proof, r) => ⟨r.commitments, r.ctShares, proof.skDelta, proof.tDelta⟩)
  let h3 := phase3Commit X F I sig.salt h2 reps3
  .ok (decide (h1 = sig.h1) && decide (h3 = sig.h3) && sig.proofs.all fun p => decide (sumProducts F I p.sAtR p.tAtR = p.pAtR))

/-- `banquet_verify` (banquet.cpp:777-1194). -/
def verify (X : Xof) (fuel : Nat) (I : Instance) (pk : Bytes) (sig : Signature) (msg : Bytes) : M Bool := do
  let F ← initExtensionField I.lambda
  verifyWith X (List.replicate I.seedSize 0) fuel F I pk sig msg

/-! ## Serialization -/

/-- Bytes of one repetition (banquet.cpp:1208-1234). `F` is the current state of the field globals. -/
def serializeProof (F : FieldState) (I : Instance) (p : Proof) : Bytes :=
  p.reveal.seeds.flatten ++ p.cE ++ p.skDelta ++ p.tDelta ++
  ((List.range (I.m2 + 1)).flatMap fun k => F.toBytes (p.pDelta.getD k 0)) ++ F.toBytes p.pAtR ++
  ((List.range I.m1).flatMap fun j => F.toBytes (p.sAtR.getD j 0)) ++
  ((List.range I.m1).flatMap fun j => F.toBytes (p.tAtR.getD j 0))

/-- `banquet_serialize_signature` (banquet.cpp:1196-1236). Too few proofs or field elements are out-of-range accesses. -/
def serialize (F : FieldState) (I : Instance) (s : Signature) : M Bytes := do
  require .ub (decide (I.numRounds ≤ s.proofs.length))
  require .ub ((s.proofs.take I.numRounds).all fun p =>
    decide (I.m2 + 1 ≤ p.pDelta.length) && decide (I.m1 ≤ p.sAtR.length) && decide (I.m1 ≤ p.tAtR.length))
  .ok (s.salt ++ s.h1 ++ s.h3 ++ (s.proofs.take I.numRounds).flatMap (serializeProof F I))

/-- `memcpy` of the next `n` bytes (e.g. banquet.cpp:1244-1245); out of range if there are fewer. Returns the bytes and the rest. -/
def takeBytes (n : Nat) (bs : Bytes) : M (Bytes × Bytes) :=
  if bs.length < n then .error .ub else .ok (bs.take n, bs.drop n)

/-- Read `count` chunks of `n` bytes. -/
def takeChunks (n : Nat) : Nat → Bytes → M (List Bytes × Bytes)
  | 0, bs => .ok ([], bs)
  | count + 1, bs => do
    let (b, bs) ← takeBytes n bs
    let (rest, bs) ← takeChunks n count bs
    .ok (b :: rest, bs)

/-- One repetition of `banquet_deserialize_signature` (banquet.cpp:1255-1316). -/
def deserializeProof (F : FieldState) (I : Instance) (missing : Nat) (bs : Bytes) : M (Proof × Bytes) := do
  let (seeds, bs) ← takeChunks I.seedSize (ceilLog2 I.numParties) bs
  let (cE, bs) ← takeBytes I.digestSize bs
  let (skDelta, bs) ← takeBytes I.aes.keySize bs
  let (tDelta, bs) ← takeBytes I.aes.numSboxes bs
  let (pDelta, bs) ← takeChunks I.lambda (I.m2 + 1) bs
  let (pAtR, bs) ← takeBytes I.lambda bs
  let (sAtR, bs) ← takeChunks I.lambda I.m1 bs
  let (tAtR, bs) ← takeChunks I.lambda I.m1 bs
  .ok (⟨⟨seeds, missing⟩, cE, skDelta, tDelta, pDelta.map F.fromBytes, F.fromBytes pAtR, sAtR.map F.fromBytes, tAtR.map F.fromBytes⟩, bs)

/-- Repetitions in order. -/
def deserializeProofs (F : FieldState) (I : Instance) : List Nat → Bytes → M (List Proof × Bytes)
  | [], bs => .ok ([], bs)
  | m :: ms, bs => do
    let (p, bs) ← deserializeProof F I m bs
    let (ps, bs) ← deserializeProofs F I ms bs
    .ok (p :: ps, bs)

/-- `banquet_deserialize_signature` (banquet.cpp:1238-1320) with the rest of the input that was not read (the assertion of banquet.cpp:1317 is a no-op in Release builds). `F` is the current state of the field
globals: `from_bytes` reads `byte_size` bytes from buffers of λ bytes. -/
def deserializeRest (X : Xof) (fuel : Nat) (F : FieldState) (I : Instance) (bs : Bytes) : M (Signature × Bytes) := do
  require .ub (decide (F.byteSize ≤ I.lambda))
  let (salt, bs) ← takeBytes 32 bs
  let (h1, bs) ← takeBytes I.digestSize bs
  let (h3, bs) ← takeBytes I.digestSize bs
  let missing ← phase3Expand X fuel I h3
  let (proofs, bs) ← deserializeProofs F I missing bs
  .ok (⟨salt, h1, h3, proofs⟩, bs)

/-- `banquet_deserialize_signature` (banquet.cpp:1238-1320), Release build. -/
def deserialize (X : Xof) (fuel : Nat) (F : FieldState) (I : Instance) (bs : Bytes) : M Signature :=
  (deserializeRest X fuel F I bs).map (·.1)

/-- `banquet_deserialize_signature`, Debug build: the assertion of banquet.cpp:1317 aborts on trailing bytes. -/
def deserializeDebug (X : Xof) (fuel : Nat) (F : FieldState) (I : Instance) (bs : Bytes) : M Signature := do
  let (s, rest) ← deserializeRest X fuel F I bs
  if rest = [] then .ok s else .error .abort

end Banquet
