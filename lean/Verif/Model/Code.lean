import Verif.Model.Banquet
import Verif.Model.Sponge

/-! The wrappers of kdf_shake.h and everything in tree.cpp, tape.cpp and banquet.cpp that hashes, with the calls of the incremental hash functions (Sponge.lean) as they are in the code: which pieces are
absorbed and squeezed in which order, and which hashes are computed four at a time. Tree.lean, Tape.lean and Banquet.lean model the same functions over an abstract extendable output function; what does not hash is
taken from there. Results are returned instead of written through spans. -/

namespace Banquet.Code

/-- The two implementations of the Keccak state a build contains: for single hashes (`hash_context`, kdf_shake.h:40) and for four at a time (`hash_context_x4`, kdf_shake.h:98). -/
structure Hash where
  one : SnP
  four : PlSnP

/-! ## kdf_shake.h -/

/-- `hash_update_uint16_le` (kdf_shake.h:70-73); the callers convert to `uint16_t`, see `le16`. -/
def updateU16 (S : SnP) (s : Sponge S) (n : Nat) : M (Sponge S) := hashUpdate S s (le16 n)

/-- `hash_init_prefix` (kdf_shake.h:75-79). -/
def initPrefix (S : SnP) (digestSize : Nat) (b : Byte) : M (Sponge S) := hashUpdate S (hashInit S (kindOf digestSize)) [b]

/-- `hash_update_x4` and `hash_update_x4_4` (kdf_shake.h:108-118): `len` bytes from each buffer; a buffer that is too short is read out of range. -/
def update4 (S : PlSnP) (s : Sponge4 S) (d : Fin 4 → Bytes) (len : Nat) : M (Sponge4 S) := do
  require .ub (decide (∀ l, len ≤ (d l).length))
  hashUpdate4 S s (fun l => (d l).take len) len

/-- `hash_update_x4_1` (kdf_shake.h:120-124). -/
def update4One (S : PlSnP) (s : Sponge4 S) (d : Bytes) : M (Sponge4 S) := update4 S s (fun _ => d) d.length

/-- `hash_init_prefix_x4` (kdf_shake.h:126-130). -/
def initPrefix4 (S : PlSnP) (digestSize : Nat) (b : Byte) : M (Sponge4 S) := update4One S (hashInit4 S (kindOf digestSize)) [b]

/-- `hash_update_x4_uint16_le` (kdf_shake.h:149-153). -/
def update4U16 (S : PlSnP) (s : Sponge4 S) (n : Nat) : M (Sponge4 S) := update4One S s (le16 n)

/-- `hash_update_x4_uint16s_le` (kdf_shake.h:155-164). -/
def update4U16s (S : PlSnP) (s : Sponge4 S) (n : Fin 4 → Nat) : M (Sponge4 S) := update4 S s (fun l => le16 (n l)) 2

/-- A loop of `n` squeezes of `len` bytes each. -/
def squeezeMany (S : SnP) (len : Nat) : Nat → Sponge S → M (Sponge S × List Bytes)
  | 0, s => .ok (s, [])
  | n + 1, s => do
    let r ← hashSqueeze S s len
    let rs ← squeezeMany S len n r.1
    .ok (rs.1, r.2 :: rs.2)

/-! ## tree.cpp -/

/-- `expand_seed` (tree.cpp:11-27); `two`: the destination has room for two seeds. -/
def expandSeed (S : SnP) (seed salt : Bytes) (rep node : Nat) (two : Bool) : M (Bytes × Bytes) := do
  let s ← initPrefix S (seed.length * 2) 1
  let s ← hashUpdate S s seed
  let s ← hashUpdate S s salt
  let s ← updateU16 S s rep
  let s ← updateU16 S s node
  let s ← hashFinal S s
  let r ← hashSqueeze S s seed.length
  if two then do
    let r' ← hashSqueeze S r.1 seed.length
    .ok (r.2, r'.2)
  else .ok (r.2, [])

/-- `expand_seed_x4` (tree.cpp:29-62): both squeezes of all four lanes (what the caller has no room for goes to the dummy of tree.cpp:36). -/
def expandSeed4 (S : PlSnP) (seedSize : Nat) (seeds : Fin 4 → Bytes) (salt : Bytes) (rep node : Nat) : M (Fin 4 → Bytes × Bytes) := do
  let s ← initPrefix4 S (seedSize * 2) 1
  let s ← update4 S s seeds seedSize
  let s ← update4One S s salt
  let s ← update4U16 S s rep
  let s ← update4U16s S s fun l => node + l.val
  let s ← hashFinal4 S s
  let r ← hashSqueeze4 S s seedSize
  let r' ← hashSqueeze4 S r.1 seedSize
  .ok fun l => (r.2 l, r'.2 l)

/-- Body of the first and of the last loop of the constructors (tree.cpp:100-114, 142-156, 228-244, 278-292). -/
def expandOne (S : SnP) (salt : Bytes) (rep : Nat) (needValue : Bool) (t : SeedTree) (i : Nat) : M SeedTree :=
  if t.active needValue i then
    if 2 * i + 1 < t.numTotal then do
      let ch ← expandSeed S (t.node i) salt rep i (t.ex (2 * i + 2))
      .ok (t.putChildren i ch)
    else .error .ub
  else .ok t

/-- Body of the 4-way loop (tree.cpp:119-140, 249-276), with the undefined cases of `SeedTree.expandFour`. `dummy` is the buffer that stands in for the seeds of nodes that are not expanded. -/
def expandFour (S : PlSnP) (dummy salt : Bytes) (rep : Nat) (needValue : Bool) (t : SeedTree) (i : Nat) : M SeedTree := do
  require .ub (needValue || t.active needValue i)
  require .ub ((List.range 4).all fun j => !t.active needValue (i + j) || decide (2 * (i + j) + 1 < t.numTotal))
  require .ub (decide (t.seedSize ≤ 32) || (List.range 4).all fun j => t.active needValue (i + j) && t.ex (2 * (i + j) + 2))
  let out ← expandSeed4 S t.seedSize (fun l => if t.active needValue (i + l.val) then t.node (i + l.val) else dummy) salt rep i
  .ok ((List.finRange 4).foldl (fun u j => if t.active needValue (i + j.val) then u.putChildren (i + j.val) (out j) else u) t)

/-- The three loops that expand the tree (tree.cpp:98-156, 226-292). The contents of the 64-byte dummy, which the code overwrites with hash outputs, are arbitrary in every iteration: `dummy`. -/
def expandAll (H : Hash) (dummy : Nat → Bytes) (salt : Bytes) (rep : Nat) (needValue : Bool) (t : SeedTree) : M SeedTree := do
  let lastNonLeaf := getParent (t.numTotal - 1)
  let first := min lastNonLeaf 2 + 1
  let t ← (List.range first).foldlM (expandOne H.one salt rep needValue) t
  let blocks := (lastNonLeaf / 4 * 4 + 3 - first) / 4
  let t ← (List.range blocks).foldlM (fun t b => expandFour H.four (dummy b) salt rep needValue t (first + 4 * b)) t
  (List.range (lastNonLeaf + 1 - (first + 4 * blocks))).foldlM
    (fun t d => expandOne H.one salt rep needValue t (first + 4 * blocks + d)) t

/-- First constructor (tree.cpp:69-157). -/
def ofSeed (H : Hash) (dummy : Nat → Bytes) (seed : Bytes) (n : Nat) (salt : Bytes) (rep : Nat) : M SeedTree := do
  require .ub (decide (2 ≤ n))
  require .ub (decide (seed ≠ []))
  let total := treeTotal n
  let t : SeedTree := ⟨(List.replicate total (List.replicate seed.length 0)).set 0 seed, treeExists n,
    (List.replicate total false).set 0 true, seed.length, n, total⟩
  expandAll H dummy salt rep false t

/-- Second constructor (tree.cpp:159-293). -/
def ofReveal (H : Hash) (dummy : Nat → Bytes) (rl : RevealList) (n : Nat) (salt : Bytes) (rep : Nat) : M SeedTree := do
  require .ub (decide (2 ≤ n))
  let total := treeTotal n
  match rl.seeds with
  | [] => .error .ub
  | s0 :: _ =>
    require .ub (decide (s0 ≠ []))
    let t : SeedTree := ⟨List.replicate total (List.replicate s0.length 0), treeExists n,
      List.replicate total false, s0.length, n, total⟩
    let t ← ((pathUp (total - n + rl.missing)).zipIdx).foldlM (SeedTree.putRevealed rl.seeds) t
    expandAll H dummy salt rep true t

/-! ## tape.cpp -/

/-- The constructor of `RandomTape` (tape.cpp:3-12). -/
def tapeInit (S : SnP) (seed salt : Bytes) (rep party : Nat) : M (Sponge S) := do
  let s ← hashUpdate S (hashInit S (kindOf (seed.length * 2))) seed
  let s ← hashUpdate S s salt
  let s ← updateU16 S s rep
  let s ← updateU16 S s party
  hashFinal S s

/-- `RandomTapes::generate_tape` (tape.cpp:42-54). -/
def genTape (S : SnP) (tapeSize : Nat) (seed salt : Bytes) (rep party : Nat) : M Bytes := do
  let s ← tapeInit S seed salt rep party
  let r ← hashSqueeze S s tapeSize
  .ok r.2

/-- `RandomTapes::generate_4_tapes` (tape.cpp:18-41). -/
def genTape4 (S : PlSnP) (tapeSize : Nat) (seeds : Fin 4 → Bytes) (salt : Bytes) (rep party : Nat) : M (Fin 4 → Bytes) := do
  let s ← update4 S (hashInit4 S (kindOf ((seeds 0).length * 2))) seeds (seeds 0).length
  let s ← update4One S s salt
  let s ← update4U16 S s rep
  let s ← update4U16s S s fun l => party + l.val
  let s ← hashFinal4 S s
  let r ← hashSqueeze4 S s tapeSize
  .ok r.2

/-! ## banquet.cpp: hashes -/

/-- `hash_update_GF2E` (banquet.cpp:17-24). -/
def updateGf (S : SnP) (F : FieldState) (s : Sponge S) (x : W64) : M (Sponge S) := hashUpdate S s (gfHash F x)

/-- `generate_salt_and_seeds` (banquet.cpp:26-48). -/
def genSaltAndSeeds (S : SnP) (I : Instance) (sk pk msg : Bytes) : M (Bytes × List Bytes) := do
  let s ← updateU16 S (hashInit S (kindOf I.digestSize)) I.params
  let s ← hashUpdate S s sk
  let s ← hashUpdate S s pk
  let s ← hashUpdate S s msg
  let s ← hashFinal S s
  let salt ← hashSqueeze S s 32
  let seeds ← squeezeMany S I.seedSize I.numRounds salt.1
  .ok (salt.2, seeds.2)

/-- `commit_to_party_seed` (banquet.cpp:50-63). -/
def commitParty (S : SnP) (I : Instance) (seed salt : Bytes) (rep party : Nat) : M Bytes := do
  let s ← hashUpdate S (hashInit S (kindOf I.digestSize)) salt
  let s ← updateU16 S s rep
  let s ← updateU16 S s party
  let s ← hashUpdate S s seed
  let s ← hashFinal S s
  let r ← hashSqueeze S s I.digestSize
  .ok r.2

/-- `commit_to_4_party_seeds` (banquet.cpp:65-85). -/
def commit4 (S : PlSnP) (I : Instance) (seeds : Fin 4 → Bytes) (salt : Bytes) (rep party : Nat) : M (Fin 4 → Bytes) := do
  let s ← update4One S (hashInit4 S (kindOf I.digestSize)) salt
  let s ← update4U16 S s rep
  let s ← update4U16s S s fun l => party + l.val
  let s ← update4 S s seeds I.seedSize
  let s ← hashFinal4 S s
  let r ← hashSqueeze4 S s I.digestSize
  .ok r.2

/-- One repetition of the loop of `phase_1_commitment` (banquet.cpp:102-112). -/
def phase1Rep (S : SnP) (I : Instance) (s : Sponge S) (r : Rep1Hash) : M (Sponge S) := do
  let s ← (List.range I.numParties).foldlM (fun s p => do
    let s ← hashUpdate S s (r.commitments.getD p [])
    hashUpdate S s (r.broadcasts.getD p [])) s
  let s ← hashUpdate S s r.keyDelta
  hashUpdate S s r.tDelta

/-- `phase_1_commitment` (banquet.cpp:87-118). -/
def phase1Commit (S : SnP) (I : Instance) (salt pk msg : Bytes) (reps : List Rep1Hash) : M Bytes := do
  let s ← initPrefix S I.digestSize 1
  let s ← hashUpdate S s salt
  let s ← hashUpdate S s pk
  let s ← hashUpdate S s msg
  let s ← reps.foldlM (phase1Rep S I) s
  let s ← hashFinal S s
  let r ← hashSqueeze S s I.digestSize
  .ok r.2

/-- The loops of `phase_1_expand` (banquet.cpp:131-140). -/
def phase1Rounds (S : SnP) (F : FieldState) (I : Instance) : Nat → Sponge S → M (Sponge S × List (List W64))
  | 0, s => .ok (s, [])
  | n + 1, s => do
    let r ← squeezeMany S I.lambda I.m1 s
    let rs ← phase1Rounds S F I n r.1
    .ok (rs.1, r.2.map F.fromBytes :: rs.2)

/-- `phase_1_expand` (banquet.cpp:120-142). -/
def phase1Expand (S : SnP) (F : FieldState) (I : Instance) (h1 : Bytes) : M (List (List W64)) := do
  let s ← hashUpdate S (hashInit S (kindOf I.digestSize)) h1
  let s ← hashFinal S s
  let r ← phase1Rounds S F I I.numRounds s
  .ok r.2

/-- The inner loop of `phase_2_commitment`: one repetition (banquet.cpp:155-157). -/
def phase2Rep (S : SnP) (F : FieldState) (I : Instance) (s : Sponge S) (d : List W64) : M (Sponge S) :=
  (List.range I.m2).foldlM (fun s k => updateGf S F s (d.getD k 0)) s

/-- `phase_2_commitment` (banquet.cpp:144-164). -/
def phase2Commit (S : SnP) (F : FieldState) (I : Instance) (salt h1 : Bytes) (pDeltas : List (List W64)) : M Bytes := do
  let s ← initPrefix S I.digestSize 2
  let s ← hashUpdate S s salt
  let s ← hashUpdate S s h1
  let s ← pDeltas.foldlM (phase2Rep S F I) s
  let s ← hashFinal S s
  let r ← hashSqueeze S s I.digestSize
  .ok r.2

/-- The `while (true)` loop of `phase_2_expand` (banquet.cpp:178-195). -/
def phase2Loop (S : SnP) (F : FieldState) (I : Instance) (forbidden : List W64) : Nat → Sponge S → M (W64 × Sponge S)
  | 0, _ => .error .fuel
  | fuel + 1, s => do
    let r ← hashSqueeze S s I.lambda
    let cand := F.fromBytes r.2
    if (List.range I.m2).any fun k => cand == forbidden.getD k 0 then phase2Loop S F I forbidden fuel r.1
    else .ok (cand, r.1)

/-- `phase_2_expand` (banquet.cpp:166-198). -/
def phase2Expand (S : SnP) (fuel : Nat) (F : FieldState) (I : Instance) (h2 : Bytes) (forbidden : List W64) : M (List W64) := do
  let s ← hashUpdate S (hashInit S (kindOf I.digestSize)) h2
  let s ← hashFinal S s
  let r ← (List.range I.numRounds).foldlM (fun (st : List W64 × Sponge S) _ => do
    let (c, s) ← phase2Loop S F I forbidden fuel st.2
    .ok (st.1 ++ [c], s)) ([], s)
  .ok r.1

/-- One repetition of the loop of `phase_3_commitment` (banquet.cpp:215-228). -/
def phase3Rep (S : SnP) (F : FieldState) (I : Instance) (s : Sponge S) (r : Rep3) : M (Sponge S) := do
  let s ← updateGf S F s r.c
  let s ← (List.range I.numParties).foldlM (fun s p => updateGf S F s (r.cShares.getD p 0)) s
  (List.range I.m1).foldlM (fun s j => do
    let s ← updateGf S F s (r.a.getD j 0)
    let s ← updateGf S F s (r.b.getD j 0)
    (List.range I.numParties).foldlM (fun s p => do
      let s ← updateGf S F s ((r.aShares.getD p []).getD j 0)
      updateGf S F s ((r.bShares.getD p []).getD j 0)) s) s

/-- `phase_3_commitment` (banquet.cpp:200-234). -/
def phase3Commit (S : SnP) (F : FieldState) (I : Instance) (salt h2 : Bytes) (reps : List Rep3) : M Bytes := do
  let s ← initPrefix S I.digestSize 3
  let s ← hashUpdate S s salt
  let s ← hashUpdate S s h2
  let s ← reps.foldlM (phase3Rep S F I) s
  let s ← hashFinal S s
  let r ← hashSqueeze S s I.digestSize
  .ok r.2

/-- The `do … while` loop of `phase_3_expand` (banquet.cpp:249-253). `party` is the variable of that name: one squeezed byte replaces its lower byte only. -/
def phase3Loop (S : SnP) (n : Nat) : Nat → Sponge S → Nat → M (Nat × Sponge S)
  | 0, _, _ => .error .fuel
  | fuel + 1, s, party => do
    let r ← hashSqueeze S s (numSqueezeBytes n)
    let read := (r.2.getD 0 0).toNat + 256 * (if numSqueezeBytes n = 2 then (r.2.getD 1 0).toNat else party / 256)
    let party := read &&& ((2 ^ ceilLog2 n - 1) % 2 ^ 16)
    if party ≥ n then phase3Loop S n fuel r.1 party else .ok (party, r.1)

/-- `phase_3_expand` (banquet.cpp:236-257). `junk e` is what the uninitialised variable `party` holds at the beginning of iteration `e`. -/
def phase3Expand (S : SnP) (junk : Nat → Nat) (fuel : Nat) (I : Instance) (h3 : Bytes) : M (List Nat) := do
  let s ← hashUpdate S (hashInit S (kindOf I.digestSize)) h3
  let s ← hashFinal S s
  let r ← (List.range I.numRounds).foldlM (fun (st : List Nat × Sponge S) e => do
    let (p, s) ← phase3Loop S I.numParties fuel st.2 (junk e)
    .ok (st.1 ++ [p], s)) ([], s)
  .ok r.1

/-! ## banquet.cpp: sign, verify, deserialize -/

/-- The four results of a 4-way call in order. -/
def quad {α : Type} (f : Fin 4 → α) : List α := [f 0, f 1, f 2, f 3]

/-- Everything the hashing code leaves undetermined: the contents of the dummies of the seed trees (per repetition and iteration) and of the variable `party` of `phase_3_expand`. -/
structure Junk where
  tree : Nat → Nat → Bytes
  party : Nat → Nat

/-- The commitments of one repetition of sign (banquet.cpp:344-361). -/
def signCommit (H : Hash) (I : Instance) (salt : Bytes) (rep : Nat) (tree : SeedTree) : M (List Bytes) := do
  let fours ← (List.range (I.numParties / 4)).mapM fun b => do
    let s0 ← leafValue tree (4 * b)
    let s1 ← leafValue tree (4 * b + 1)
    let s2 ← leafValue tree (4 * b + 2)
    let s3 ← leafValue tree (4 * b + 3)
    commit4 H.four I (fun l => [s0, s1, s2, s3].getD l.val []) salt rep (4 * b)
  let rest ← (List.range (I.numParties % 4)).mapM fun d => do
    let s ← leafValue tree (I.numParties / 4 * 4 + d)
    commitParty H.one I s salt rep (I.numParties / 4 * 4 + d)
  .ok (fours.flatMap quad ++ rest)

/-- One repetition of banquet.cpp:337-369 and 386-461. -/
def signRep1 (H : Hash) (J : Junk) (I : Instance) (key pt savedT salt masterSeed : Bytes) (rep : Nat) : M SignRep1 := do
  let tree ← ofSeed H (J.tree rep) masterSeed I.numParties salt rep
  let commitments ← signCommit H I salt rep tree
  let tapes ← (List.range I.numParties).mapM fun p => do
    let s ← leafValue tree p
    genTape H.one I.tapeSize s salt rep p
  .ok (signShares I key pt savedT tree commitments tapes)

/-- `banquet_sign` after the field initialisation (banquet.cpp:296-774), with the undefined cases of `Banquet.signWith`. -/
def signWith (H : Hash) (J : Junk) (fuel : Nat) (F : FieldState) (I : Instance) (sk pk msg : Bytes) : M Signature := do
  checkAes I.aes
  require .ub (decide (sk.length = I.aes.keySize ∧ 2 * I.ctSize ≤ pk.length))
  let pt := slice pk 0 I.ctSize
  let saved := (aesSave I.aes.keySize sk pt).2
  require .ub (decide (saved.2.length = I.aes.numSboxes ∧ I.m1 * I.m2 ≤ I.aes.numSboxes))
  let (salt, seeds) ← genSaltAndSeeds H.one I sk pk msg
  let reps1 ← (List.range I.numRounds).mapM fun e => signRep1 H J I sk pt saved.2 salt (seeds.getD e []) e
  let h1 ← phase1Commit H.one I salt pk msg (reps1.map fun r => ⟨r.commitments, r.ctShares, r.keyDelta, r.tDelta⟩)
  let rss ← phase1Expand H.one F I h1
  let P := precomp F I
  let last := P.lagM2.getD I.m2 []
  let lastSq ← F.polyMul last last
  let prods ← (List.range I.m1).mapM (signProducts F I P saved)
  let reps2 ← (List.zip rss reps1).mapM fun (rs, r1) => signRep2 F I P lastSq prods rs r1
  let h2 ← phase2Commit H.one F I salt h1 (reps2.map (·.pDelta))
  let Rs ← phase2Expand H.one fuel F I h2 (F.firstN I.m2)
  let reps3 ← (List.zip Rs reps2).mapM fun (R, r2) => signRep3 F I P R r2
  let h3 ← phase3Commit H.one F I salt h2 reps3
  let missing ← phase3Expand H.one J.party fuel I h3
  let proofs ← (List.zip missing (List.zip reps1 (List.zip reps2 reps3))).mapM fun (m, r1, r2, r3) => signRep4 F I r1 r2 r3 m
  .ok ⟨salt, h1, h3, proofs⟩

/-- `banquet_sign` (banquet.cpp:290-775). -/
def sign (H : Hash) (J : Junk) (fuel : Nat) (I : Instance) (sk pk msg : Bytes) : M Signature := do
  let F ← initExtensionField I.lambda
  signWith H J fuel F I sk pk msg

/-- The commitments of one repetition of verify (banquet.cpp:836-861). -/
def verCommit (H : Hash) (dummy : Bytes) (I : Instance) (salt : Bytes) (missing rep : Nat) (tree : SeedTree) : M (List Bytes) := do
  let fours ← (List.range (I.numParties / 4)).mapM fun b =>
    commit4 H.four I (fun l => (tree.getLeaf (4 * b + l.val)).getD dummy) salt rep (4 * b)
  let rest ← (List.range (I.numParties % 4)).mapM fun d =>
    if I.numParties / 4 * 4 + d ≠ missing then do
      let s ← leafValue tree (I.numParties / 4 * 4 + d)
      commitParty H.one I s salt rep (I.numParties / 4 * 4 + d)
    else .ok (List.replicate I.digestSize 0)
  .ok (fours.flatMap quad ++ rest)

/-- The tapes of one repetition of verify (banquet.cpp:867-881). -/
def verTapes (H : Hash) (dummy : Bytes) (I : Instance) (salt : Bytes) (rep : Nat) (tree : SeedTree) : M (List Bytes) := do
  let fours ← (List.range (I.numParties / 4)).mapM fun b =>
    genTape4 H.four I.tapeSize (fun l => (tree.getLeaf (4 * b + l.val)).getD dummy) salt rep (4 * b)
  let rest ← (List.range (I.numParties % 4)).mapM fun d =>
    genTape H.one I.tapeSize ((tree.getLeaf (I.numParties / 4 * 4 + d)).getD dummy) salt rep (I.numParties / 4 * 4 + d)
  .ok (fours.flatMap quad ++ rest)

/-- One repetition of banquet.cpp:826-882 and 897-959. -/
def verRep1 (H : Hash) (J : Junk) (dummy : Bytes) (I : Instance) (pt ct salt : Bytes) (proof : Proof) (missing rep : Nat) : M VerRep1 := do
  require .thrown (decide (missing = proof.reveal.missing))
  let tree ← ofReveal H (J.tree rep) proof.reveal I.numParties salt rep
  let commitments ← verCommit H dummy I salt missing rep tree
  let commitments := commitments.set missing proof.cE
  let tapes ← verTapes H dummy I salt rep tree
  let keys := fixFirst proof.skDelta (rawShares tapes 0 I.aes.keySize)
  let tShares := fixFirst proof.tDelta (rawShares tapes I.aes.keySize I.aes.numSboxes)
  let out := mpcAes I keys tShares pt
  let cts := out.map (·.2)
  .ok ⟨tapes, commitments, tShares, out.map (·.1), cts.set missing (missingShare I ct missing cts)⟩

/-- `banquet_verify` after the field initialisation (banquet.cpp:785-1193), with the undefined cases of `Banquet.verifyWith`. -/
def verifyWith (H : Hash) (J : Junk) (dummy : Bytes) (fuel : Nat) (F : FieldState) (I : Instance) (pk : Bytes) (sig : Signature) (msg : Bytes) : M Bool := do
  checkAes I.aes
  require .ub (decide (2 * I.ctSize ≤ pk.length ∧ I.m1 * I.m2 ≤ I.aes.numSboxes))
  require .ub (sig.shaped I)
  let pt := slice pk 0 I.ctSize
  let ct := slice pk I.ctSize I.ctSize
  let h2 ← phase2Commit H.one F I sig.salt sig.h1 (sig.proofs.map (·.pDelta))
  let rss ← phase1Expand H.one F I sig.h1
  let Rs ← phase2Expand H.one fuel F I h2 (F.firstN I.m2)
  let missing ← phase3Expand H.one J.party fuel I sig.h3
  let reps1 ← ((List.zip missing sig.proofs).zipIdx).mapM fun ((m, proof), e) => verRep1 H J dummy I pt ct sig.salt proof m e
  let P := precomp F I
  let reps3 ← (List.zip missing (List.zip sig.proofs (List.zip rss (List.zip Rs reps1)))).mapM fun (m, proof, rs, R, r1) =>
    verRep3 F I P proof m rs R r1
  let h1 ← phase1Commit H.one I sig.salt pk msg
    ((List.zip sig.proofs reps1).map fun (proof, r) => ⟨r.commitments, r.ctShares, proof.skDelta, proof.tDelta⟩)
  let h3 ← phase3Commit H.one F I sig.salt h2 reps3
  .ok (decide (h1 = sig.h1) && decide (h3 = sig.h3) && sig.proofs.all fun p => decide (sumProducts F I p.sAtR p.tAtR = p.pAtR))

/-- `banquet_verify` (banquet.cpp:777-1194). -/
def verify (H : Hash) (J : Junk) (fuel : Nat) (I : Instance) (pk : Bytes) (sig : Signature) (msg : Bytes) : M Bool := do
  let F ← initExtensionField I.lambda
  verifyWith H J (List.replicate I.seedSize 0) fuel F I pk sig msg

/-- `banquet_deserialize_signature` (banquet.cpp:1238-1320), Release build. -/
def deserialize (H : Hash) (J : Junk) (fuel : Nat) (F : FieldState) (I : Instance) (bs : Bytes) : M Signature := do
  require .ub (decide (F.byteSize ≤ I.lambda))
  let (salt, bs) ← takeBytes 32 bs
  let (h1, bs) ← takeBytes I.digestSize bs
  let (h3, bs) ← takeBytes I.digestSize bs
  let missing ← phase3Expand H.one J.party fuel I h3
  let (proofs, _) ← deserializeProofs F I missing bs
  .ok ⟨salt, h1, h3, proofs⟩

end Banquet.Code
