import Verif.Proofs.CodeLong
import Verif.Props.Sign
import Verif.Props.Verify

/-! Property theorems C60 to C62: the hash computations of the protocol as they are in the code, and the protocol in every build. -/

namespace Banquet.Props

open Spec

/-! ## C60 -/

section
variable {f : St → St} {H : Code.Hash}

theorem le_small {n : Nat} (h : n ≤ maxPiece) : Code.Small n := by unfold Code.Small; unfold maxPiece at h; omega

theorem hashOf_eq (d : Nat) (fields : List Bytes) (msg : Bytes) (h : fields.flatten = msg) (start len : Nat) : (shake f (kindOf d) msg).squeeze start len = hashOf f d fields start len := by
  rw [← h]
  rfl

theorem elem_eq (F : FieldState) : gfHash F = elem F.byteSize := rfl

theorem flatten_flatMap {α : Type} (l : List α) (g : α → List Bytes) : (l.flatMap g).flatten = l.flatMap fun a => (g a).flatten := by
  induction l with
  | nil => rfl
  | cons a l ih => rw [List.flatMap_cons, List.flatten_append, ih, List.flatMap_cons]

/-- C60: salt and master seeds are consecutive pieces of the hash of instance number, secret key, public key and message. -/
theorem C60_salt (hH : Correct f H) (I : Instance) (sk pk msg : Bytes) (h1 : sk.length ≤ maxPiece) (h2 : pk.length ≤ maxPiece) (h3 : msg.length ≤ maxPiece) (h4 : I.seedSize ≤ maxPiece) :
    Code.genSaltAndSeeds H.one I sk pk msg = .ok (hashOf f I.digestSize [u16 I.params, sk, pk, msg] 0 32,
      (List.range I.numRounds).map fun e => hashOf f I.digestSize [u16 I.params, sk, pk, msg] (32 + e * I.seedSize) I.seedSize) := by
  obtain ⟨⟨v, hv⟩, -⟩ := hH
  rw [Code.genSaltAndSeeds_eq hv I sk pk msg (le_small h1) (le_small h2) ((le_small h3).fits _ _) (le_small h4)]
  unfold genSalt genSeed saltStream
  simp only [hashOf_eq (f := f) I.digestSize [u16 I.params, sk, pk, msg] (le16 I.params ++ sk ++ pk ++ msg) (by simp [u16, le16])]

/-- C60: the children of a node of the seed tree are the two halves of the hash of prefix 1, seed, salt, repetition and node number. -/
theorem C60_node (hH : Correct f H) (seed salt : Bytes) (rep node : Nat) (two : Bool) (h1 : seed.length ≤ maxPiece) (h2 : salt.length ≤ maxPiece) :
    Code.expandSeed H.one seed salt rep node two = .ok (hashOf f (2 * seed.length) [[1], seed, salt, u16 rep, u16 node] 0 seed.length,
      if two then hashOf f (2 * seed.length) [[1], seed, salt, u16 rep, u16 node] seed.length seed.length else []) := by
  obtain ⟨⟨v, hv⟩, -⟩ := hH
  rw [Code.expandSeed_eq hv seed salt rep node two (le_small h1) (le_small h2)]
  unfold expandSeed
  simp only [hashOf_eq (f := f) (2 * seed.length) [[1], seed, salt, u16 rep, u16 node] ([1] ++ seed ++ salt ++ le16 rep ++ le16 node) (by simp [u16, le16])]

/-- C60: four nodes at a time give the same as each on its own. -/
theorem C60_nodes (hH : Correct f H) (n : Nat) (seeds : Fin 4 → Bytes) (salt : Bytes) (rep node : Nat) (h0 : ∀ l, (seeds l).length = n) (h1 : n ≤ maxPiece) (h2 : salt.length ≤ maxPiece) :
    Code.expandSeed4 H.four n seeds salt rep node = .ok fun l => (hashOf f (2 * n) [[1], seeds l, salt, u16 rep, u16 (node + l.val)] 0 n,
      hashOf f (2 * n) [[1], seeds l, salt, u16 rep, u16 (node + l.val)] n n) := by
  obtain ⟨-, v, hv⟩ := hH
  rw [Code.expandSeed4_eq hv n seeds salt rep node (fun l => (h0 l).ge) (le_small h1) (le_small h2)]
  congr 1
  funext l
  unfold expandSeedLane
  simp only [hashOf_eq (f := f) (2 * n) [[1], seeds l, salt, u16 rep, u16 (node + l.val)] ([1] ++ (seeds l).take n ++ salt ++ le16 rep ++ le16 (node + l.val)) (by simp [u16, le16, List.take_of_length_le (h0 l).le])]

/-- C60: the random tape of a party is the hash of seed, salt, repetition and party. -/
theorem C60_tape (hH : Correct f H) (n : Nat) (seed salt : Bytes) (rep party : Nat) (h1 : seed.length ≤ maxPiece) (h2 : salt.length ≤ maxPiece) (h3 : n ≤ maxPiece) :
    Code.genTape H.one n seed salt rep party = .ok (hashOf f (2 * seed.length) [seed, salt, u16 rep, u16 party] 0 n) := by
  obtain ⟨⟨v, hv⟩, -⟩ := hH
  rw [Code.genTape_eq hv n seed salt rep party (le_small h1) (le_small h2) (le_small h3)]
  unfold genTape tapeStream
  simp only [hashOf_eq (f := f) (2 * seed.length) [seed, salt, u16 rep, u16 party] (seed ++ salt ++ le16 rep ++ le16 party) (by simp [u16, le16])]

/-- C60: four tapes at a time give the same as each on its own. -/
theorem C60_tapes (hH : Correct f H) (n m : Nat) (seeds : Fin 4 → Bytes) (salt : Bytes) (rep party : Nat) (h0 : ∀ l, (seeds l).length = m) (h1 : m ≤ maxPiece) (h2 : salt.length ≤ maxPiece) (h3 : n ≤ maxPiece) :
    Code.genTape4 H.four n seeds salt rep party = .ok fun l => hashOf f (2 * m) [seeds l, salt, u16 rep, u16 (party + l.val)] 0 n := by
  obtain ⟨-, v, hv⟩ := hH
  rw [Code.genTape4_eq hv n seeds salt rep party (fun l => by rw [h0, h0]) (by rw [h0]; exact le_small h1) (le_small h2) (le_small h3)]
  congr 1
  funext l
  rw [h0]
  unfold genTapeLane
  simp only [hashOf_eq (f := f) (2 * m) [seeds l, salt, u16 rep, u16 (party + l.val)] ((seeds l).take m ++ salt ++ le16 rep ++ le16 (party + l.val)) (by simp [u16, le16, List.take_of_length_le (h0 l).le])]

/-- C60: the commitment to the seed of a party is the hash of salt, repetition, party and seed. -/
theorem C60_commit (hH : Correct f H) (I : Instance) (seed salt : Bytes) (rep party : Nat) (h1 : seed.length ≤ maxPiece) (h2 : salt.length ≤ maxPiece) (h3 : I.digestSize ≤ maxPiece) :
    Code.commitParty H.one I seed salt rep party = .ok (hashOf f I.digestSize [salt, u16 rep, u16 party, seed] 0 I.digestSize) := by
  obtain ⟨⟨v, hv⟩, -⟩ := hH
  rw [Code.commitParty_eq hv I seed salt rep party (le_small h1) (le_small h2) (le_small h3)]
  unfold commitSingle
  simp only [hashOf_eq (f := f) I.digestSize [salt, u16 rep, u16 party, seed] (salt ++ le16 rep ++ le16 party ++ seed) (by simp [u16, le16])]

/-- C60: four commitments at a time give the same as each on its own. -/
theorem C60_commits (hH : Correct f H) (I : Instance) (seeds : Fin 4 → Bytes) (salt : Bytes) (rep party : Nat) (h0 : ∀ l, (seeds l).length = I.seedSize) (h1 : I.seedSize ≤ maxPiece) (h2 : salt.length ≤ maxPiece)
    (h3 : I.digestSize ≤ maxPiece) : Code.commit4 H.four I seeds salt rep party = .ok fun l => hashOf f I.digestSize [salt, u16 rep, u16 (party + l.val), seeds l] 0 I.digestSize := by
  obtain ⟨-, v, hv⟩ := hH
  rw [Code.commit4_eq hv I seeds salt rep party (fun l => (h0 l).ge) (le_small h1) (le_small h2) (le_small h3)]
  congr 1
  funext l
  unfold commitLane
  simp only [hashOf_eq (f := f) I.digestSize [salt, u16 rep, u16 (party + l.val), seeds l] (salt ++ le16 rep ++ le16 (party + l.val) ++ (seeds l).take I.seedSize) (by simp [u16, le16, List.take_of_length_le (h0 l).le])]

/-- C60: the first commitment is the hash of prefix 1, salt, public key, message and, per repetition, commitment and output share of every party and the two corrections. -/
theorem C60_first (hH : Correct f H) (I : Instance) (salt pk msg : Bytes) (reps : List Rep1Hash) (h1 : salt.length ≤ maxPiece) (h2 : pk.length ≤ maxPiece) (h3 : msg.length ≤ maxPiece)
    (h4 : ∀ r ∈ reps, (∀ c ∈ r.commitments, c.length ≤ maxPiece) ∧ (∀ c ∈ r.broadcasts, c.length ≤ maxPiece) ∧ r.keyDelta.length ≤ maxPiece ∧ r.tDelta.length ≤ maxPiece) (h5 : I.digestSize ≤ maxPiece) :
    Code.phase1Commit H.one I salt pk msg reps = .ok (hashOf f I.digestSize ([[1], salt, pk, msg] ++ reps.flatMap fun r =>
      ((List.range I.numParties).flatMap fun p => [r.commitments.getD p [], r.broadcasts.getD p []]) ++ [r.keyDelta, r.tDelta]) 0 I.digestSize) := by
  obtain ⟨⟨v, hv⟩, -⟩ := hH
  rw [Code.phase1Commit_eq hv I salt pk msg reps (le_small h1) (le_small h2) ((le_small h3).fits _ _)
    (fun r hr => ⟨fun c hc => le_small ((h4 r hr).1 c hc), fun c hc => le_small ((h4 r hr).2.1 c hc), le_small (h4 r hr).2.2.1, le_small (h4 r hr).2.2.2⟩) (le_small h5)]
  unfold phase1Commit
  rw [hashOf_eq]
  unfold phase1Input
  rw [List.flatten_append, flatten_flatMap]
  unfold Rep1Hash.bytes
  simp only [List.flatten_append, flatten_flatMap]
  simp

/-- C60: the second commitment is the hash of prefix 2, salt, first commitment and, per repetition, the first m2 (of m2 + 1) corrections. -/
theorem C60_second (hH : Correct f H) (F : FieldState) (I : Instance) (salt h : Bytes) (deltas : List (List W64)) (h1 : salt.length ≤ maxPiece) (h2 : h.length ≤ maxPiece) (h3 : F.byteSize ≤ maxPiece)
    (h4 : I.digestSize ≤ maxPiece) : Code.phase2Commit H.one F I salt h deltas = .ok (hashOf f I.digestSize ([[2], salt, h] ++ deltas.flatMap fun d =>
      (List.range I.m2).map fun k => elem F.byteSize (d.getD k 0)) 0 I.digestSize) := by
  obtain ⟨⟨v, hv⟩, -⟩ := hH
  rw [Code.phase2Commit_eq hv F I salt h deltas (le_small h1) (le_small h2) (le_small h3) (le_small h4)]
  unfold phase2Commit
  rw [hashOf_eq]
  unfold phase2Input
  rw [List.flatten_append, flatten_flatMap, elem_eq]
  simp [List.flatMap_def]

/-- C60: the third commitment is the hash of prefix 3, salt, second commitment and, per repetition, the opened evaluations and all their shares. -/
theorem C60_third (hH : Correct f H) (F : FieldState) (I : Instance) (salt h : Bytes) (reps : List Rep3) (h1 : salt.length ≤ maxPiece) (h2 : h.length ≤ maxPiece) (h3 : F.byteSize ≤ maxPiece) (h4 : I.digestSize ≤ maxPiece) :
    Code.phase3Commit H.one F I salt h reps = .ok (hashOf f I.digestSize ([[3], salt, h] ++ reps.flatMap fun r => (
      [r.c] ++ ((List.range I.numParties).map fun p => r.cShares.getD p 0) ++ (List.range I.m1).flatMap fun j => [r.a.getD j 0, r.b.getD j 0] ++
        (List.range I.numParties).flatMap fun p => [(r.aShares.getD p []).getD j 0, (r.bShares.getD p []).getD j 0]).map (elem F.byteSize)) 0 I.digestSize) := by
  obtain ⟨⟨v, hv⟩, -⟩ := hH
  rw [Code.phase3Commit_eq hv F I salt h reps (le_small h1) (le_small h2) (le_small h3) (le_small h4)]
  unfold phase3Commit
  rw [hashOf_eq]
  unfold phase3Input
  rw [List.flatten_append, flatten_flatMap]
  congr 1
  · simp
  · congr 1
    funext r
    unfold Rep3.bytes
    rw [elem_eq]
    simp only [List.map_append, List.map_flatMap, List.flatten_append, flatten_flatMap, List.map_map, List.map_cons, List.map_nil, List.flatten_cons, List.flatten_nil, List.append_nil]
    simp [List.flatMap_def, Function.comp_def]

/-- C60: the first challenges are consecutive pieces of the hash of the first commitment. -/
theorem C60_challenges1 (hH : Correct f H) (F : FieldState) (I : Instance) (h : Bytes) (h1 : h.length ≤ maxPiece) (h2 : I.lambda ≤ maxPiece) :
    Code.phase1Expand H.one F I h = .ok ((List.range I.numRounds).map fun e => (List.range I.m1).map fun j => F.fromBytes (hashOf f I.digestSize [h] ((e * I.m1 + j) * I.lambda) I.lambda)) := by
  obtain ⟨⟨v, hv⟩, -⟩ := hH
  rw [Code.phase1Expand_eq hv F I h (le_small h1) (le_small h2)]
  unfold phase1Expand
  simp only [hashOf_eq (f := f) I.digestSize [h] h (by simp)]

/-- C60: so are the candidates for the second challenges: those before position `k` that are not among the first m2 points are returned. See C53 for the function on the right. -/
theorem C60_challenges2 (hH : Correct f H) (fuel : Nat) (F : FieldState) (I : Instance) (h : Bytes) (forbidden : List W64) (h1 : h.length ≤ maxPiece) (h2 : I.lambda ≤ maxPiece) :
    Code.phase2Expand H.one fuel F I h forbidden = phase2Expand (shake f) fuel F I h forbidden := by
  obtain ⟨⟨v, hv⟩, -⟩ := hH
  exact Code.phase2Expand_eq hv fuel F I h forbidden (le_small h1) (le_small h2)

/-- C60: and the third challenges, whatever the uninitialised variable holds. -/
theorem C60_challenges3 (hH : Correct f H) (junk : Nat → Nat) (fuel : Nat) (I : Instance) (hI : Consistent I) (h : Bytes) (h1 : h.length ≤ maxPiece) :
    Code.phase3Expand H.one junk fuel I h = phase3Expand (shake f) fuel I h := by
  obtain ⟨⟨v, hv⟩, -⟩ := hH
  exact Code.phase3Expand_eq hv junk fuel I h (le_small h1) (Code.party_mask hI)

end

/-- Both builds are covered. -/
example : Correct keccakF portable ∧ Correct keccakF avx2 := ⟨portable_ok, avx2_ok⟩

/-- The first bytes of a commitment computed in the portable build: SHAKE256 (as for digests other than 32 bytes) of 32 zero bytes, 01 02, 03 04 and the seed. -/
example : (Code.commitParty portable.one ⟨aes128Params, 4, 16, 1, 2, 10, 20, 4, 1⟩ (List.replicate 16 5) (List.replicate 32 0) 0x0201 0x0403).toOption = some [0x3d, 0xe9, 0x03, 0xa0] := by decide +kernel

/-! ## C61 -/

section
variable {f : St → St} {H : Code.Hash}

/-- C61: sign as in the code is the protocol with SHAKE, for messages that the sponge can hash in one piece, whatever uninitialised memory contains. -/
theorem C61_sign (hH : Correct f H) (J : Code.Junk) (hJ : Buffers J) (fuel : Nat) (I : Instance) (hI : Consistent I) (sk pk msg : Bytes) (hpk : pk.length ≤ maxPiece) (hmsg : msg.length ≤ maxPiece) :
    Code.sign H J fuel I sk pk msg = sign (shake f) fuel I sk pk msg := by
  obtain ⟨⟨v1, h1⟩, v4, h4⟩ := hH
  obtain ⟨z1, z2, z3, -⟩ := Code.sizes hI
  refine Code.sign_eq_of J fuel sk pk msg _ fun F hF => Code.signWith_eq h1 h4 hI J (fun e b => by rw [hJ]; omega) fuel F ?_ sk pk msg (le_small hpk) ((le_small hmsg).fits _ _) ((le_small hmsg).fits _ _)
  rw [(initExtensionField_ok hF).2.1]
  exact Code.small_of (by omega)

/-- C61: so is verify. -/
theorem C61_verify (hH : Correct f H) (J : Code.Junk) (hJ : Buffers J) (fuel : Nat) (I : Instance) (hI : Consistent I) (pk : Bytes) (sig : Signature) (msg : Bytes) (hpk : pk.length ≤ maxPiece) (hmsg : msg.length ≤ maxPiece) :
    Code.verify H J fuel I pk sig msg = verify (shake f) fuel I pk sig msg := by
  obtain ⟨⟨v1, h1⟩, v4, h4⟩ := hH
  obtain ⟨z1, z2, z3, -⟩ := Code.sizes hI
  refine Code.bind_eq rfl fun F hF => Code.verifyWith_eq h1 h4 hI J (fun e b => by rw [hJ]; omega) _ (by simp) fuel F ?_ pk sig msg (le_small hpk) ((le_small hmsg).fits _ _)
  rw [(initExtensionField_ok hF).2.1]
  exact Code.small_of (by omega)

/-- C61: so is deserialize. -/
theorem C61_deserialize (hH : Correct f H) (J : Code.Junk) (fuel : Nat) (F : FieldState) (I : Instance) (hI : Consistent I) (bs : Bytes) :
    Code.deserialize H J fuel F I bs = deserialize (shake f) fuel F I bs := by
  obtain ⟨⟨v1, h1⟩, -⟩ := hH
  exact Code.deserialize_eq h1 hI J fuel F bs

end

/-- C61: the portable build is the protocol with SHAKE of FIPS 202. -/
theorem C61_portable (J : Code.Junk) (hJ : Buffers J) (fuel : Nat) (I : Instance) (hI : Consistent I) (sk pk msg : Bytes) (hpk : pk.length ≤ maxPiece) (hmsg : msg.length ≤ maxPiece) :
    Code.sign portable J fuel I sk pk msg = sign shakeFips fuel I sk pk msg ∧ ∀ sig, Code.verify portable J fuel I pk sig msg = verify shakeFips fuel I pk sig msg :=
  ⟨C61_sign portable_ok J hJ fuel I hI sk pk msg hpk hmsg, fun sig => C61_verify portable_ok J hJ fuel I hI pk sig msg hpk hmsg⟩

/-- C61: so is the build with AVX2. -/
theorem C61_avx2 (J : Code.Junk) (hJ : Buffers J) (fuel : Nat) (I : Instance) (hI : Consistent I) (sk pk msg : Bytes) (hpk : pk.length ≤ maxPiece) (hmsg : msg.length ≤ maxPiece) :
    Code.sign avx2 J fuel I sk pk msg = sign shakeFips fuel I sk pk msg ∧ ∀ sig, Code.verify avx2 J fuel I pk sig msg = verify shakeFips fuel I pk sig msg :=
  ⟨C61_sign avx2_ok J hJ fuel I hI sk pk msg hpk hmsg, fun sig => C61_verify avx2_ok J hJ fuel I hI pk sig msg hpk hmsg⟩

/-- C61: every signature that one build produces and encodes is decoded and accepted by every other build, and the builds produce the same one. -/
theorem C61_interoperable {f : St → St} {H H' : Code.Hash} (hH : Correct f H) (hH' : Correct f H') (J J' : Code.Junk) (hJ : Buffers J) (hJ' : Buffers J') (fuel : Nat) (I : Instance) (hI : Consistent I) (sk pk msg : Bytes)
    (hk : KeyPair I sk pk) (hmsg : msg.length ≤ maxPiece) (F : FieldState) (hF : initExtensionField I.lambda = .ok F) (sig : Signature) (h : Code.sign H J fuel I sk pk msg = .ok sig) :
    Code.sign H' J' fuel I sk pk msg = .ok sig ∧ ∃ bs, serialize F I sig = .ok bs ∧ bs.length = sigLength I ∧ Code.deserialize H' J' fuel F I bs = .ok sig ∧ Code.verify H' J' fuel I pk sig msg = .ok true := by
  have hpk : pk.length ≤ maxPiece := by
    rw [(KeyPair.facts hI hk).2.1]
    have := (Code.sizes hI).2.2.2.2.2.2
    unfold maxPiece
    omega
  rw [C61_sign hH J hJ fuel I hI sk pk msg hpk hmsg] at h
  refine ⟨(C61_sign hH' J' hJ' fuel I hI sk pk msg hpk hmsg).trans h, ?_⟩
  obtain ⟨bs, h1, h2, sig', h3, rfl, h4⟩ := C16_encoded (shake f) fuel I hI sk pk msg hk sig h F hF
  exact ⟨bs, h1, h2, (C61_deserialize hH' J' fuel F I hI bs).trans h3, (C61_verify hH' J' hJ' fuel I hI pk sig' msg hpk hmsg).trans h4⟩

/-- A permutation for which everything can be computed: all bytes 1. -/
def ones (_ : St) : St := Vector.replicate 200 1

theorem shake_ones : shake ones = onesXof := by
  funext k msg
  have hr : 0 < shakeRate k ∧ shakeRate k ≤ 200 := by cases k <;> decide
  have hp : shakeRate k ≤ (padShake (shakeRate k) msg).length := by
    unfold padShake
    have := Nat.mod_lt msg.length hr.1
    have := Nat.mod_le msg.length (shakeRate k)
    simp only [List.length_append]
    split
    · simp; omega
    · simp; omega
  have ha : absorb ones (shakeRate k) (padShake (shakeRate k) msg) = Vector.replicate 200 1 := by
    unfold absorb
    obtain ⟨n, hn⟩ : ∃ n, (padShake (shakeRate k) msg).length / shakeRate k = n + 1 := ⟨_, (Nat.succ_pred_eq_of_pos (Nat.div_pos hp hr.1)).symm⟩
    unfold blocks
    rw [hn, List.range_succ, List.map_append, List.foldl_append]
    rfl
  unfold shake squeezeStream onesXof
  rw [ha]
  congr 1
  funext i
  have hi : ∀ n, ones^[n] (Vector.replicate 200 1) = Vector.replicate 200 1 := fun n => by
    cases n with
    | zero => rfl
    | succ n => rw [Function.iterate_succ_apply']; rfl
  have := Nat.mod_lt i hr.1
  rw [hi]
  have h200 : i % shakeRate k < 200 := by omega
  simp [Vector.getD, h200]

/-- A signature as in the code, and its verification in the same build. -/
theorem code_signs (J : Code.Junk) (hJ : Buffers J) (msg : Bytes) (hmsg : msg.length ≤ maxPiece) : ∃ sig, Code.sign (refHash ones) J 1 smallInstance katKey katPk msg = .ok sig ∧
    Code.verify (refHash ones) J 1 smallInstance katPk sig msg = .ok true := by
  obtain ⟨sig, h1, h2⟩ := kat_signs msg
  refine ⟨sig, ?_, ?_⟩
  · rw [C61_sign (ref_ok ones) J hJ 1 smallInstance small_consistent katKey katPk msg (by decide) hmsg, shake_ones, h1]
  · rw [C61_verify (ref_ok ones) J hJ 1 smallInstance small_consistent katPk sig msg (by decide) hmsg, shake_ones, h2]

/-- Uninitialised memory full of 0xAA. -/
def someJunk : Code.Junk := ⟨fun _ _ => List.replicate 64 0xAA, fun _ => 0xAAAA⟩

example : Buffers someJunk ∧ ∃ sig, Code.sign (refHash ones) someJunk 1 smallInstance katKey katPk [1, 2, 3] = .ok sig ∧ Code.verify (refHash ones) someJunk 1 smallInstance katPk sig [1, 2, 3] = .ok true :=
  ⟨fun _ _ => rfl, code_signs _ (fun _ _ => rfl) _ (by decide)⟩

/-! ## C62 -/

/-- C62 in full: in both builds, no message makes sign or verify (on signatures of the right length) leave defined behaviour. -/
def C62_statement : Prop := ∀ H, H = portable ∨ H = avx2 → ∀ J, Buffers J → ∀ (fuel : Nat) (I : Instance), Consistent I → ∀ sk pk msg, KeyPair I sk pk → Code.sign H J fuel I sk pk msg ≠ .error .ub ∧
  ∀ F, initExtensionField I.lambda = .ok F → ∀ bs : Bytes, bs.length = sigLength I → (Code.deserialize H J fuel F I bs).bind (fun s => Code.verify H J fuel I pk s msg) ≠ .error .ub

/-- Both builds. -/
theorem builds {H : Code.Hash} (hH : H = portable ∨ H = avx2) : Correct keccakF H ∧ Guarded H.one := by
  rcases hH with rfl | rfl
  · exact ⟨portable_ok, Code.portable_guarded⟩
  · exact ⟨avx2_ok, Code.avx2_guarded⟩

/-- C62 as far as it holds: messages of at most 2^32 - 168 bytes. Missing: longer messages, for which it is false. -/
theorem C62_partial (H : Code.Hash) (hH : H = portable ∨ H = avx2) (J : Code.Junk) (hJ : Buffers J) (fuel : Nat) (I : Instance) (hI : Consistent I) (sk pk msg : Bytes) (hk : KeyPair I sk pk) (hmsg : msg.length ≤ maxPiece) :
    Code.sign H J fuel I sk pk msg ≠ .error .ub ∧
    ∀ F, initExtensionField I.lambda = .ok F → ∀ bs : Bytes, bs.length = sigLength I → (Code.deserialize H J fuel F I bs).bind (fun s => Code.verify H J fuel I pk s msg) ≠ .error .ub := by
  have hC := (builds hH).1
  obtain ⟨k1, k2, k3, -⟩ := KeyPair.facts hI hk
  have hpk : pk.length ≤ maxPiece := by
    rw [k2]
    have := (Code.sizes hI).2.2.2.2.2.2
    unfold maxPiece
    omega
  refine ⟨?_, fun F hF bs hbs => ?_⟩
  · rw [C61_sign hC J hJ fuel I hI sk pk msg hpk hmsg]
    rcases C41_total (shake keccakF) fuel I hI sk pk msg k1 k2.ge k3 with ⟨sig, h⟩ | h <;> rw [h] <;> simp
  · rw [C61_deserialize hC J fuel F I hI bs]
    simp only [fun s => C61_verify hC J hJ fuel I hI pk s msg hpk hmsg]
    rcases C34_total (shake keccakF) fuel I hI F hF pk k2.ge bs hbs msg with ⟨b, h⟩ | h <;> rw [h] <;> simp

/-- C62 is violated (`builds`: in both builds): for every key, sign writes beyond the Keccak state when the message is such that the 2 bytes of the instance number, the keys and the message have 2^32 bytes together. -/
theorem C62_sign_violated {f : St → St} {H : Code.Hash} (hH : Correct f H ∧ Guarded H.one) (J : Code.Junk) (fuel : Nat) (I : Instance) (hI : Consistent I) (sk pk msg : Bytes) (hk : KeyPair I sk pk)
    (hm : 2 + sk.length + pk.length + msg.length = 2 ^ 32) : Code.sign H J fuel I sk pk msg = .error .ub := by
  obtain ⟨k1, k2, k3, -⟩ := KeyPair.facts hI hk
  have hr : 136 ≤ kindRate (kindOf I.digestSize) := by cases kindOf I.digestSize <;> decide
  have hz := Code.sizes hI
  obtain ⟨F, hF⟩ := init_supported hI.lambda
  obtain ⟨⟨⟨v, hv⟩, -⟩, hg⟩ := hH
  unfold Code.sign
  rw [hF, ok_bind]
  have hm' : (2 + sk.length + pk.length) % kindRate (kindOf I.digestSize) = 2 + sk.length + pk.length := Nat.mod_eq_of_lt (by omega)
  have hms : msg.length % 2 ^ 32 = msg.length := Nat.mod_eq_of_lt (by omega)
  have hsalt := Code.salt_misfit hv hg I sk pk msg (Code.small_of (by omega)) (Code.small_of (by omega)) (by rw [hm']; unfold Fits NoWrap; omega)
  rw [hm', show misfit (2 + sk.length + pk.length) msg.length = .ub from if_pos (by omega)] at hsalt
  refine Code.signWith_long H J fuel F hI sk pk msg k1 k2.ge ?_ hsalt
  obtain ⟨saved, e, h, -⟩ := saved_facts hI sk (slice pk 0 I.ctSize) k3
  rw [e, h]

/-- C62 is violated: for every signature that verify can process (for some message), it writes beyond the Keccak state when 1 + 32 + public key + message have 2^32 bytes. -/
theorem C62_verify_violated {f : St → St} {H : Code.Hash} (hH : Correct f H ∧ Guarded H.one) (J : Code.Junk) (fuel : Nat) (I : Instance) (hI : Consistent I) (pk : Bytes) (hpk : pk.length = 2 * I.ctSize)
    (sig : Signature) (msg' : Bytes) (b : Bool) (hv : Code.verify H J fuel I pk sig msg' = .ok b) (msg : Bytes) (hm : 1 + 32 + pk.length + msg.length = 2 ^ 32) :
    Code.verify H J fuel I pk sig msg = .error .ub := by
  have hr : 136 ≤ kindRate (kindOf I.digestSize) := by cases kindOf I.digestSize <;> decide
  have hz := Code.sizes hI
  obtain ⟨F, hF⟩ := init_supported hI.lambda
  obtain ⟨⟨⟨v, hv1⟩, -⟩, hg⟩ := hH
  unfold Code.verify at hv ⊢
  rw [hF, ok_bind] at hv ⊢
  have hs := (shaped_facts (Code.verifyWith_shaped _ _ _ _ _ _ _ _ _ _ hv)).1
  have hm' : (1 + sig.salt.length + pk.length) % kindRate (kindOf I.digestSize) = 1 + sig.salt.length + pk.length := Nat.mod_eq_of_lt (by omega)
  have hms : msg.length % 2 ^ 32 = msg.length := Nat.mod_eq_of_lt (by omega)
  refine Code.verifyWith_long H J _ fuel F I pk sig msg' msg b hv fun reps => ?_
  rw [Code.phase1_misfit hv1 hg I _ pk msg reps (Code.small_of (by omega)) (Code.small_of (by omega)) (by rw [hm']; unfold Fits NoWrap; omega), hm', show misfit (1 + sig.salt.length + pk.length) msg.length = .ub from if_pos (by omega)]

/-- A signature that verify accepts for one message and that makes it write out of range for another. -/
example : ∃ sig msg, Code.verify (refHash ones) someJunk 1 smallInstance katPk sig [1] = .ok true ∧ Code.verify (refHash ones) someJunk 1 smallInstance katPk sig msg = .error .ub := by
  obtain ⟨sig, h1, h2⟩ := code_signs someJunk (fun _ _ => rfl) [1] (by decide)
  refine ⟨sig, List.replicate (2 ^ 32 - 65) 0, h2, C62_verify_violated ⟨ref_ok ones, Code.ref_guarded ones⟩ someJunk 1 smallInstance small_consistent katPk rfl sig [1] true h2 _ ?_⟩
  rw [List.length_replicate, show katPk.length = 32 from rfl]
  norm_num

/-- C62 is violated by a message of 2^32 - 50 zero bytes. -/
theorem C62_violated : ¬C62_statement := fun h =>
  (h portable (.inl rfl) someJunk (fun _ _ => rfl) 1 smallInstance small_consistent katKey katPk (List.replicate (2 ^ 32 - 50) 0) (kat_pair _ rfl)).1
    (C62_sign_violated (builds (.inl rfl)) someJunk 1 smallInstance small_consistent katKey katPk _ (kat_pair _ rfl) (by rw [List.length_replicate, show katKey.length = 16 from rfl, show katPk.length = 32 from rfl]; norm_num))

end Banquet.Props
