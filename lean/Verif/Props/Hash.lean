import Verif.Proofs.Hash
import Verif.Proofs.Interp
import Verif.Props.Tree
import Verif.Spec.Instance
import Verif.Props.Basic

/-! C14, C25, C26, C27, C30, C48: tapes, commitments, challenges and what the hash inputs determine. -/

namespace Banquet.Props

open Spec FieldOk

/-- A consistent parameter set with one repetition and two parties, for examples. -/
def smallInstance : Instance := ⟨aes128Params, 32, 16, 1, 2, 10, 20, 4, 1⟩

theorem small_consistent : Consistent smallInstance := consistent_of_check _ (by decide)

theorem init_supported {lam : Nat} (h : Supported lam) : ∃ F, initExtensionField lam = .ok F := by
  rcases h with rfl | rfl | rfl | rfl <;> exact ⟨_, rfl⟩

/-! ## C14 -/

/-- C14: a lane of the 4-way tape generation, called for seeds of equal length, is the tape of the party. -/
theorem C14_tape (X : Xof) (tapeSize : Nat) (seed0 seed salt : Bytes) (rep party : Nat) (h : seed.length = seed0.length) :
    genTapeLane X tapeSize seed0.length seed salt rep party = genTape X tapeSize seed salt rep party := by
  unfold genTapeLane genTape tapeStream
  rw [← h, List.take_length]

/-- C14: the tape has the requested size; its bytes are those of the hash of `seed ‖ salt ‖ rep ‖ party` (16 bit little endian numbers). -/
theorem C14_tape_bytes (X : Xof) (tapeSize : Nat) (seed salt : Bytes) (rep party : Nat) :
    (genTape X tapeSize seed salt rep party).length = tapeSize ∧
    ∀ i < tapeSize, (genTape X tapeSize seed salt rep party)[i]? =
      some ((X (if seed.length = 16 then .shake128 else .shake256)
        (seed ++ salt ++ [BitVec.ofNat 8 rep, BitVec.ofNat 8 (rep / 256), BitVec.ofNat 8 party, BitVec.ofNat 8 (party / 256)])).get i) := by
  refine ⟨squeeze_length _ _ _, ?_⟩
  intro i hi
  unfold genTape tapeStream Stream.squeeze
  rw [List.getElem?_map, List.getElem?_range hi]
  have hk : kindOf (2 * seed.length) = if seed.length = 16 then ShakeKind.shake128 else .shake256 := by
    unfold kindOf
    by_cases h : seed.length = 16
    · rw [if_pos h, if_pos (by omega)]
    · rw [if_neg h, if_neg (by omega)]
  rw [hk, List.append_assoc]
  simp [le16]

/-- C14: a lane of the 4-way commitment is the commitment of the party, for seeds of the instance's length. -/
theorem C14_commit (X : Xof) (I : Instance) (seed salt : Bytes) (rep party : Nat) (h : seed.length = I.seedSize) :
    commitLane X I seed salt rep party = commitSingle X I seed salt rep party ∧ (commitSingle X I seed salt rep party).length = I.digestSize := by
  unfold commitLane commitSingle
  rw [← h, List.take_length]
  exact ⟨rfl, squeeze_length _ _ _⟩

/-- C14: the bytes of the commitment are those of the hash of `salt ‖ rep ‖ party ‖ seed`. -/
theorem C14_commit_bytes (X : Xof) (I : Instance) (seed salt : Bytes) (rep party : Nat) (i : Nat) (hi : i < I.digestSize) :
    (commitSingle X I seed salt rep party)[i]? =
      some ((X (if I.digestSize = 32 then .shake128 else .shake256)
        (salt ++ [BitVec.ofNat 8 rep, BitVec.ofNat 8 (rep / 256), BitVec.ofNat 8 party, BitVec.ofNat 8 (party / 256)] ++ seed)).get i) := by
  unfold commitSingle Stream.squeeze
  rw [List.getElem?_map, List.getElem?_range hi]
  simp [le16, kindOf]

example : commitSingle toyXof smallInstance [1, 2] [5] 4 258 ≠ commitSingle toyXof smallInstance [1, 2] [5] 4 259 := by decide +kernel

/-- The length condition is needed: a lane ignores bytes beyond the size of the first seed. -/
example : genTapeLane toyXof 3 2 [1, 2] [5] 4 258 = genTape toyXof 3 [1, 2] [5] 4 258 := by decide +kernel
example : genTapeLane toyXof 3 1 [1, 2] [5] 4 258 ≠ genTape toyXof 3 [1, 2] [5] 4 258 := by decide +kernel
example : genTape toyXof 3 [1, 2] [5] 4 258 ≠ genTape toyXof 3 [1, 2] [5] 4 259 := by decide +kernel

/-! ## C25, C26 -/

/-- C25: the challenges `R_e` are reduced, one per repetition, and none is among the first `m2` interpolation points. -/
theorem C25_R (X : Xof) (fuel : Nat) (F : FieldState) (I : Instance) (hF : initExtensionField I.lambda = .ok F) (h2 : Bytes) (Rs : List W64)
    (h : phase2Expand X fuel F I h2 (F.firstN I.m2) = .ok Rs) :
    Rs.length = I.numRounds ∧ ∀ R ∈ Rs, Reduced I.lambda R ∧ R ∉ F.firstN I.m2 := by
  obtain ⟨hok, hb, _⟩ := initExtensionField_ok hF
  obtain ⟨h1, h3⟩ := phase2Expand_spec X fuel I h2 _ Rs h
  refine ⟨h1, fun R hR => ⟨hb ▸ (h3 R hR).1, ?_⟩⟩
  intro hm
  obtain ⟨k, hk, e⟩ := List.getElem_of_mem hm
  refine (h3 R hR).2 k (by rw [← length_firstN (F := F) I.m2]; exact hk) ?_
  rw [getD_of_lt hk, e]

/-- The stream of the example starts with candidates that are rejected: the first two interpolation points `x` and `x^2`, with λ = 2 and m2 = 2. -/
def c25Xof : Xof := fun _ _ => ⟨fun i => [2, 0, 4, 0, 2, 0, 7, 1, 8, 0].getD i 0⟩
example : ((initExtensionField 2).bind fun F => phase2Expand c25Xof 5 F { smallInstance with lambda := 2, m2 := 2, numRounds := 2 } [] (F.firstN 2)) = .ok [0x107, 8] := by decide +kernel
/-- With too few iterations the loop has not ended. -/
example : ((initExtensionField 2).bind fun F => phase2Expand c25Xof 3 F { smallInstance with lambda := 2, m2 := 2, numRounds := 2 } [] (F.firstN 2)) = .error .fuel := by decide +kernel

/-- C26: the hidden parties are in range, one per repetition, for every content of the uninitialised byte. -/
theorem C26_range (X : Xof) (junk : Nat → Byte) (fuel : Nat) (I : Instance) (h3 : Bytes) (ms : List Nat) (h : phase3ExpandJ X junk fuel I h3 = .ok ms) :
    ms.length = I.numRounds ∧ ∀ m ∈ ms, m < I.numParties := phase3Expand_spec X junk fuel I h3 ms h

/-- C26: the result (including the number of loop iterations) does not depend on the uninitialised byte. -/
theorem C26_junk (X : Xof) (junk junk' : Nat → Byte) (fuel : Nat) (I : Instance) (h3 : Bytes) : phase3ExpandJ X junk fuel I h3 = phase3ExpandJ X junk' fuel I h3 := by
  unfold phase3ExpandJ
  simp only [fun off => phase3Loop_junk I.numParties (X (kindOf I.digestSize) h3) junk junk' fuel off]

/-- C26: each candidate is the number formed by the next bytes (one for at most 256 parties, else two, little endian), reduced modulo the least power of two that is at least the number of parties. -/
theorem C26_candidate (n : Nat) (hn : 2 ≤ n) (hN : n < 2 ^ 16) (s : Stream) (junk : Byte) (off : Nat) :
    phase3Candidate n s junk off = (if n ≤ 256 then (s.get off).toNat else (s.get off).toNat + 256 * (s.get (off + 1)).toNat) % 2 ^ Nat.clog 2 n := by
  have hcl : ceilLog2 n = Nat.clog 2 n := ceilLog2_eq n (by omega)
  rw [phase3Candidate_junk n s junk 0]
  unfold phase3Candidate numSqueezeBytes
  dsimp only
  rw [hcl]
  have hc : Nat.clog 2 n ≤ 16 := Nat.clog_le_of_le_pow (by omega)
  have hp : 2 ^ Nat.clog 2 n ≤ 2 ^ 16 := Nat.pow_le_pow_right (by norm_num) hc
  have hpos : 0 < 2 ^ Nat.clog 2 n := by positivity
  rw [Nat.mod_eq_of_lt (by omega), and_mask]
  by_cases h : n ≤ 256
  · rw [if_neg (show ¬n > 256 by omega), if_pos h]
    simp
  · rw [if_pos (show n > 256 by omega), if_neg h, if_pos rfl]

example : phase3ExpandJ (fun _ _ => ⟨fun i => BitVec.ofNat 8 (251 * i + 62)⟩) (fun i => BitVec.ofNat 8 (77 * i)) 9 { smallInstance with numParties := 57, numRounds := 3 } [] = .ok [52, 47, 42] := by decide +kernel
/-- The first byte 62 is rejected there (57 parties). -/
example : phase3Candidate 57 ⟨fun i => BitVec.ofNat 8 (251 * i + 62)⟩ 3 0 = 62 ∧ phase3Candidate 57 ⟨fun i => BitVec.ofNat 8 (251 * i + 62)⟩ 3 1 = 57 := by decide +kernel

/-! ## C27 -/

/-- Values the second hash should bind: one list of `m2 + 1` reduced elements per repetition. -/
def Deltas (I : Instance) (ds : List (List W64)) : Prop := ds.length = I.numRounds ∧ ∀ d ∈ ds, d.length = I.m2 + 1 ∧ ∀ x ∈ d, Reduced I.lambda x

/-- C27: the claim. -/
def C27_statement : Prop := ∀ (I : Instance) (F : FieldState), Consistent I → initExtensionField I.lambda = .ok F →
  ∀ salt h1 salt' h1' : Bytes, ∀ ds ds' : List (List W64), salt.length = 32 → salt'.length = 32 → h1.length = I.digestSize → h1'.length = I.digestSize →
  Deltas I ds → Deltas I ds' → phase2Input F I salt h1 ds = phase2Input F I salt' h1' ds' → salt = salt' ∧ h1 = h1' ∧ ds = ds'

/-- C27 as far as it holds: salt, `h_1` and the first `m2` of the `m2 + 1` deltas of each repetition are determined. Missing: the last one. -/
theorem C27_partial (I : Instance) (F : FieldState) (hF : initExtensionField I.lambda = .ok F) (salt h1 salt' h1' : Bytes) (ds ds' : List (List W64))
    (hs : salt.length = salt'.length) (hh : h1.length = h1'.length) (hd : Deltas I ds) (hd' : Deltas I ds')
    (e : phase2Input F I salt h1 ds = phase2Input F I salt' h1' ds') :
    salt = salt' ∧ h1 = h1' ∧ ds.map (List.take I.m2) = ds'.map (List.take I.m2) := by
  obtain ⟨hok, hb, _⟩ := initExtensionField_ok hF
  exact phase2Input_inj I salt h1 salt' h1' ds ds' hs hh (hd.1.trans hd'.1.symm) (hb ▸ hd.2) (hb ▸ hd'.2) e

/-- The last delta of each repetition has no influence on the second hash, for any instance. -/
theorem C27_last_free (I : Instance) (F : FieldState) (salt h1 : Bytes) (ds : List (List W64)) (last : List W64 → W64) :
    phase2Input F I salt h1 (ds.map fun d => d.set I.m2 (last d)) = phase2Input F I salt h1 ds := by
  unfold phase2Input
  rw [List.flatMap_map]
  congr 1
  simp only [List.flatMap_def (f := fun d : List W64 => _)]
  congr 1
  apply List.map_congr_left
  intro d hd
  simp only [List.flatMap_def]
  congr 1
  apply List.map_congr_left
  intro k hk
  have hk := List.mem_range.1 hk
  rw [getD_set, if_neg (by omega)]

/-- C27 does not hold: all zero deltas and deltas with last entry 1, for every consistent instance. -/
theorem C27_violated : ¬C27_statement := by
  intro h
  obtain ⟨F, hF⟩ := init_supported small_consistent.lambda
  obtain ⟨hok, hb, _⟩ := initExtensionField_ok hF
  have r0 : Reduced smallInstance.lambda 0 := hb ▸ reduced_zero
  have r1 : Reduced smallInstance.lambda 1 := hb ▸ reduced_one
  have hd : Deltas smallInstance [List.replicate 21 0] := by
    refine ⟨rfl, ?_⟩
    intro d hd
    rw [List.mem_singleton.1 hd]
    exact ⟨rfl, fun x hx => by rw [List.eq_of_mem_replicate hx]; exact r0⟩
  have hd' : Deltas smallInstance ([List.replicate 21 0].map fun d => d.set smallInstance.m2 1) := by
    refine ⟨rfl, ?_⟩
    intro d hd
    rw [List.map_singleton, List.mem_singleton] at hd
    subst hd
    refine ⟨rfl, fun x hx => ?_⟩
    rcases List.mem_or_eq_of_mem_set hx with hx | rfl
    · rw [List.eq_of_mem_replicate hx]; exact r0
    · exact r1
  have := (h smallInstance F small_consistent hF (List.replicate 32 0) (List.replicate 32 0) (List.replicate 32 0) (List.replicate 32 0) _ _ rfl rfl rfl rfl hd' hd
    (C27_last_free smallInstance F _ _ _ (fun _ => 1))).2.2
  revert this
  decide

/-! ## C30 -/

/-- C30: the input of the first hash determines salt, public key, message and all commitments, broadcasts and deltas of all repetitions. -/
theorem C30_phase1 (I : Instance) (salt pk msg salt' pk' msg' : Bytes) (reps reps' : List Rep1Hash)
    (hs : salt.length = 32) (hs' : salt'.length = 32) (hp : pk.length = 2 * I.ctSize) (hp' : pk'.length = 2 * I.ctSize)
    (hr : reps.length = I.numRounds) (hr' : reps'.length = I.numRounds) (h : ∀ r ∈ reps, r.Sized I) (h' : ∀ r ∈ reps', r.Sized I)
    (e : phase1Input I salt pk msg reps = phase1Input I salt' pk' msg' reps') : salt = salt' ∧ pk = pk' ∧ msg = msg' ∧ reps = reps' :=
  phase1Input_inj I salt pk msg salt' pk' msg' reps reps' (hs.trans hs'.symm) (hp.trans hp'.symm) (hr.trans hr'.symm) h h' e

/-- C30: the input of the third hash determines salt, `h_2` and all values and shares of all repetitions. -/
theorem C30_phase3 (I : Instance) (F : FieldState) (hF : initExtensionField I.lambda = .ok F) (salt h2 salt' h2' : Bytes) (reps reps' : List Rep3)
    (hs : salt.length = 32) (hs' : salt'.length = 32) (hp : h2.length = I.digestSize) (hp' : h2'.length = I.digestSize)
    (hr : reps.length = I.numRounds) (hr' : reps'.length = I.numRounds) (h : ∀ r ∈ reps, r.Sized F I) (h' : ∀ r ∈ reps', r.Sized F I)
    (e : phase3Input F I salt h2 reps = phase3Input F I salt' h2' reps') : salt = salt' ∧ h2 = h2' ∧ reps = reps' := by
  obtain ⟨hok, hb, _⟩ := initExtensionField_ok hF
  exact phase3Input_inj I salt h2 salt' h2' reps reps' (hs.trans hs'.symm) (hp.trans hp'.symm) (hr.trans hr'.symm) h h' e

/-- Contributions of the sizes of the example instance. -/
def smallRep1 (b : Byte) : Rep1Hash := ⟨List.replicate 2 (List.replicate 32 b), List.replicate 2 (List.replicate 16 3), List.replicate 16 4, List.replicate 200 5⟩
theorem smallRep1_sized (b : Byte) : (smallRep1 b).Sized smallInstance := by
  refine ⟨⟨rfl, ?_⟩, ⟨rfl, ?_⟩, rfl, rfl⟩ <;>
  · intro c hc
    rw [List.eq_of_mem_replicate hc]; rfl

example : phase1Input smallInstance (List.replicate 32 0) (List.replicate 32 7) [1, 2, 3] [smallRep1 0] ≠ phase1Input smallInstance (List.replicate 32 0) (List.replicate 32 7) [1, 2, 3] [smallRep1 1] := by
  intro h
  have := (C30_phase1 smallInstance _ _ _ _ _ _ _ _ rfl rfl rfl rfl rfl rfl (by simpa using smallRep1_sized 0) (by simpa using smallRep1_sized 1) h).2.2.2
  simp [smallRep1] at this

/-- The length of the public key matters: moving a byte between public key and message gives the same input. -/
example : phase1Input smallInstance [9] [1, 2] [3] [smallRep1 0] = phase1Input smallInstance [9] [1, 2, 3] [] [smallRep1 0] := by decide +kernel

example : ∃ F, initExtensionField smallInstance.lambda = .ok F ∧ Rep3.Sized F smallInstance ⟨1, [0, 1], List.replicate 10 1, List.replicate 10 1, List.replicate 2 (List.replicate 10 1), List.replicate 2 (List.replicate 10 1)⟩ := by
  obtain ⟨F, hF⟩ := init_supported small_consistent.lambda
  obtain ⟨hok, hb, _⟩ := initExtensionField_ok hF
  refine ⟨F, hF, reduced_one, ⟨rfl, ?_⟩, ⟨rfl, ?_⟩, ⟨rfl, ?_⟩, ⟨rfl, ?_⟩, ⟨rfl, ?_⟩⟩
  · intro x hx
    simp only [List.mem_cons, List.not_mem_nil, or_false] at hx
    rcases hx with rfl | rfl
    · exact reduced_zero
    · exact reduced_one
  · intro x hx
    rw [List.eq_of_mem_replicate hx]; exact reduced_one
  · intro x hx
    rw [List.eq_of_mem_replicate hx]; exact reduced_one
  · intro l hl
    rw [List.eq_of_mem_replicate hl]
    refine ⟨rfl, fun x hx => ?_⟩
    rw [List.eq_of_mem_replicate hx]; exact reduced_one
  · intro l hl
    rw [List.eq_of_mem_replicate hl]
    refine ⟨rfl, fun x hx => ?_⟩
    rw [List.eq_of_mem_replicate hx]; exact reduced_one

/-! ## C48 -/

/-- The uses of the hash function. -/
inductive HashCall where
  /-- salt and master seeds (banquet.cpp:26-48) -/
  | saltSeeds (params : Nat) (sk pk msg : Bytes)
  /-- expansion of a tree node (tree.cpp:11-62) -/
  | node (seed salt : Bytes) (rep index : Nat)
  /-- commitment to a party seed (banquet.cpp:50-85) -/
  | commit (salt : Bytes) (rep party : Nat) (seed : Bytes)
  /-- random tape (tape.cpp:19-59) -/
  | tape (seed salt : Bytes) (rep party : Nat)
  /-- `h_1` (banquet.cpp:87-118) -/
  | hash1 (salt pk msg : Bytes) (reps : List Rep1Hash)
  /-- expansion of `h_1` (banquet.cpp:120-142) -/
  | expand1 (h : Bytes)
  /-- `h_2` (banquet.cpp:144-164) -/
  | hash2 (salt h1 : Bytes) (ds : List (List W64))
  /-- expansion of `h_2` (banquet.cpp:166-198) -/
  | expand2 (h : Bytes)
  /-- `h_3` (banquet.cpp:200-234) -/
  | hash3 (salt h2 : Bytes) (reps : List Rep3)
  /-- expansion of `h_3` (banquet.cpp:236-257) -/
  | expand3 (h : Bytes)

/-- The hashed bytes. -/
def HashCall.input (F : FieldState) (I : Instance) : HashCall → Bytes
  | .saltSeeds params sk pk msg => le16 params ++ sk ++ pk ++ msg
  | .node seed salt rep i => [1] ++ seed ++ salt ++ le16 rep ++ le16 i
  | .commit salt rep party seed => salt ++ le16 rep ++ le16 party ++ seed
  | .tape seed salt rep party => seed ++ salt ++ le16 rep ++ le16 party
  | .hash1 salt pk msg reps => phase1Input I salt pk msg reps
  | .expand1 h | .expand2 h | .expand3 h => h
  | .hash2 salt h1 ds => phase2Input F I salt h1 ds
  | .hash3 salt h2 reps => phase3Input F I salt h2 reps

/-- The purpose of a call. -/
def HashCall.purpose : HashCall → Nat
  | .saltSeeds .. => 0
  | .node .. => 1
  | .commit .. => 2
  | .tape .. => 3
  | .hash1 .. => 4
  | .expand1 .. => 5
  | .hash2 .. => 6
  | .expand2 .. => 7
  | .hash3 .. => 8
  | .expand3 .. => 9

/-- The arguments have the sizes of the instance. -/
def HashCall.Sized (F : FieldState) (I : Instance) : HashCall → Prop
  | .saltSeeds params sk pk _ => params = I.params ∧ sk.length = I.aes.keySize ∧ pk.length = 2 * I.ctSize
  | .node seed salt rep i => seed.length = I.seedSize ∧ salt.length = 32 ∧ rep < I.numRounds ∧ i < 2 * I.numParties
  | .commit salt rep party seed | .tape seed salt rep party => seed.length = I.seedSize ∧ salt.length = 32 ∧ rep < I.numRounds ∧ party < I.numParties
  | .hash1 salt pk _ reps => salt.length = 32 ∧ pk.length = 2 * I.ctSize ∧ reps.length = I.numRounds ∧ ∀ r ∈ reps, r.Sized I
  | .expand1 h | .expand2 h | .expand3 h => h.length = I.digestSize
  | .hash2 salt h1 ds => salt.length = 32 ∧ h1.length = I.digestSize ∧ Deltas I ds
  | .hash3 salt h2 reps => salt.length = 32 ∧ h2.length = I.digestSize ∧ reps.length = I.numRounds ∧ ∀ r ∈ reps, r.Sized F I

/-- The model hashes exactly these inputs. -/
theorem C48_calls (X : Xof) (F : FieldState) (I : Instance) (sk pk msg seed salt h : Bytes) (rep n party : Nat) (reps1 : List Rep1Hash) (ds : List (List W64)) (reps3 : List Rep3) :
    saltStream X I sk pk msg = X (kindOf I.digestSize) ((HashCall.saltSeeds I.params sk pk msg).input F I) ∧
    (expandSeed X seed salt rep n).1 = (X (kindOf (2 * seed.length)) ((HashCall.node seed salt rep n).input F I)).squeeze 0 seed.length ∧
    commitSingle X I seed salt rep party = (X (kindOf I.digestSize) ((HashCall.commit salt rep party seed).input F I)).squeeze 0 I.digestSize ∧
    tapeStream X seed salt rep party = X (kindOf (2 * seed.length)) ((HashCall.tape seed salt rep party).input F I) ∧
    phase1Commit X I salt pk msg reps1 = (X (kindOf I.digestSize) ((HashCall.hash1 salt pk msg reps1).input F I)).squeeze 0 I.digestSize ∧
    phase2Commit X F I salt h ds = (X (kindOf I.digestSize) ((HashCall.hash2 salt h ds).input F I)).squeeze 0 I.digestSize ∧
    phase3Commit X F I salt h reps3 = (X (kindOf I.digestSize) ((HashCall.hash3 salt h reps3).input F I)).squeeze 0 I.digestSize :=
  ⟨rfl, rfl, rfl, rfl, rfl, rfl, rfl⟩

/-- C48: the claim. -/
def C48_statement : Prop := ∀ (I : Instance) (F : FieldState), Consistent I → initExtensionField I.lambda = .ok F →
  ∀ a b : HashCall, a.Sized F I → b.Sized F I → a.purpose ≠ b.purpose → a.input F I ≠ b.input F I

/-- C48 as far as it holds: the hashes `h_1`, `h_2`, `h_3` never share an input with one another, and tree nodes share none with `h_1`, `h_2`, `h_3` although node expansion and `h_1` use the same prefix.
Missing: the unprefixed uses. -/
theorem C48_partial (I : Instance) (F : FieldState) (hI : Consistent I) (a b : HashCall) (ha : a.Sized F I) (hb : b.Sized F I)
    (hp : a.purpose ≠ b.purpose) (hpa : a.purpose ∈ [1, 4, 6, 8]) (hpb : b.purpose ∈ [1, 4, 6, 8]) : a.input F I ≠ b.input F I := by
  have tree : ∀ (seed salt : Bytes) (rep n : Nat) (salt' pk msg : Bytes) (reps : List Rep1Hash), (HashCall.node seed salt rep n).Sized F I → (HashCall.hash1 salt' pk msg reps).Sized F I →
      (HashCall.node seed salt rep n).input F I ≠ (HashCall.hash1 salt' pk msg reps).input F I := by
    intro seed salt rep n salt' pk msg reps h h' e
    have e := congrArg List.length e
    obtain ⟨a1, a2, _⟩ := h
    obtain ⟨b1, b2, b3, b4⟩ := h'
    simp only [HashCall.input, phase1Input, List.length_append, le16_length, List.length_singleton, a1, a2, b1, b2, length_flatMap_const _ _ _ fun r hr => Rep1Hash.bytes_length I r (b4 r hr), b3] at e
    have h1 : I.aes.numSboxes ≤ I.numRounds * (I.numParties * (I.digestSize + I.ctSize) + I.aes.keySize + I.aes.numSboxes) := by
      calc I.aes.numSboxes ≤ 1 * (I.numParties * (I.digestSize + I.ctSize) + I.aes.keySize + I.aes.numSboxes) := by omega
        _ ≤ _ := Nat.mul_le_mul_right _ hI.rounds.1
    have h2 := hI.seed
    have h3 := hI.aes
    simp only [Prod.mk.injEq] at h3
    omega
  have head : ∀ x y : Byte, ∀ l m : Bytes, x ≠ y → [x] ++ l ≠ [y] ++ m := by
    intro x y l m hxy e
    simp only [List.singleton_append, List.cons.injEq] at e
    exact hxy e.1
  cases a <;> cases b <;> first
    | exact absurd rfl hp
    | (exfalso; revert hpa; simp [HashCall.purpose]; done)
    | (exfalso; revert hpb; simp [HashCall.purpose]; done)
    | exact tree _ _ _ _ _ _ _ _ ha hb
    | exact (tree _ _ _ _ _ _ _ _ hb ha).symm
    | (simp only [HashCall.input, phase1Input, phase2Input, phase3Input, List.append_assoc]; refine head _ _ _ _ ?_; decide)

/-- C48 does not hold: with zero salt and seed, the first party's tape in the first repetition is generated from the bytes its seed commitment hashes. -/
theorem C48_violated : ¬C48_statement := by
  intro h
  obtain ⟨F, hF⟩ := init_supported small_consistent.lambda
  exact h smallInstance F small_consistent hF (.tape (List.replicate 16 0) (List.replicate 32 0) 0 0) (.commit (List.replicate 32 0) 0 0 (List.replicate 16 0))
    ⟨rfl, rfl, by decide, by decide⟩ ⟨rfl, rfl, by decide, by decide⟩ (by decide) rfl

end Banquet.Props
