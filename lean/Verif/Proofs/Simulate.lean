import Verif.Spec.Simulate
import Verif.Proofs.Fixed
import Verif.Proofs.Hiding
import Verif.Proofs.Oracle
import Verif.Props.Hiding

/-! The simulated signature is the one that the signer makes with another tape for each hidden party. -/

namespace Banquet

open Spec FieldOk Spec.Aes Props

/-! ## Reading field elements -/

theorem elemsAt_flatMap {lam : Nat} {A C : Bytes} {l : List W64} (hl : ∀ x ∈ l, Reduced lam x) {o n : Nat} (ho : A.length = o) (hn : l.length = n) :
    elemsAt lam (A ++ l.flatMap (leDigits lam) ++ C) o n = l := by
  refine Eq.trans ?_ (eq_range_map l n 0 hn).symm
  unfold elemsAt
  refine List.map_congr_left fun i hi => ?_
  have hi := List.mem_range.1 hi
  have hf : (l.flatMap (leDigits lam)) = (List.range n).flatMap fun i => leDigits lam (l.getD i 0) := by
    conv_lhs => rw [eq_range_map l n 0 hn]
    rw [List.flatMap_map]
  have hlen : (l.flatMap (leDigits lam)).length = n * lam := by rw [elements_length, hn]
  have h1 : i * lam + lam ≤ n * lam := by
    have := Nat.mul_le_mul_right lam (show i + 1 ≤ n by omega)
    rwa [Nat.add_mul, Nat.one_mul] at this
  rw [← slice_slice _ (l := n * lam) h1, slice_at ho hlen, hf, slice_flat (fun _ _ => length_leDigits _ _) hi, blockElem_leDigits]
  rw [getD_of_lt (by omega)]
  exact hl _ (List.getElem_mem _)

theorem elemsAt_length (lam : Nat) (u : Bytes) (o n : Nat) : (elemsAt lam u o n).length = n := by simp [elemsAt]

/-- The bytes are determined by the elements. -/
theorem elemsAt_inj {lam : Nat} (h8 : lam ≤ 8) {u u' : Bytes} {o n : Nat} (h : o + n * lam ≤ u.length) (h' : o + n * lam ≤ u'.length) (he : elemsAt lam u o n = elemsAt lam u' o n) :
    slice u o (n * lam) = slice u' o (n * lam) := by
  have key : ∀ (n : Nat) (u : Bytes), o + n * lam ≤ u.length → slice u o (n * lam) = (List.range n).flatMap fun i => slice u (o + i * lam) lam := by
    intro n u h
    induction n with
    | zero => simp [slice]
    | succ n ih =>
      rw [Nat.add_mul, Nat.one_mul] at h
      rw [List.range_succ, List.flatMap_append, ← ih (by omega), List.flatMap_singleton, Nat.add_mul, Nat.one_mul]
      unfold slice
      rw [List.take_add, List.drop_drop]
  rw [key n u h, key n u' h']
  refine List.flatMap_congr fun i hi => ?_
  have := List.map_inj_left.1 he i hi
  have hi := List.mem_range.1 hi
  have h1 : i * lam + lam ≤ n * lam := by
    have := Nat.mul_le_mul_right lam (show i + 1 ≤ n by omega)
    rwa [Nat.add_mul, Nat.one_mul] at this
  exact blockElem_inj h8 (slice_length (by omega)) (slice_length (by omega)) this

/-! ## Closed form of the simulator -/

/-- The simulated signature. -/
def simSig (X : Xof) (F : FieldState) (I : Instance) (salt : Bytes) (root : Nat → Bytes) (d1 d3 : Bytes) (ms : List Nat) : Signature :=
  ⟨salt, d1, d3, (List.range I.numRounds).map fun e => simProof X F I salt (root e) e (ms.getD e 0)⟩

/-- Output of the simulator. -/
def simOut (c : Nat) (X : Xof) (F : FieldState) (I : Instance) (pk msg salt : Bytes) (root : Nat → Bytes) (d1 d2 d3 : Bytes) (Rs : List W64) (ms : List Nat) : Simulated :=
  ⟨simSig X F I salt root d1 d3 ms, phase1Input I salt pk msg (verReps1 X I (List.replicate I.seedSize 0) pk (simSig X F I salt root d1 d3 ms)),
    Fixed.phase2InputN c F salt d1 ((simSig X F I salt root d1 d3 ms).proofs.map (·.pDelta)),
    phase3Input F I salt d2 (verReps3 X F I (List.replicate I.seedSize 0) pk (simSig X F I salt root d1 d3 ms) Rs)⟩

section
variable {I : Instance} (hI : Consistent I)
include hI

theorem simProof_shaped (X : Xof) (F : FieldState) (salt root : Bytes) (hr : root.length = I.seedSize) (e m : Nat) : (simProof X F I salt root e m).shaped I = true := by
  obtain ⟨b1, b2, b3, b4⟩ := parties_bounds hI
  have h1 : I.aes.keySize + I.aes.numSboxes ≤ I.tapeSize := by unfold Instance.tapeSize; omega
  unfold Proof.shaped simProof
  simp only [Bool.and_eq_true, decide_eq_true_eq, List.length_map, List.length_range, List.all_eq_true, beq_iff_eq]
  refine ⟨⟨⟨⟨⟨⟨⟨(ceilLog2_eq _ b4).symm, ?_⟩, ?_⟩, ?_⟩, ?_⟩, ?_⟩, ?_⟩, ?_⟩
  · intro s hs
    obtain ⟨k, _, rfl⟩ := List.mem_map.1 hs
    rw [seedAt_length, hr]
  · exact squeeze_len _ _ _
  · exact slice_length (by rw [squeeze_len]; omega)
  · exact slice_length (by rw [squeeze_len]; omega)
  · exact elemsAt_length _ _ _ _
  · exact elemsAt_length _ _ _ _
  · exact elemsAt_length _ _ _ _

theorem simulate_eq {F : FieldState} (hF : initExtensionField I.lambda = .ok F) (c : Nat) (X : Xof) (fuel : Nat) (pk msg : Bytes) (coins : Stream) (d1 d2 d3 : Bytes) :
    simulate c X fuel I pk msg coins d1 d2 d3 = (phase2Expand X fuel F I d2 (F.firstN I.m2)).bind fun Rs => (phase3Expand X fuel I d3).bind fun ms =>
      .ok (simOut c X F I pk msg (coins.squeeze 0 32) (fun e => coins.squeeze (32 + e * I.seedSize) I.seedSize) d1 d2 d3 Rs ms) := by
  unfold simulate
  rw [hF, ok_bind]
  dsimp only
  change (phase2Expand X fuel F I d2 (F.firstN I.m2)).bind _ = _
  cases hR : phase2Expand X fuel F I d2 (F.firstN I.m2) with
  | error e => rfl
  | ok Rs =>
  change (phase3Expand X fuel I d3).bind _ = (phase3Expand X fuel I d3).bind _
  cases hm : phase3Expand X fuel I d3 with
  | error e => rfl
  | ok ms =>
  obtain ⟨ml, mlt⟩ := phase3Expand_spec X _ fuel I d3 ms hm
  have hmlt : ∀ e < I.numRounds, ms.getD e 0 < I.numParties := fun e he => by
    rw [getD_of_lt (by omega)]
    exact mlt _ (List.getElem_mem _)
  generalize hsalt : coins.squeeze 0 32 = salt
  have hroot : ∀ e, (coins.squeeze (32 + e * I.seedSize) I.seedSize).length = I.seedSize := fun e => squeeze_len _ _ _
  generalize hrt : (fun e => coins.squeeze (32 + e * I.seedSize) I.seedSize) = root at *
  have hrt' : ∀ e, coins.squeeze (32 + e * I.seedSize) I.seedSize = root e := fun e => congrFun hrt e
  simp only [hrt'] at hroot ⊢
  have hz : (List.replicate I.seedSize (0 : Byte)).length = I.seedSize := List.length_replicate
  change ((List.range I.numRounds).mapM _ >>= _) = _
  rw [mapM_ok _ _ (fun e => ((verCtx X I (List.replicate I.seedSize 0) salt e (simProof X F I salt (root e) e (ms.getD e 0))).verHash1 I (slice pk 0 I.ctSize) (slice pk I.ctSize I.ctSize)
      (simProof X F I salt (root e) e (ms.getD e 0))
      (fun p => commitSingle X I (openedSeed X I salt e (simProof X F I salt (root e) e (ms.getD e 0)).reveal p) salt e p) (ms.getD e 0),
    (verCtx X I (List.replicate I.seedSize 0) salt e (simProof X F I salt (root e) e (ms.getD e 0))).verHash3 F I (slice pk 0 I.ctSize) ((phase1Expand X F I d1).getD e []) (Rs.getD e 0)
      (simProof X F I salt (root e) e (ms.getD e 0)) (ms.getD e 0))) fun e he => ?_]
  · rw [ok_bind]
    congr 1
    unfold simOut verReps1 verReps3
    rw [List.map_map, List.map_map, List.map_map, Simulated.mk.injEq]
    refine ⟨rfl, ?_, by unfold simSig; dsimp only; rw [List.map_map], ?_⟩
    · congr 1
      refine List.map_congr_left fun e he => ?_
      have he := List.mem_range.1 he
      dsimp only
      unfold simSig
      dsimp only
      rw [getD_range_map _ _ _ _ he]
      rfl
    · congr 1
      refine List.map_congr_left fun e he => ?_
      have he := List.mem_range.1 he
      dsimp only
      unfold simSig
      dsimp only
      rw [getD_range_map _ _ _ _ he]
      rfl
  · have he := List.mem_range.1 he
    rw [verRep1_eq hI X _ hz _ _ salt _ (simProof_shaped hI X F salt (root e) (hroot e) e _) _ e (hmlt e he), if_pos (show ms.getD e 0 = (simProof X F I salt (root e) e (ms.getD e 0)).reveal.missing from rfl), ok_bind,
      verRep3_eq F I (slice pk 0 I.ctSize) (verCtx X I (List.replicate I.seedSize 0) salt e (simProof X F I salt (root e) e (ms.getD e 0))) _ _ _ rfl _ _ rfl rfl rfl, ok_bind]
    rfl

end

/-! ## Two hash functions which differ in the tapes of the hidden parties -/

/-- The hash functions agree on the seed trees, the commitments and the tapes of the parties other than `ms e`. -/
structure SameOpen (I : Instance) (salt : Bytes) (root : Nat → Bytes) (ms : Nat → Nat) (X X' : Xof) : Prop where
  node : ∀ e < I.numRounds, ∀ i < I.numParties, X' (kindOf I.digestSize) ([1] ++ seedAt X (root e) salt e i ++ salt ++ le16 e ++ le16 i) =
    X (kindOf I.digestSize) ([1] ++ seedAt X (root e) salt e i ++ salt ++ le16 e ++ le16 i)
  com : ∀ e < I.numRounds, ∀ p < I.numParties, X' (kindOf I.digestSize) (salt ++ le16 e ++ le16 p ++ partySeed X I salt (root e) e p) =
    X (kindOf I.digestSize) (salt ++ le16 e ++ le16 p ++ partySeed X I salt (root e) e p)
  tape : ∀ e < I.numRounds, ∀ p < I.numParties, p ≠ ms e → X' (kindOf I.digestSize) (tapeInput (partySeed X I salt (root e) e p) salt e p) =
    X (kindOf I.digestSize) (tapeInput (partySeed X I salt (root e) e p) salt e p)

section
variable {I : Instance} (hI : Consistent I) {salt : Bytes} {root : Nat → Bytes} (hroot : ∀ e, (root e).length = I.seedSize) {ms : Nat → Nat} {X X' : Xof} (h : SameOpen I salt root ms X X')
include hI hroot h

theorem SameOpen.seedAt (e : Nat) (he : e < I.numRounds) (i : Nat) (hi : i < 2 * I.numParties) : seedAt X' (root e) salt e i = seedAt X (root e) salt e i := by
  induction i using Nat.strongRecOn with
  | ind i ih =>
    cases i with
    | zero => rw [Spec.seedAt, Spec.seedAt]
    | succ i =>
      have := h.node e he (i / 2) (by omega)
      rw [hI.digest, ← hroot e] at this
      rw [seedAt_succ, seedAt_succ, ih (i / 2) (by omega) (by omega), this]

theorem SameOpen.partySeed (e : Nat) (he : e < I.numRounds) (p : Nat) (hp : p < I.numParties) : partySeed X' I salt (root e) e p = partySeed X I salt (root e) e p := by
  refine h.seedAt hI hroot e he _ ?_
  unfold leafNode
  have := depth_pow hI
  omega

omit h in
theorem genTape_eq (Y : Xof) (e : Nat) (p : Nat) : genTape Y I.tapeSize (Banquet.partySeed Y I salt (root e) e p) salt e p =
    (Y (kindOf I.digestSize) (tapeInput (Banquet.partySeed Y I salt (root e) e p) salt e p)).squeeze 0 I.tapeSize := by
  unfold Banquet.genTape tapeStream
  rw [show (Banquet.partySeed Y I salt (root e) e p).length = I.seedSize from (seedAt_length _ _ _ _ _).trans (hroot e), ← hI.digest]
  rfl

theorem SameOpen.genTape (e : Nat) (he : e < I.numRounds) (p : Nat) (hp : p < I.numParties) (hne : p ≠ ms e) :
    genTape X' I.tapeSize (Banquet.partySeed X' I salt (root e) e p) salt e p = genTape X I.tapeSize (Banquet.partySeed X I salt (root e) e p) salt e p := by
  rw [genTape_eq hI hroot, genTape_eq hI hroot, h.partySeed hI hroot e he p hp, h.tape e he p hp hne]

theorem SameOpen.com' (e : Nat) (he : e < I.numRounds) (p : Nat) (hp : p < I.numParties) : commitSingle X' I (Banquet.partySeed X' I salt (root e) e p) salt e p =
    commitSingle X I (Banquet.partySeed X I salt (root e) e p) salt e p := by
  unfold commitSingle
  rw [h.partySeed hI hroot e he p hp, h.com e he p hp]

theorem SameOpen.reveal (e : Nat) (he : e < I.numRounds) (m : Nat) (hm : m < I.numParties) : revealOf X' I salt (root e) e m = revealOf X I salt (root e) e m := by
  unfold revealOf
  congr 1
  refine List.map_congr_left fun k hk => h.seedAt hI hroot e he _ ?_
  obtain ⟨b1, b2, b3, b4⟩ := parties_bounds hI
  have hk := List.mem_range.1 hk
  obtain ⟨_, s2⟩ := sib_level b1 b3 hm k hk
  have hN := depth_pow hI
  have : 2 ^ (depth I.numParties - k + 1) ≤ 2 ^ (depth I.numParties + 1) := Nat.pow_le_pow_right (by norm_num) (by omega)
  rw [pow_succ 2 (depth I.numParties), ← hN] at this
  omega

/-- What the verifier computes from the simulated proof with one hash function, and the prover with the other. -/
theorem SameOpen.agree {F : FieldState} (dummy : Bytes) (e : Nat) (he : e < I.numRounds) (hm : ms e < I.numParties) {r : Run} (hr : r.root = root e) {c : Ctx} (hc : c.tape = (r.ctx X' I salt e).tape)
    (e1 : c.skDelta = (simProof X F I salt (root e) e (ms e)).skDelta) (e2 : c.tDelta = (simProof X F I salt (root e) e (ms e)).tDelta)
    (e3 : c.pDelta = (simProof X F I salt (root e) e (ms e)).pDelta) : Ctx.Agree I (ms e) (verCtx X I dummy salt e (simProof X F I salt (root e) e (ms e))) c := by
  refine ⟨e1.symm, e2.symm, e3.symm, ?_⟩
  rintro p ⟨hp, hne⟩
  rw [hc]
  unfold verCtx verTape Run.ctx
  dsimp only
  have e1 : (simProof X F I salt (root e) e (ms e)).reveal = revealOf X I salt (root e) e (ms e) := rfl
  rw [e1, if_neg (show p ≠ (revealOf X I salt (root e) e (ms e)).missing from hne), openedSeed_revealOf hI X salt (root e) (hroot e) e hm hp hne, hr]
  exact (h.genTape hI hroot e he p hp hne).symm

theorem SameOpen.hash1 {F : FieldState} (dummy pt ct : Bytes) (e : Nat) (he : e < I.numRounds) (hm : ms e < I.numParties) {r : Run} (hr : r.root = root e)
    (e1 : r.skDelta = (simProof X F I salt (root e) e (ms e)).skDelta) (e2 : r.tDelta = (simProof X F I salt (root e) e (ms e)).tDelta)
    (hct : xorOf I.ctSize ((List.range I.numParties).map fun p => ((r.ctx X' I salt e).out I pt p).2) = ct) :
    (verCtx X I dummy salt e (simProof X F I salt (root e) e (ms e))).verHash1 I pt ct (simProof X F I salt (root e) e (ms e))
      (fun p => commitSingle X I (openedSeed X I salt e (simProof X F I salt (root e) e (ms e)).reveal p) salt e p) (ms e) = (r.ctx X' I salt e).hash1 I pt (r.com X' I salt e) := by
  have ha := h.agree hI hroot (F := F) dummy e he hm hr (c := { r.ctx X' I salt e with pDelta := (simProof X F I salt (root e) e (ms e)).pDelta }) rfl e1 e2 rfl
  rw [ha.verHash1 I]
  unfold Ctx.verHash1 Ctx.hash1
  rw [Rep1Hash.mk.injEq]
  refine ⟨?_, ?_, e1.symm, e2.symm⟩
  · apply List.map_congr_left
    intro p hp
    have hp := List.mem_range.1 hp
    unfold Run.com
    rw [hr, h.com' hI hroot e he p hp]
    split
    · rename_i h; rw [h]; rfl
    · rename_i hne
      dsimp only
      rw [show (simProof X F I salt (root e) e (ms e)).reveal = revealOf X I salt (root e) e (ms e) from rfl, openedSeed_revealOf hI X salt (root e) (hroot e) e hm hp hne]
  · apply List.map_congr_left
    intro p hp
    split
    · rename_i h
      rw [h, ← hct]
      exact bytes_complete hm (fun p => ((r.ctx X' I salt e).out I pt p).2) fun p => (out_length hI _ _ _).2
    · rfl

theorem SameOpen.hash3 {F : FieldState} (dummy pt : Bytes) (e : Nat) (he : e < I.numRounds) (hm : ms e < I.numParties) {r : Run} (hr : r.root = root e) (rs : List W64) (R : W64)
    (hp : r.proof X' F I pt salt e rs R (ms e) = simProof X F I salt (root e) e (ms e)) :
    (verCtx X I dummy salt e (simProof X F I salt (root e) e (ms e))).verHash3 F I pt rs R (simProof X F I salt (root e) e (ms e)) (ms e) = (r.ctx X' I salt e).hash3 F I pt rs R := by
  have ha := h.agree hI hroot (F := F) dummy e he hm hr (c := r.ctx X' I salt e) rfl (by rw [← hp]; rfl) (by rw [← hp]; rfl) (by rw [← hp]; rfl)
  rw [ha.verHash3 I, ← hp]
  unfold Ctx.verHash3 Ctx.hash3
  rw [Rep3.mk.injEq]
  refine ⟨rfl, ?_, rfl, rfl, ?_, ?_⟩
  · apply List.map_congr_left
    intro p hp
    split
    · rename_i h
      rw [h]
      exact fold_complete _ _ hm fun q => (r.ctx X' I salt e).pc F I rs R q
    · rfl
  · apply List.map_congr_left
    intro p hp
    apply List.map_congr_left
    intro j hj
    split
    · rename_i h
      rw [h, show (r.proof X' F I pt salt e rs R (ms e)).sAtR = (List.range I.m1).map ((r.ctx X' I salt e).sumA F I pt rs R) from rfl, getD_range_map _ _ _ _ (List.mem_range.1 hj)]
      exact fold_complete _ _ hm fun q => (r.ctx X' I salt e).a F I pt rs R q j
    · rfl
  · apply List.map_congr_left
    intro p hp
    apply List.map_congr_left
    intro j hj
    split
    · rename_i h
      rw [h, show (r.proof X' F I pt salt e rs R (ms e)).tAtR = (List.range I.m1).map ((r.ctx X' I salt e).sumB F I R) from rfl, getD_range_map _ _ _ _ (List.mem_range.1 hj)]
      exact fold_complete _ _ hm fun q => (r.ctx X' I salt e).b F I R q j
    · rfl

end

/-! ## The tape of the hidden party -/

section
variable {I : Instance} (hI : Consistent I) {F : FieldState} [FieldOk F] (hb : F.byteSize = I.lambda)
include hI hb

/-- The signer with given tapes whose values sent are the bytes used by the simulator. -/
theorem sim_parts {sk pt : Bytes} (hsk : sk.length = I.aes.keySize) (h0 : 0 ∉ sboxInputs (I.aes.keySize / 4) I.aes.numBlocks sk pt) {rs : List W64} (hrs : AllRed F.byteSize rs) {R : W64} (hR : Reduced F.byteSize R)
    {tree : SeedTree} {com : List Bytes} {tape : Nat → Bytes} (ht : ∀ p, (tape p).length = I.tapeSize) {v : RepView} {X : Xof} {salt root : Bytes} {e m : Nat}
    (hv : repView F I sk pt rs R tree com ((List.range I.numParties).map tape) = .ok v)
    (hs : v.sent I.lambda = (X (kindOf I.digestSize) (tapeInput (partySeed X I salt root e m) salt e m)).squeeze 0 I.tapeSize) :
    tapeDelta I tape 0 I.aes.keySize sk = (simProof X F I salt root e m).skDelta ∧
    tapeDelta I tape I.aes.keySize I.aes.numSboxes (aesSave I.aes.keySize sk pt).2.2 = (simProof X F I salt root e m).tDelta ∧
    ∀ c : Ctx, c.tape = tape → c.skDelta = tapeDelta I tape 0 I.aes.keySize sk → c.tDelta = tapeDelta I tape I.aes.keySize I.aes.numSboxes (aesSave I.aes.keySize sk pt).2.2 →
      FitsDelta F I pt c rs c.pDelta → c.pDelta = (simProof X F I salt root e m).pDelta ∧ c.sumC F I rs R = (simProof X F I salt root e m).pAtR ∧
      (List.range I.m1).map (c.sumA F I pt rs R) = (simProof X F I salt root e m).sAtR ∧ (List.range I.m1).map (c.sumB F I R) = (simProof X F I salt root e m).tAtR := by
  have hl : ((List.range I.numParties).map tape).length = I.numParties := by simp
  have ht' : ∀ t ∈ (List.range I.numParties).map tape, t.length = I.tapeSize := fun t h => by
    obtain ⟨p, _, rfl⟩ := List.mem_map.1 h
    exact ht p
  obtain ⟨c0, t0, hon, v0⟩ := repView_honest (F := F) hI hsk h0 hrs R tree com _ hl ht'
  obtain ⟨saved, d, s1, s2, -, -, -, -, -, s8⟩ := repView_ok (F := F) hI hsk h0 hrs R tree com _ hl ht'
  have hf : ∀ p < I.numParties, tapeFun I ((List.range I.numParties).map tape) p = tape p := fun p hp => getD_range_map _ _ _ _ hp
  have hd : ∀ a b x, tapeDelta I (tapeFun I ((List.range I.numParties).map tape)) a b x = tapeDelta I tape a b x := by
    intro a b x
    unfold tapeDelta
    rw [List.map_congr_left fun p hp => by rw [hf p (List.mem_range.1 hp)]]
  have ev : v = c0.view F I pt rs R := Except.ok.inj (hv.symm.trans v0)
  have ev' := Except.ok.inj (hv.symm.trans s8)
  have k1 : c0.skDelta = tapeDelta I tape 0 I.aes.keySize sk := by
    rw [← hd]
    exact (congrArg RepView.keyDelta ev).symm.trans (congrArg RepView.keyDelta ev')
  have k2 : c0.tDelta = tapeDelta I tape I.aes.keySize I.aes.numSboxes (aesSave I.aes.keySize sk pt).2.2 := by
    rw [← hd, s1]
    exact (congrArg RepView.tDelta ev).symm.trans (congrArg RepView.tDelta ev')
  -- the parts of the bytes sent
  have r1 : ∀ x ∈ (List.range I.m1).map (c0.sumA F I pt rs R), Reduced I.lambda x := by rw [← hb]; exact allRed_range fun j hj => (Ctx.val_sumA I pt c0 rs R hR hj).1
  have r2 : ∀ x ∈ (List.range I.m1).map (c0.sumB F I R), Reduced I.lambda x := by rw [← hb]; exact allRed_range fun j hj => (Ctx.val_sumB I c0 R hR hj).1
  have r3 : ∀ x ∈ c0.pDelta, Reduced I.lambda x := by rw [← hb]; exact hon.fits.red
  rw [ev] at hs
  unfold RepView.sent Ctx.view Ctx.hash3 at hs
  dsimp only at hs
  have l1 : ((List.range I.m1).map (c0.sumA F I pt rs R)).length = I.m1 := by simp
  have l2 : ((List.range I.m1).map (c0.sumB F I R)).length = I.m1 := by simp
  generalize hA : (List.range I.m1).map (c0.sumA F I pt rs R) = A at *
  generalize hB : (List.range I.m1).map (c0.sumB F I R) = B at *
  have hu : (X (kindOf I.digestSize) (tapeInput (seedAt X root salt e (leafNode I.numParties m)) salt e m)).squeeze 0 I.tapeSize =
    c0.skDelta ++ c0.tDelta ++ c0.pDelta.flatMap (leDigits I.lambda) ++ A.flatMap (leDigits I.lambda) ++ B.flatMap (leDigits I.lambda) := hs.symm
  have f0 : (simProof X F I salt root e m).skDelta = c0.skDelta := by
    unfold simProof
    dsimp only
    rw [hu, List.append_assoc, List.append_assoc, List.append_assoc]
    exact slice_at (A := []) rfl hon.keyLen
  have f1 : (simProof X F I salt root e m).tDelta = c0.tDelta := by
    unfold simProof
    dsimp only
    rw [hu, List.append_assoc, List.append_assoc]
    exact slice_at hon.keyLen hon.tLen
  have f2 : (simProof X F I salt root e m).pDelta = c0.pDelta := by
    unfold simProof
    dsimp only
    rw [hu, List.append_assoc]
    exact elemsAt_flatMap r3 (by rw [List.length_append, hon.keyLen, hon.tLen]) hon.fits.len
  have lp := hon.fits.len
  have f3 : (simProof X F I salt root e m).sAtR = A := by
    unfold simProof
    dsimp only
    rw [hu]
    exact elemsAt_flatMap r1 (by rw [List.length_append, List.length_append, elements_length, hon.keyLen, hon.tLen, lp]) l1
  have f4 : (simProof X F I salt root e m).tAtR = B := by
    unfold simProof
    dsimp only
    rw [hu, ← List.append_nil (List.flatMap (leDigits I.lambda) B), ← List.append_assoc]
    refine elemsAt_flatMap r2 ?_ l2
    rw [List.length_append, List.length_append, List.length_append, elements_length, elements_length, hon.keyLen, hon.tLen, lp, l1]
    ring
  have f5 : (simProof X F I salt root e m).pAtR = c0.sumC F I rs R := by
    rw [hon.prod hI hrs hR, hA, hB, ← f3, ← f4]
    rfl
  refine ⟨k1.symm.trans f0.symm, k2.symm.trans f1.symm, fun c ct cs ctd cf => ?_⟩
  have e1 : c0.skDelta = c.skDelta := k1.trans cs.symm
  have e2 : c0.tDelta = c.tDelta := k2.trans ctd.symm
  have e4 : ∀ p < I.numParties, c0.tape p = c.tape p := fun p hp => by rw [t0, ct, hf p hp]
  have e3 : c0.pDelta = c.pDelta := fits_unique e1 e2 e4 hon.fits cf
  have := view_congr (F := F) e1 e2 e3 e4 pt rs R
  unfold Ctx.view Ctx.hash3 at this
  simp only [RepView.mk.injEq, Rep3.mk.injEq] at this
  obtain ⟨-, -, -, -, g1, -, g2, g3, -, -⟩ := this
  exact ⟨e3.symm.trans f2.symm, g1.symm.trans f5.symm, by rw [← g2, hA, f3], by rw [← g3, hB, f4]⟩

omit hb hI [FieldOk F] in
theorem phase2Expand_congr {X X' : Xof} {d : Bytes} (h : X' (kindOf I.digestSize) d = X (kindOf I.digestSize) d) (fuel : Nat) (l : List W64) : phase2Expand X' fuel F I d l = phase2Expand X fuel F I d l := by
  unfold phase2Expand
  rw [h]

omit hb hI in
theorem phase3Expand_congr {X X' : Xof} {d : Bytes} (h : X' (kindOf I.digestSize) d = X (kindOf I.digestSize) d) (fuel : Nat) : phase3Expand X' fuel I d = phase3Expand X fuel I d := by
  unfold phase3Expand phase3ExpandJ
  rw [h]

omit hb hI [FieldOk F] in
theorem phase1Expand_congr {X X' : Xof} {d : Bytes} (h : X' (kindOf I.digestSize) d = X (kindOf I.digestSize) d) : phase1Expand X' F I d = phase1Expand X F I d := by
  unfold phase1Expand
  rw [h]

/-- With the other tapes for the hidden parties and the three hashes, the signer makes the simulated signature. -/
theorem sim_sign {sk pk msg : Bytes} (hk : KeyPair I sk pk) {c fuel : Nat} {X X' : Xof} {salt : Bytes} {root : Nat → Bytes} (hroot : ∀ e, (root e).length = I.seedSize) {d1 d2 d3 : Bytes} {Rs : List W64} {ms : List Nat}
    (h2 : phase2Expand X fuel F I d2 (F.firstN I.m2) = .ok Rs) (h3 : phase3Expand X fuel I d3 = .ok ms) (hsalt : genSalt X' I sk pk msg = salt) (hseed : ∀ e < I.numRounds, genSeed X' I sk pk msg e = root e)
    (hS : SameOpen I salt root (fun e => ms.getD e 0) X X')
    (c1 : X' (kindOf I.digestSize) d1 = X (kindOf I.digestSize) d1) (c2 : X' (kindOf I.digestSize) d2 = X (kindOf I.digestSize) d2) (c3 : X' (kindOf I.digestSize) d3 = X (kindOf I.digestSize) d3)
    (i1 : digest X' I (simOut c X F I pk msg salt root d1 d2 d3 Rs ms).in1 = d1) (i2 : digest X' I (simOut c X F I pk msg salt root d1 d2 d3 Rs ms).in2 = d2)
    (i3 : digest X' I (simOut c X F I pk msg salt root d1 d2 d3 Rs ms).in3 = d3)
    (hT : ∀ e < I.numRounds, ∃ tree com v, repView F I sk (slice pk 0 I.ctSize) ((phase1Expand X F I d1).getD e []) (Rs.getD e 0) tree com
        ((List.range I.numParties).map fun p => genTape X' I.tapeSize (partySeed X' I salt (root e) e p) salt e p) = .ok v ∧
      v.sent I.lambda = (X (kindOf I.digestSize) (tapeInput (partySeed X I salt (root e) e (ms.getD e 0)) salt e (ms.getD e 0))).squeeze 0 I.tapeSize) :
    Fixed.signBy (fun salt h1 ds => digest X' I (Fixed.phase2InputN c F salt h1 ds)) X' fuel F I sk pk msg = .ok (simSig X F I salt root d1 d3 ms) ∧
    (simOut c X F I pk msg salt root d1 d2 d3 Rs ms).in1 = phase1Input I salt pk msg (verReps1 X' I (List.replicate I.seedSize 0) pk (simSig X F I salt root d1 d3 ms)) ∧
    (simOut c X F I pk msg salt root d1 d2 d3 Rs ms).in3 = phase3Input F I salt d2 (verReps3 X' F I (List.replicate I.seedSize 0) pk (simSig X F I salt root d1 d3 ms) Rs) := by
  obtain ⟨k1, k2, k3, k4⟩ := KeyPair.facts hI hk
  obtain ⟨Rl, hRs⟩ := phase2Expand_spec X fuel I _ _ Rs h2
  obtain ⟨ml, mlt⟩ := phase3Expand_spec X _ fuel I d3 ms h3
  have hmlt : ∀ e < I.numRounds, ms.getD e 0 < I.numParties := fun e he => by
    rw [getD_of_lt (by omega)]
    exact mlt _ (List.getElem_mem _)
  have hRr : ∀ e < I.numRounds, Reduced F.byteSize (Rs.getD e 0) := fun e he => by
    rw [getD_of_lt (by omega)]
    exact (hRs _ (List.getElem_mem _)).1
  obtain ⟨runs, hruns, hsign⟩ := Fixed.signBy_eq (F := F) hI (fun salt h1 ds => digest X' I (Fixed.phase2InputN c F salt h1 ds)) X' fuel sk pk msg k1 k2.ge k3
  rw [hsalt] at hsign
  have hrun := hruns.run
  have hct := hruns.ct
  have hfits := hruns.fits
  rw [hsalt] at hfits
  simp only [hsalt] at hrun hct
  have hrt : ∀ e < I.numRounds, (runs e).root = root e := fun e he => by
    rw [hrun e, ← hseed e he]
    rfl
  have hpr : ∀ e < I.numRounds, (simSig X F I salt root d1 d3 ms).proofs.getD e noProof = simProof X F I salt (root e) e (ms.getD e 0) := fun e he => by
    unfold simSig
    dsimp only
    rw [getD_range_map _ _ _ _ he]
  have hparts : ∀ e < I.numRounds, (runs e).skDelta = (simProof X F I salt (root e) e (ms.getD e 0)).skDelta ∧ (runs e).tDelta = (simProof X F I salt (root e) e (ms.getD e 0)).tDelta ∧
      (FitsDelta F I (slice pk 0 I.ctSize) ((runs e).ctx X' I salt e) ((phase1Expand X F I d1).getD e []) (runs e).pDelta →
        (runs e).proof X' F I (slice pk 0 I.ctSize) salt e ((phase1Expand X F I d1).getD e []) (Rs.getD e 0) (ms.getD e 0) = simProof X F I salt (root e) e (ms.getD e 0)) := by
    intro e he
    obtain ⟨tree, com, v, hv, hs⟩ := hT e he
    obtain ⟨a1, a2, a3⟩ := sim_parts (F := F) hI hb k1 k3 (phase1Expand_red X d1 e) (hRr e he) (fun p => squeeze_len _ _ _) hv hs
    have b1 : (runs e).skDelta = tapeDelta I (fun p => genTape X' I.tapeSize (partySeed X' I salt (root e) e p) salt e p) 0 I.aes.keySize sk := by
      rw [hrun e, hseed e he]
      rfl
    have b2 : (runs e).tDelta = tapeDelta I (fun p => genTape X' I.tapeSize (partySeed X' I salt (root e) e p) salt e p) I.aes.keySize I.aes.numSboxes
        (aesSave I.aes.keySize sk (slice pk 0 I.ctSize)).2.2 := by
      rw [hrun e, hseed e he]
      rfl
    refine ⟨b1.trans a1, b2.trans a2, fun hf => ?_⟩
    have hc : ((runs e).ctx X' I salt e).tape = fun p => genTape X' I.tapeSize (partySeed X' I salt (root e) e p) salt e p := by
      unfold Run.ctx
      dsimp only
      rw [hrt e he]
    obtain ⟨g1, g2, g3, g4⟩ := a3 ((runs e).ctx X' I salt e) hc b1 b2 hf
    unfold Run.proof
    rw [hrt e he, hS.reveal hI hroot e he _ (hmlt e he), g2, g3, g4]
    have hcom : (runs e).com X' I salt e (ms.getD e 0) = (simProof X F I salt (root e) e (ms.getD e 0)).cE := by
      unfold Run.com
      rw [hrt e he, hS.com' hI hroot e he _ (hmlt e he)]
      rfl
    rw [hcom, b1.trans a1, b2.trans a2, show (runs e).pDelta = _ from g1]
    rfl
  have hin1 : (simOut c X F I pk msg salt root d1 d2 d3 Rs ms).in1 =
      phase1Input I salt pk msg ((List.range I.numRounds).map fun e => ((runs e).ctx X' I salt e).hash1 I (slice pk 0 I.ctSize) ((runs e).com X' I salt e)) := by
    unfold simOut
    dsimp only
    congr 1
    unfold verReps1
    refine List.map_congr_left fun e he => ?_
    have he := List.mem_range.1 he
    dsimp only
    rw [hpr e he]
    exact hS.hash1 hI hroot (F := F) _ (slice pk 0 I.ctSize) _ e he (hmlt e he) (hrt e he) (hparts e he).1 (hparts e he).2.1 ((hct e).trans k4.symm)
  have H1 : proverH1 X' I salt pk msg runs = d1 := by
    rw [← i1, hin1]
    rfl
  rw [H1] at hfits
  rw [phase1Expand_congr c1] at hfits
  have hproof := fun e he => (hparts e he).2.2 (hfits e)
  have H2 : Fixed.proverH2By (fun salt h1 ds => digest X' I (Fixed.phase2InputN c F salt h1 ds)) I salt d1 runs = d2 := by
    rw [← i2]
    unfold Fixed.proverH2By simOut simSig digest
    dsimp only
    rw [List.map_map, List.map_congr_left fun e he => by
      show (runs e).pDelta = _
      exact congrArg Proof.pDelta (hproof e (List.mem_range.1 he))]
    rfl
  have hin3 : (simOut c X F I pk msg salt root d1 d2 d3 Rs ms).in3 =
      phase3Input F I salt d2 ((List.range I.numRounds).map fun e => ((runs e).ctx X' I salt e).hash3 F I (slice pk 0 I.ctSize) ((phase1Expand X F I d1).getD e []) (Rs.getD e 0)) := by
    unfold simOut
    dsimp only
    congr 1
    unfold verReps3
    refine List.map_congr_left fun e he => ?_
    have he := List.mem_range.1 he
    dsimp only
    rw [hpr e he]
    exact hS.hash3 hI hroot (F := F) _ (slice pk 0 I.ctSize) e he (hmlt e he) (hrt e he) _ _ (hproof e he)
  have H3 : proverH3 X' F I (slice pk 0 I.ctSize) salt d1 d2 runs Rs = d3 := by
    rw [← i3, hin3]
    unfold proverH3
    rw [phase1Expand_congr c1]
    rfl
  refine ⟨?_, ?_, ?_⟩
  · rw [hsign, H1, H2, phase2Expand_congr c2, h2]
    change (phase3Expand X' fuel I _).bind _ = _
    rw [H3, phase3Expand_congr c3, h3]
    change Except.ok _ = _
    congr 1
    unfold proverSig simSig
    rw [phase1Expand_congr c1, List.map_congr_left fun e he => hproof e (List.mem_range.1 he)]
  · rw [hin1]
    congr 1
    unfold verReps1
    refine List.map_congr_left fun e he => ?_
    have he := List.mem_range.1 he
    dsimp only
    rw [hpr e he, ← hproof e he]
    exact (Run.hash1_eq hI X' F _ salt _ _ (hruns.sized e) e _ _ (hmlt e he) ((hct e).trans k4.symm)).symm
  · rw [hin3]
    congr 1
    unfold verReps3
    refine List.map_congr_left fun e he => ?_
    have he := List.mem_range.1 he
    dsimp only
    rw [hpr e he, ← hproof e he]
    have := Run.hash3_eq hI X' F (slice pk 0 I.ctSize) salt (List.replicate I.seedSize 0) (hruns.sized e) e ((phase1Expand X F I d1).getD e []) (Rs.getD e 0) (hmlt e he)
    rw [show (simSig X F I salt root d1 d3 ms).h1 = d1 from rfl, phase1Expand_congr c1]
    exact this.symm

end

end Banquet
