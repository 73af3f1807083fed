import Verif.Proofs.AcceptHash
import Verif.Props.Maul

/-! C19: which signatures are accepted. -/

namespace Banquet.Props

open Spec FieldOk

/-- C19: a signature in the format of the instance is accepted exactly when the specification says so: all recomputed hashes match, with the broadcast and the shares of the hidden party
completing the ciphertext and the claimed values, and the product check holds in every repetition. -/
theorem C19_accepted (X : Xof) (fuel : Nat) (I : Instance) (hI : Consistent I) (F : FieldState) (hF : initExtensionField I.lambda = .ok F) (pk : Bytes) (hpk : 2 * I.ctSize ≤ pk.length) (msg : Bytes)
    (ms : List Nat) (sig : Signature) (wf : SigWF I ms sig) : verify X fuel I pk sig msg = .ok true ↔ Accepted X fuel F I pk msg sig := by
  obtain ⟨hok, hb, _⟩ := initExtensionField_ok hF
  obtain ⟨b1, b2, b3, b4⟩ := parties_bounds hI
  by_cases h3 : phase3Expand X fuel I sig.h3 = .ok (sig.proofs.map (·.reveal.missing))
  swap
  · refine ⟨fun h => ?_, fun ⟨_, _, _, _, _, _, h, _⟩ => absurd h h3⟩
    obtain ⟨_, hs, _⟩ := accepted1 X fuel I hI pk msg sig h
    obtain ⟨_, _, h', _⟩ := (verify_iff hI hF X fuel pk hpk sig hs msg).1 h
    exact absurd h' h3
  obtain ⟨hlen, hmN⟩ := phase3Expand_spec X _ fuel I _ _ h3
  rw [List.length_map] at hlen
  have hml : ms.length = I.numRounds := by rw [wf.proofs.length_eq, hlen]
  have hs := wf.shaped b4 hml
  have hwf := fun e (he : e < I.numRounds) => wf.get e (by omega)
  have hmiss : ∀ e < I.numRounds, (sig.proofs.getD e noProof).reveal.missing < I.numParties := fun e he => by
    refine hmN _ (List.mem_map_of_mem ?_)
    rw [getD_of_lt (by omega)]
    exact List.getElem_mem _
  have hzip : sig.proofs.zipIdx = (List.range I.numRounds).map fun e => (sig.proofs.getD e noProof, e) := by rw [zipIdx_eq _ noProof, hlen]
  have hpd : ∀ p ∈ sig.proofs, p.pDelta.length = I.m2 + 1 := fun p hp => by
    obtain ⟨i, hi, rfl⟩ := List.getElem_of_mem hp
    rw [← getD_of_lt (d := noProof)]
    exact (wf.get i hi).pDelta.1
  have h2 : verH2 X F I sig = digest X I (input2 I sig) := by
    unfold verH2 phase2Commit digest
    rw [input2_eq hb hpd]
  have hag := fun e (he : e < I.numRounds) => repOf_agree hI X (List.replicate I.seedSize 0) sig e ((shaped_facts hs).2.2.2.2 e he) (hmiss e he)
  -- completions of one repetition
  have hcomp : ∀ Rs, phase2Expand X fuel F I (verH2 X F I sig) (F.firstN I.m2) = .ok Rs → ∀ e < I.numRounds, ∀ bc c a b, _ := fun Rs hRs e he bc c a b =>
    completes_iff (F := F) hI hb (repOf_sized X sig e (hwf e he)) (by rw [hb]; exact (hwf e he).pDelta.2) (phase1Expand_red (I := I) X sig.h1 e)
      (by
        obtain ⟨hl, hr⟩ := phase2Expand_spec X fuel I _ _ Rs hRs
        have : e < Rs.length := by omega
        rw [show Rs.getD e 0 = Rs[e] from getD_of_lt this]
        exact (hr _ (List.getElem_mem this)).1 : Reduced F.byteSize (Rs.getD e 0))
      (hmiss e he) (slice pk 0 I.ctSize) (ct := slice pk I.ctSize I.ctSize) (slice_length (by omega)) (by rw [hb]; exact (hwf e he).pAtR) (by rw [hb]; exact (hwf e he).sAtR.2) (by rw [hb]; exact (hwf e he).tAtR.2) bc c a b
  rw [hb] at hcomp
  have hin1 : ∀ bc : Nat → Nat → Bytes, (∀ e < I.numRounds, ∀ p < I.numParties, bc e p = if p = (sig.proofs.getD e noProof).reveal.missing then
        (repOf X I sig e (sig.proofs.getD e noProof)).ctx.ctMissing I (slice pk 0 I.ctSize) (slice pk I.ctSize I.ctSize) (sig.proofs.getD e noProof).reveal.missing
        else ((repOf X I sig e (sig.proofs.getD e noProof)).ctx.out I (slice pk 0 I.ctSize) p).2) →
      phase1Commit X I sig.salt pk msg (verReps1 X I (List.replicate I.seedSize 0) pk sig) = digest X I (input1 X I pk msg sig bc) := fun bc hbc => by
    unfold phase1Commit digest
    refine congrArg (fun z => (X (kindOf I.digestSize) z).squeeze 0 I.digestSize) ?_
    unfold phase1Input input1 verReps1
    rw [hzip, List.flatMap_map, List.flatMap_map]
    refine congrArg (fun z => 1 :: (sig.salt ++ pk ++ msg ++ z)) (List.flatMap_congr fun e he => ?_)
    have he := List.mem_range.1 he
    dsimp only
    rw [(hag e he).verHash1]
    exact bytes1_eq X _ _ sig e _ _ _ (hbc e he)
  have hin3 : ∀ (Rs : List W64) (c : Nat → Nat → W64) (a b : Nat → Nat → Nat → W64), (∀ e < I.numRounds, ∃ bc, Completes I.lambda I (slice pk 0 I.ctSize) (slice pk I.ctSize I.ctSize)
        (repOf X I sig e (sig.proofs.getD e noProof)) (sig.proofs.getD e noProof).reveal.missing ((phase1Expand X F I sig.h1).getD e []) (Rs.getD e 0)
        (sig.proofs.getD e noProof).pAtR (sig.proofs.getD e noProof).sAtR (sig.proofs.getD e noProof).tAtR bc (c e) (a e) (b e)) → phase2Expand X fuel F I (verH2 X F I sig) (F.firstN I.m2) = .ok Rs →
      phase3Commit X F I sig.salt (verH2 X F I sig) (verReps3 X F I (List.replicate I.seedSize 0) pk sig Rs) = digest X I (input3 I sig (digest X I (input2 I sig)) c a b) := fun Rs c a b hall hRs => by
    unfold phase3Commit
    rw [← h2]
    unfold digest
    refine congrArg (fun z => (X (kindOf I.digestSize) z).squeeze 0 I.digestSize) ?_
    unfold phase3Input input3 verReps3
    rw [hzip, List.flatMap_map, List.flatMap_map]
    refine congrArg (fun z => 3 :: (sig.salt ++ verH2 X F I sig ++ z)) (List.flatMap_congr fun e he => ?_)
    have he := List.mem_range.1 he
    obtain ⟨bc, hco⟩ := hall e he
    obtain ⟨_, k2, k3, k4⟩ := (hcomp Rs hRs e he bc (c e) (a e) (b e)).1 hco
    dsimp only
    rw [(hag e he).verHash3]
    exact bytes3_eq hb _ _ _ _ _ _ _ _ _ k2 k3 k4
  have hprod : (∀ p ∈ sig.proofs, sumProducts F I p.sAtR p.tAtR = p.pAtR) ↔ ∀ pr ∈ sig.proofs, ∑ j ∈ Finset.range I.m1, val I.lambda (pr.sAtR.getD j 0) * val I.lambda (pr.tAtR.getD j 0) = val I.lambda pr.pAtR := by
    rw [← hb]
    refine forall₂_congr fun p hp => ?_
    obtain ⟨i, hi, rfl⟩ := List.getElem_of_mem hp
    have w := wf.get i hi
    rw [getD_of_lt hi] at w
    have r1 := w.pAtR
    have r2 := w.sAtR.2
    have r3 := w.tAtR.2
    rw [← hb] at r1 r2 r3
    have e : val F.byteSize (sumProducts F I sig.proofs[i].sAtR sig.proofs[i].tAtR) = ∑ j ∈ Finset.range I.m1, val F.byteSize (sig.proofs[i].sAtR.getD j 0) * val F.byteSize (sig.proofs[i].tAtR.getD j 0) := by
      unfold sumProducts
      rw [val_sum_range, val_zero, zero_add]
      refine Finset.sum_congr rfl fun j _ => val_mul (AllRed.getD (F := F) r2 j) (AllRed.getD (F := F) r3 j)
    rw [← e]
    exact ⟨fun h => by rw [h], fun h => val_inj (reduced_sum _ _ _ reduced_zero fun j _ => reduced_apply _) r1 h⟩
  rw [verify_iff hI hF X fuel pk hpk sig hs msg, hprod]
  have hmem : ∀ e pr, (pr, e) ∈ sig.proofs.zipIdx ↔ e < I.numRounds ∧ pr = sig.proofs.getD e noProof := fun e pr => by
    rw [hzip, List.mem_map]
    constructor
    · rintro ⟨x, hx, heq⟩
      obtain ⟨rfl, rfl⟩ := Prod.mk.inj heq
      exact ⟨List.mem_range.1 hx, rfl⟩
    · rintro ⟨he, rfl⟩
      exact ⟨e, List.mem_range.2 he, rfl⟩
  constructor
  · rintro ⟨Rs, k1, _, k3, k4, k5⟩
    have hex : ∀ e, ∃ bc c a b, e < I.numRounds → Completes I.lambda I (slice pk 0 I.ctSize) (slice pk I.ctSize I.ctSize) (repOf X I sig e (sig.proofs.getD e noProof))
        (sig.proofs.getD e noProof).reveal.missing ((phase1Expand X F I sig.h1).getD e []) (Rs.getD e 0) (sig.proofs.getD e noProof).pAtR (sig.proofs.getD e noProof).sAtR
        (sig.proofs.getD e noProof).tAtR bc c a b := fun e => by
      by_cases he : e < I.numRounds
      · exact ⟨_, _, _, _, fun _ => (hcomp Rs k1 e he _ _ _ _).2 ⟨fun p _ => rfl, fun p _ => rfl, fun p _ j _ => rfl, fun p _ j _ => rfl⟩⟩
      · exact ⟨fun _ => [], fun _ => 0, fun _ _ => 0, fun _ _ => 0, fun h => absurd h he⟩
    choose bc c a b hall using hex
    refine ⟨Rs, bc, c, a, b, by rw [← h2]; exact k1, h3, fun e pr he => ?_, ?_, ?_, k5⟩
    · obtain ⟨he', rfl⟩ := (hmem e pr).1 he
      exact hall e he'
    · rw [← hin1 bc fun e he => ((hcomp Rs k1 e he _ _ _ _).1 (hall e he)).1]
      exact k3.symm
    · rw [← hin3 Rs c a b (fun e he => ⟨_, hall e he⟩) k1]
      exact k4.symm
  · rintro ⟨Rs, bc, c, a, b, k1, _, k3, k4, k5, k6⟩
    rw [← h2] at k1
    have hall := fun e (he : e < I.numRounds) => k3 e _ ((hmem e _).2 ⟨he, rfl⟩)
    refine ⟨Rs, k1, h3, ?_, ?_, k6⟩
    · rw [k4]
      exact hin1 _ fun e he => ((hcomp Rs k1 e he _ _ _ _).1 (hall e he)).1
    · rw [k5]
      exact hin3 Rs _ _ _ (fun e he => ⟨_, hall e he⟩) k1

/-- C19, for byte strings: a string that is decoded to a signature is accepted exactly when the specification says so for that signature. -/
theorem C19_decoded (X : Xof) (fuel : Nat) (I : Instance) (hI : Consistent I) (F : FieldState) (hF : initExtensionField I.lambda = .ok F) (pk : Bytes) (hpk : 2 * I.ctSize ≤ pk.length) (msg bs : Bytes)
    (sig : Signature) (h : deserialize X fuel F I bs = .ok sig) : verify X fuel I pk sig msg = .ok true ↔ Accepted X fuel F I pk msg sig := by
  obtain ⟨hok, hb, _⟩ := initExtensionField_ok hF
  unfold deserialize at h
  cases hd : deserializeRest X fuel F I bs with
  | error e =>
    rw [hd] at h
    cases h
  | ok r =>
    rw [hd] at h
    obtain ⟨ms, _, wf, _⟩ := (deserializeRest_iff X fuel hb (parties_bounds hI).2.2.2 (s := r.1) (r := r.2)).1 hd
    cases h
    exact C19_accepted X fuel I hI F hF pk hpk msg ms _ wf

/-- The signature of the test key is accepted by the specification, and no longer after its first hash is replaced. -/
example : ∃ F sig, initExtensionField smallInstance.lambda = .ok F ∧ SigWF smallInstance [0] sig ∧ Accepted twosXof 1 F smallInstance katPk [5] sig ∧
    ¬Accepted twosXof 1 F smallInstance katPk [5] { sig with h1 := List.replicate 32 0 } := by
  obtain ⟨F, hF⟩ := init_supported small_consistent.lambda
  obtain ⟨sig, _, wf, hv⟩ := kat_signs_zero [5]
  refine ⟨F, sig, hF, wf, (C19_accepted twosXof 1 smallInstance small_consistent F hF katPk (by decide) [5] [0] sig wf).1 hv, fun ⟨_, bc, _, _, _, _, _, _, h, _⟩ => ?_⟩
  have h' : List.replicate 32 (0 : Byte) = List.replicate 32 2 := h.trans rfl
  exact absurd h' (by decide)

end Banquet.Props
