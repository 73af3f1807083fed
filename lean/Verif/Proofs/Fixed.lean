import Verif.Model.Fixed
import Verif.Spec.Grind
import Verif.Props.Challenge

/-! The proofs about sign and verify, repeated for the changed code. In this namespace `phase2Commit`, `signWith`, `verifyWith` and so on are those of `Model/Fixed`. -/

namespace Banquet.Fixed

open Polynomial Spec FieldOk Spec.Aes Props

section
variable {I : Instance} (hI : Consistent I) (F : FieldState)
include hI

/-- `h_2` recomputed by the verifier. -/
def verH2 (X : Xof) (F : FieldState) (I : Instance) (sig : Signature) : Bytes := phase2Commit X F I sig.salt sig.h1 (sig.proofs.map (·.pDelta))

/-- The result of verification in closed form. -/
theorem verifyWith_eq [hF : FieldOk F] (X : Xof) (dummy : Bytes) (hd : dummy.length = I.seedSize) (fuel : Nat) (pk : Bytes) (hpk : 2 * I.ctSize ≤ pk.length) (sig : Signature)
    (hs : sig.shaped I = true) (msg : Bytes) :
    verifyWith X dummy fuel F I pk sig msg =
      (phase2Expand X fuel F I (verH2 X F I sig) (F.firstN I.m2)).bind fun Rs =>
      (phase3Expand X fuel I sig.h3).bind fun missing =>
      if missing = sig.proofs.map (·.reveal.missing) then
        .ok (decide (phase1Commit X I sig.salt pk msg (verReps1 X I dummy pk sig) = sig.h1) &&
          decide (phase3Commit X F I sig.salt (verH2 X F I sig) (verReps3 X F I dummy pk sig Rs) = sig.h3) &&
          sig.proofs.all fun p => decide (sumProducts F I p.sAtR p.tAtR = p.pAtR))
      else .error .thrown := by
  obtain ⟨hs1, hs2, hs3, hs4, hs5⟩ := shaped_facts hs
  unfold verifyWith verifyBy
  rw [checkAes_ok hI, ok_bind, decide_eq_true ⟨hpk, hI.sboxes.le⟩, require_true, ok_bind, hs, require_true, ok_bind]
  dsimp only
  change (phase2Expand X fuel F I (verH2 X F I sig) (F.firstN I.m2)).bind _ = _
  cases hR : phase2Expand X fuel F I (verH2 X F I sig) (F.firstN I.m2) with
  | error e => rfl
  | ok Rs =>
  obtain ⟨Rl, _⟩ := phase2Expand_spec X fuel I _ _ Rs hR
  change (phase3Expand X fuel I sig.h3).bind _ = (phase3Expand X fuel I sig.h3).bind _
  cases hm : phase3Expand X fuel I sig.h3 with
  | error e => rfl
  | ok missing =>
  obtain ⟨ml, mlt⟩ := phase3Expand_spec X _ fuel I sig.h3 missing hm
  change (((List.zip missing sig.proofs).zipIdx.mapM fun x => verRep1 X dummy I (slice pk 0 I.ctSize) (slice pk I.ctSize I.ctSize) sig.salt x.1.2 x.1.1 x.2) >>= _) =
    (if missing = sig.proofs.map (·.reveal.missing) then _ else _)
  have hzip : List.zip missing sig.proofs = (List.range I.numRounds).map fun e => (missing.getD e 0, sig.proofs.getD e noProof) := by
    rw [← zip_range, ← eq_range_map missing _ _ ml, ← eq_range_map sig.proofs _ _ hs4]
  have hidx : (List.zip missing sig.proofs).zipIdx = (List.range I.numRounds).map fun e => ((missing.getD e 0, sig.proofs.getD e noProof), e) := by
    rw [hzip, zipIdx_range_map]
  have hmlt : ∀ e < I.numRounds, missing.getD e 0 < I.numParties := fun e he => by
    rw [getD_of_lt (by omega)]
    exact mlt _ (List.getElem_mem _)
  rw [mapM_if _ _ (fun x => x.1.1 = x.1.2.reveal.missing)
    (fun x => verOut1 X I dummy (slice pk 0 I.ctSize) (slice pk I.ctSize I.ctSize) sig.salt x.1.2 x.1.1 x.2) .thrown (fun x hx => by
    rw [hidx] at hx
    obtain ⟨e, he, rfl⟩ := List.mem_map.1 hx
    have he := List.mem_range.1 he
    exact verRep1_eq hI X dummy hd (slice pk 0 I.ctSize) (slice pk I.ctSize I.ctSize) sig.salt _ (hs5 e he) _ e (hmlt e he))]
  by_cases hmiss : missing = sig.proofs.map (·.reveal.missing)
  swap
  · rw [if_neg hmiss, if_neg]
    · rfl
    · intro hall
      refine hmiss ?_
      rw [hidx] at hall
      refine ext_getD 0 ml (by rw [List.length_map, hs4]) fun e he => ?_
      have := hall _ (List.mem_map_of_mem (List.mem_range.2 he))
      dsimp only at this
      rw [this, getD_of_lt (by omega), getD_of_lt (by rw [List.length_map]; omega), List.getElem_map]
  rw [if_pos hmiss, if_pos (by
    intro x hx
    rw [hidx] at hx
    obtain ⟨e, he, rfl⟩ := List.mem_map.1 hx
    have he := List.mem_range.1 he
    dsimp only
    rw [hmiss, getD_of_lt (by rw [List.length_map]; omega), getD_of_lt (by omega), List.getElem_map]), ok_bind]
  have hme : ∀ e < I.numRounds, missing.getD e 0 = (sig.proofs.getD e noProof).reveal.missing := fun e he => by
    rw [hmiss, getD_of_lt (by rw [List.length_map]; omega), getD_of_lt (by omega), List.getElem_map]
  rw [hidx, List.map_map]
  have hrss : phase1Expand X F I sig.h1 = (List.range I.numRounds).map fun e => (phase1Expand X F I sig.h1).getD e [] :=
    eq_range_map _ _ _ (by unfold phase1Expand; simp)
  have hz3 : ∀ reps1 : Nat → VerRep1, List.zip missing (List.zip sig.proofs (List.zip (phase1Expand X F I sig.h1) (List.zip Rs ((List.range I.numRounds).map reps1)))) =
      (List.range I.numRounds).map fun e => (missing.getD e 0, sig.proofs.getD e noProof, (phase1Expand X F I sig.h1).getD e [], Rs.getD e 0, reps1 e) := by
    intro reps1
    rw [← zip_range, ← zip_range, ← zip_range, ← zip_range, ← hrss, ← eq_range_map missing _ _ ml, ← eq_range_map sig.proofs _ _ hs4, ← eq_range_map Rs _ _ Rl]
  rw [hz3]
  have hmap : ∀ (g : Nat → Nat × Proof × List W64 × W64 × VerRep1), (∀ e < I.numRounds, (g e).1 = (sig.proofs.getD e noProof).reveal.missing ∧ (g e).2.1 = sig.proofs.getD e noProof ∧
      verRep3 F I (precomp F I) (g e).2.1 (g e).1 (g e).2.2.1 (g e).2.2.2.1 (g e).2.2.2.2 = .ok ((verReps3 X F I dummy pk sig Rs).getD e ⟨0, [], [], [], [], []⟩)) →
      (((List.range I.numRounds).map g).mapM fun x => verRep3 F I (precomp F I) x.2.1 x.1 x.2.2.1 x.2.2.2.1 x.2.2.2.2) = .ok (verReps3 X F I dummy pk sig Rs) := by
    intro g hg
    rw [List.mapM_map]
    refine (mapM_ok _ _ _ (fun e he => (hg e (List.mem_range.1 he)).2.2)).trans ?_
    rw [← eq_range_map _ _ _ (by unfold verReps3; simp)]
  refine Eq.trans (congrArg (· >>= _) (hmap _ ?_)) ?_
  · intro e he
    refine ⟨hme e he, rfl, ?_⟩
    unfold verReps3
    rw [getD_range_map _ _ _ _ he, hme e he]
    exact verRep3_eq F I _ (verCtx X I dummy sig.salt e _) _ _ _ rfl _ _ rfl rfl rfl
  · rw [ok_bind]
    congr 4
    congr 1
    have hzp : ∀ f : Nat → VerRep1, List.zip sig.proofs ((List.range I.numRounds).map f) = (List.range I.numRounds).map fun e => (sig.proofs.getD e noProof, f e) := by
      intro f
      rw [← zip_range, ← eq_range_map sig.proofs _ _ hs4]
    rw [hzp, List.map_map]
    congr 1
    apply List.map_congr_left
    intro e he
    dsimp only [Function.comp]
    rw [hme e (List.mem_range.1 he)]
    rfl

end

section
variable {I : Instance} (hI : Consistent I) (X : Xof) (F : FieldState) (pt salt : Bytes)
include hI

/-- The second hash of the prover. -/
def proverH2 (X : Xof) (F : FieldState) (I : Instance) (salt h1 : Bytes) (runs : Nat → Run) : Bytes :=
  phase2Commit X F I salt h1 ((List.range I.numRounds).map fun e => (runs e).pDelta)

/-- A prover whose broadcasts add up to the ciphertext and whose values at `R` satisfy the product relation convinces the verifier. -/
theorem prover_accepted [hF : FieldOk F] (dummy : Bytes) (hd : dummy.length = I.seedSize) (fuel : Nat) (pk : Bytes) (hpk : 2 * I.ctSize ≤ pk.length) (msg : Bytes) (hsalt : salt.length = 32)
    (runs : Nat → Run) (hr : ∀ e < I.numRounds, (runs e).Sized I) (h1 h2 h3 : Bytes) (Rs : List W64) (ms : List Nat)
    (e1 : proverH1 X I salt pk msg runs = h1) (e2 : proverH2 X F I salt h1 runs = h2) (e3 : proverH3 X F I (slice pk 0 I.ctSize) salt h1 h2 runs Rs = h3)
    (hRs : phase2Expand X fuel F I h2 (F.firstN I.m2) = .ok Rs) (hms : phase3Expand X fuel I h3 = .ok ms)
    (hct : ∀ e < I.numRounds, xorOf I.ctSize ((List.range I.numParties).map fun p => (((runs e).ctx X I salt e).out I (slice pk 0 I.ctSize) p).2) = slice pk I.ctSize I.ctSize)
    (hprod : ∀ e < I.numRounds, sumProducts F I ((List.range I.m1).map (((runs e).ctx X I salt e).sumA F I (slice pk 0 I.ctSize) ((phase1Expand X F I h1).getD e []) (Rs.getD e 0)))
      ((List.range I.m1).map (((runs e).ctx X I salt e).sumB F I (Rs.getD e 0))) = ((runs e).ctx X I salt e).sumC F I ((phase1Expand X F I h1).getD e []) (Rs.getD e 0)) :
    verifyWith X dummy fuel F I pk (proverSig X F I (slice pk 0 I.ctSize) salt h1 h3 runs Rs ms) msg = .ok true := by
  obtain ⟨ml, mlt⟩ := phase3Expand_spec X _ fuel I h3 ms hms
  have hmlt : ∀ e < I.numRounds, ms.getD e 0 < I.numParties := fun e he => by
    rw [getD_of_lt (by omega)]
    exact mlt _ (List.getElem_mem _)
  have hs : (proverSig X F I (slice pk 0 I.ctSize) salt h1 h3 runs Rs ms).shaped I = true := by
    unfold Signature.shaped proverSig
    simp only [Bool.and_eq_true, decide_eq_true_eq, List.all_eq_true, List.length_map, List.length_range]
    refine ⟨⟨⟨⟨hsalt, ?_⟩, ?_⟩, trivial⟩, ?_⟩
    · rw [← e1]; unfold proverH1 phase1Commit; exact squeeze_len _ _ _
    · rw [← e3]; unfold proverH3 phase3Commit; exact squeeze_len _ _ _
    · intro p hp
      obtain ⟨e, he, rfl⟩ := List.mem_map.1 hp
      exact Run.proof_shaped hI X F _ _ (hr e (List.mem_range.1 he)) _ _ _ _
  rw [verifyWith_eq hI F X dummy hd fuel pk hpk _ hs msg]
  have hh2 : verH2 X F I (proverSig X F I (slice pk 0 I.ctSize) salt h1 h3 runs Rs ms) = h2 := by
    rw [← e2]
    unfold verH2 proverH2 proverSig
    dsimp only
    rw [List.map_map]
    rfl
  have hpr : ∀ e < I.numRounds, (proverSig X F I (slice pk 0 I.ctSize) salt h1 h3 runs Rs ms).proofs.getD e noProof =
      (runs e).proof X F I (slice pk 0 I.ctSize) salt e ((phase1Expand X F I h1).getD e []) (Rs.getD e 0) (ms.getD e 0) := fun e he => by
    unfold proverSig
    rw [getD_range_map _ _ _ _ he]
  rw [hh2, hRs]
  change (phase3Expand X fuel I h3).bind _ = _
  rw [hms]
  change (if ms = _ then _ else _) = _
  rw [if_pos ?_]
  · congr 1
    simp only [Bool.and_eq_true, decide_eq_true_eq, List.all_eq_true]
    refine ⟨⟨?_, ?_⟩, ?_⟩
    · change phase1Commit X I salt pk msg _ = h1
      refine Eq.trans ?_ e1
      unfold proverH1 verReps1
      congr 1
      apply List.map_congr_left
      intro e he
      have he := List.mem_range.1 he
      dsimp only
      rw [hpr e he]
      exact Run.hash1_eq hI X F _ salt dummy _ (hr e he) e _ _ (hmlt e he) (hct e he)
    · change phase3Commit X F I salt h2 _ = h3
      refine Eq.trans ?_ e3
      unfold proverH3 verReps3
      congr 1
      apply List.map_congr_left
      intro e he
      have he := List.mem_range.1 he
      dsimp only
      rw [hpr e he]
      exact Run.hash3_eq hI X F _ salt dummy (hr e he) e _ _ (hmlt e he)
    · intro p hp
      obtain ⟨e, he, rfl⟩ := List.mem_map.1 hp
      exact hprod e (List.mem_range.1 he)
  · unfold proverSig
    dsimp only
    rw [List.map_map]
    exact eq_range_map ms _ _ ml

end

section
variable {I : Instance} (hI : Consistent I)
include hI

/-- The second hash of a prover, for any function in place of `phase_2_commitment`. -/
def proverH2By (commit2 : Bytes → Bytes → List (List W64) → Bytes) (I : Instance) (salt h1 : Bytes) (runs : Nat → Run) : Bytes := commit2 salt h1 ((List.range I.numRounds).map fun e => (runs e).pDelta)

/-- `signBy` for a usable key: a prover with `SignerRuns`. -/
theorem signBy_eq {F : FieldState} [hF : FieldOk F] (commit2 : Bytes → Bytes → List (List W64) → Bytes) (X : Xof) (fuel : Nat) (sk pk msg : Bytes) (hsk : sk.length = I.aes.keySize) (hpk : 2 * I.ctSize ≤ pk.length)
    (h0 : 0 ∉ sboxInputs (I.aes.keySize / 4) I.aes.numBlocks sk (slice pk 0 I.ctSize)) : ∃ runs : Nat → Run, SignerRuns X F I sk pk msg runs ∧
    signBy commit2 X fuel F I sk pk msg =
      (phase2Expand X fuel F I (proverH2By commit2 I (genSalt X I sk pk msg) (proverH1 X I (genSalt X I sk pk msg) pk msg runs) runs) (F.firstN I.m2)).bind fun Rs =>
      (phase3Expand X fuel I (proverH3 X F I (slice pk 0 I.ctSize) (genSalt X I sk pk msg) (proverH1 X I (genSalt X I sk pk msg) pk msg runs)
        (proverH2By commit2 I (genSalt X I sk pk msg) (proverH1 X I (genSalt X I sk pk msg) pk msg runs) runs) runs Rs)).bind fun ms =>
      .ok (proverSig X F I (slice pk 0 I.ctSize) (genSalt X I sk pk msg) (proverH1 X I (genSalt X I sk pk msg) pk msg runs)
        (proverH3 X F I (slice pk 0 I.ctSize) (genSalt X I sk pk msg) (proverH1 X I (genSalt X I sk pk msg) pk msg runs)
          (proverH2By commit2 I (genSalt X I sk pk msg) (proverH1 X I (genSalt X I sk pk msg) pk msg runs) runs) runs Rs) runs Rs ms) := by
  have hN : 0 < I.numParties := by have := (parties_bounds hI).1; omega
  obtain ⟨saved, es, hsl, hparty, hmul⟩ := saved_facts hI sk (slice pk 0 I.ctSize) h0
  generalize hsalt : genSalt X I sk pk msg = salt
  generalize hpt : slice pk 0 I.ctSize = pt at *
  have hroot : ∀ e, (genSeed X I sk pk msg e).length = I.seedSize := fun e => squeeze_len _ _ _
  -- first phase
  choose tree htree hrep1 using fun e => signRep1_ok hI X sk pt salt (genSeed X I sk pk msg e) e saved.2 (hroot e) []
  obtain ⟨R1, hR1, t1, t2, t3, t4, t5, t6, t7, t8⟩ : ∃ R1 : Nat → SignRep1, (∀ e, signRep1 X I sk pt saved.2 salt (genSeed X I sk pk msg e) e = .ok (R1 e)) ∧ (∀ e, (R1 e).tree = tree e) ∧
      (∀ e, (R1 e).tapes = (List.range I.numParties).map ((signRun X I sk saved.2 salt (genSeed X I sk pk msg e) e []).ctx X I salt e).tape) ∧
      (∀ e, (R1 e).commitments = (List.range I.numParties).map ((signRun X I sk saved.2 salt (genSeed X I sk pk msg e) e []).com X I salt e)) ∧
      (∀ e, (R1 e).keyDelta = (signRun X I sk saved.2 salt (genSeed X I sk pk msg e) e []).skDelta) ∧ (∀ e, (R1 e).tDelta = (signRun X I sk saved.2 salt (genSeed X I sk pk msg e) e []).tDelta) ∧
      (∀ e, (R1 e).tShares = (List.range I.numParties).map (((signRun X I sk saved.2 salt (genSeed X I sk pk msg e) e []).ctx X I salt e).t I)) ∧
      (∀ e, (R1 e).sShares = (List.range I.numParties).map fun p => (((signRun X I sk saved.2 salt (genSeed X I sk pk msg e) e []).ctx X I salt e).out I pt p).1) ∧
      (∀ e, (R1 e).ctShares = (List.range I.numParties).map fun p => (((signRun X I sk saved.2 salt (genSeed X I sk pk msg e) e []).ctx X I salt e).out I pt p).2) :=
    ⟨_, hrep1, fun _ => rfl, fun _ => rfl, fun _ => rfl, fun _ => rfl, fun _ => rfl, fun _ => rfl, fun _ => rfl, fun _ => rfl⟩
  clear hrep1
  have hsums := fun e d => honest_sums hI X sk saved.2 pt salt (genSeed X I sk pk msg e) e d hsk hsl
  rw [hparty] at hsums
  have hsA : ∀ e d, ∀ i < I.m1 * I.m2, ((signRun X I sk saved.2 salt (genSeed X I sk pk msg e) e d).ctx X I salt e).sAll I pt i = saved.1.getD i 0 := by
    intro e d i hi
    rw [hI.sboxes] at hi
    rw [← (hsums e d).2.1, getD_xorOf _ _ hi]
    rfl
  have htA : ∀ e d, ∀ i < I.m1 * I.m2, ((signRun X I sk saved.2 salt (genSeed X I sk pk msg e) e d).ctx X I salt e).tAll I i = saved.2.getD i 0 := by
    intro e d i hi
    rw [hI.sboxes] at hi
    refine Eq.trans ?_ (congrArg (fun l => List.getD l i 0) (hsums e d).1)
    rw [getD_xorOf _ _ hi]
    rfl
  -- second phase
  obtain ⟨lastSq, hlast, vlast⟩ := (isVec_last (F := F) I).mul (isVec_last I)
  choose st sl tl hprods hvec using fun j => signProducts_ok (F := F) I hI.points saved j
  generalize hh1 : phase1Commit X I salt pk msg ((List.range I.numRounds).map fun e => ((signRun X I sk saved.2 salt (genSeed X I sk pk msg e) e []).ctx X I salt e).hash1 I pt
    ((signRun X I sk saved.2 salt (genSeed X I sk pk msg e) e []).com X I salt e)) = h1
  choose d hfit hrep2 using fun e => signRep2_ok (F := F) (I := I) (pt := pt) (saved := saved) (rs := (phase1Expand X F I h1).getD e []) hI.points (phase1Expand_red X h1 e) (hsA e []) (htA e []) vlast
    (prods := (List.range I.m1).map fun j => (st j, sl j, tl j)) (fun j hj => by
      rw [getD_range_map _ _ _ _ hj]
      exact hvec j) (R1 e) (t2 e) (t6 e) (t7 e)
  obtain ⟨R2, hR2, u1, u2, u3, u4⟩ : ∃ R2 : Nat → SignRep2, (∀ e, signRep2 F I (precomp F I) lastSq ((List.range I.m1).map fun j => (st j, sl j, tl j)) ((phase1Expand X F I h1).getD e []) (R1 e) = .ok (R2 e)) ∧
      (∀ e, (R2 e).sP = (List.range I.numParties).map (((signRun X I sk saved.2 salt (genSeed X I sk pk msg e) e (d e)).ctx X I salt e).sPts F I pt ((phase1Expand X F I h1).getD e []))) ∧
      (∀ e, (R2 e).tP = (List.range I.numParties).map (((signRun X I sk saved.2 salt (genSeed X I sk pk msg e) e (d e)).ctx X I salt e).tPts F I)) ∧
      (∀ e, (R2 e).pShares = (List.range I.numParties).map (((signRun X I sk saved.2 salt (genSeed X I sk pk msg e) e (d e)).ctx X I salt e).pPts F I ((phase1Expand X F I h1).getD e []))) ∧
      (∀ e, (R2 e).pDelta = d e) := ⟨_, hrep2, fun _ => rfl, fun _ => rfl, fun _ => rfl, fun _ => rfl⟩
  clear hrep2
  have e1 : proverH1 X I salt pk msg (fun e => signRun X I sk saved.2 salt (genSeed X I sk pk msg e) e (d e)) = h1 := by
    rw [← hh1]
    unfold proverH1
    rw [hpt]
    rfl
  have hprod : ∀ e R, Reduced F.byteSize R → sumProducts F I
      ((List.range I.m1).map (((signRun X I sk saved.2 salt (genSeed X I sk pk msg e) e (d e)).ctx X I salt e).sumA F I pt ((phase1Expand X F I h1).getD e []) R))
      ((List.range I.m1).map (((signRun X I sk saved.2 salt (genSeed X I sk pk msg e) e (d e)).ctx X I salt e).sumB F I R)) =
      ((signRun X I sk saved.2 salt (genSeed X I sk pk msg e) e (d e)).ctx X I salt e).sumC F I ((phase1Expand X F I h1).getD e []) R := by
    intro e R hR
    rw [Ctx.sumProducts_iff _ _ _ _ _ hR (phase1Expand_red X h1 e) (hfit e).red]
    have := honest_poly (F := F) (I := I) (pt := pt) (c := (signRun X I sk saved.2 salt (genSeed X I sk pk msg e) e (d e)).ctx X I salt e) (rs := (phase1Expand X F I h1).getD e []) hI.points hN
      (phase1Expand_red X h1 e) ⟨(hfit e).len, (hfit e).red, (hfit e).vals⟩ (fun i hi => by
        rw [hsA e _ i hi, htA e _ i hi]
        exact hmul i (by rwa [hI.sboxes] at hi))
    exact congrArg (fun P => P.eval (val F.byteSize R)) this
  refine ⟨fun e => signRun X I sk saved.2 salt (genSeed X I sk pk msg e) e (d e), ⟨?_, ?_, ?_, ?_, ?_, ?_⟩, ?_⟩
  · intro e
    rw [hpt, es, hsalt]
    rfl
  · intro e
    exact ⟨hroot e, signDelta_length X salt _ e _ _ _ hsk fun p => (tape_facts X salt _ e p).1, signDelta_length X salt _ e _ _ _ hsl fun p => (tape_facts X salt _ e p).2, (hfit e).len⟩
  · exact fun e => (hfit e).red
  · intro e
    rw [hpt, hsalt]
    exact (hsums e (d e)).2.2
  · intro e R hR
    rw [hpt, hsalt, e1]
    exact hprod e R hR
  · intro e
    rw [hpt, hsalt, e1]
    exact ⟨(hfit e).len, (hfit e).red, (hfit e).vals⟩
  · rw [e1]
    unfold signBy
    rw [checkAes_ok hI, ok_bind, decide_eq_true ⟨hsk, hpk⟩, require_true, ok_bind]
    dsimp only
    rw [hpt, es, decide_eq_true ⟨hsl, hI.sboxes.le⟩, require_true, ok_bind, hsalt, mapM_ok _ _ R1 fun e _ => hR1 e, ok_bind]
    have c1 : phase1Commit X I salt pk msg (((List.range I.numRounds).map R1).map fun r => ⟨r.commitments, r.ctShares, r.keyDelta, r.tDelta⟩) = h1 := by
      rw [← hh1, List.map_map]
      congr 1
      apply List.map_congr_left
      intro e _
      dsimp only [Function.comp]
      rw [t3, t4, t5, t8]
      rfl
    rw [c1, hlast, ok_bind, mapM_ok _ _ (fun j => (st j, sl j, tl j)) fun j _ => hprods j, ok_bind]
    have z1 : List.zip (phase1Expand X F I h1) ((List.range I.numRounds).map R1) = (List.range I.numRounds).map fun e => ((phase1Expand X F I h1).getD e [], R1 e) := by
      rw [← zip_range, ← eq_range_map (phase1Expand X F I h1) I.numRounds [] (by unfold phase1Expand; simp)]
    have m2 : (List.zip (phase1Expand X F I h1) ((List.range I.numRounds).map R1)).mapM (fun x => signRep2 F I (precomp F I) lastSq ((List.range I.m1).map fun j => (st j, sl j, tl j)) x.1 x.2) =
        .ok ((List.range I.numRounds).map R2) := by
      rw [z1, List.mapM_map]
      exact mapM_ok _ _ R2 fun e _ => hR2 e
    rw [m2, ok_bind, List.map_map]
    have c2 : commit2 salt h1 ((List.range I.numRounds).map ((fun r : SignRep2 => r.pDelta) ∘ R2)) =
        proverH2By commit2 I salt h1 (fun e => signRun X I sk saved.2 salt (genSeed X I sk pk msg e) e (d e)) := by
      unfold proverH2By
      congr 1
      apply List.map_congr_left
      intro e _
      exact u4 e
    rw [c2]
    generalize proverH2By commit2 I salt h1 (fun e => signRun X I sk saved.2 salt (genSeed X I sk pk msg e) e (d e)) = h2
    cases hRs : phase2Expand X fuel F I h2 (F.firstN I.m2) with
    | error e => rfl
    | ok Rs =>
    obtain ⟨Rl, hRr⟩ := phase2Expand_spec X fuel I _ _ Rs hRs
    rw [ok_bind]
    change _ = (phase3Expand X fuel I (proverH3 X F I pt salt h1 h2 (fun e => signRun X I sk saved.2 salt (genSeed X I sk pk msg e) e (d e)) Rs)).bind _
    have z3 : List.zip Rs ((List.range I.numRounds).map R2) = (List.range I.numRounds).map fun e => (Rs.getD e 0, R2 e) := by
      rw [← zip_range, ← eq_range_map Rs I.numRounds 0 Rl]
    have m3 : (List.zip Rs ((List.range I.numRounds).map R2)).mapM (fun x => signRep3 F I (precomp F I) x.1 x.2) = .ok ((List.range I.numRounds).map fun e =>
        ((signRun X I sk saved.2 salt (genSeed X I sk pk msg e) e (d e)).ctx X I salt e).hash3 F I pt ((phase1Expand X F I h1).getD e []) (Rs.getD e 0)) := by
      rw [z3, List.mapM_map]
      exact mapM_ok _ _ _ fun e _ => signRep3_ok (Rs.getD e 0) (R2 e) (u1 e) (u2 e) (u3 e)
    have c3 : phase3Commit X F I salt h2 ((List.range I.numRounds).map fun e =>
        ((signRun X I sk saved.2 salt (genSeed X I sk pk msg e) e (d e)).ctx X I salt e).hash3 F I pt ((phase1Expand X F I h1).getD e []) (Rs.getD e 0)) =
        proverH3 X F I pt salt h1 h2 (fun e => signRun X I sk saved.2 salt (genSeed X I sk pk msg e) e (d e)) Rs := rfl
    rw [m3, ok_bind, c3]
    generalize proverH3 X F I pt salt h1 h2 (fun e => signRun X I sk saved.2 salt (genSeed X I sk pk msg e) e (d e)) Rs = h3
    cases hms : phase3Expand X fuel I h3 with
    | error e => rfl
    | ok ms =>
    obtain ⟨ml, mlt⟩ := phase3Expand_spec X _ fuel I h3 ms hms
    have z4 : List.zip ms (List.zip ((List.range I.numRounds).map R1) (List.zip ((List.range I.numRounds).map R2) ((List.range I.numRounds).map fun e =>
        ((signRun X I sk saved.2 salt (genSeed X I sk pk msg e) e (d e)).ctx X I salt e).hash3 F I pt ((phase1Expand X F I h1).getD e []) (Rs.getD e 0)))) =
        (List.range I.numRounds).map fun e => (ms.getD e 0, R1 e, R2 e,
          ((signRun X I sk saved.2 salt (genSeed X I sk pk msg e) e (d e)).ctx X I salt e).hash3 F I pt ((phase1Expand X F I h1).getD e []) (Rs.getD e 0)) := by
      rw [zip_range, zip_range, ← zip_range (fun e => ms.getD e 0), ← eq_range_map ms I.numRounds 0 ml]
    have m4 : ((List.range I.numRounds).map fun e => (ms.getD e 0, R1 e, R2 e,
          ((signRun X I sk saved.2 salt (genSeed X I sk pk msg e) e (d e)).ctx X I salt e).hash3 F I pt ((phase1Expand X F I h1).getD e []) (Rs.getD e 0))).mapM
          (fun x => signRep4 F I x.2.1 x.2.2.1 x.2.2.2 x.1) = .ok ((List.range I.numRounds).map fun e =>
          (signRun X I sk saved.2 salt (genSeed X I sk pk msg e) e (d e)).proof X F I pt salt e ((phase1Expand X F I h1).getD e []) (Rs.getD e 0) (ms.getD e 0)) := by
      rw [List.mapM_map]
      refine mapM_ok _ _ _ fun e he => ?_
      have he := List.mem_range.1 he
      have hme : ms.getD e 0 < I.numParties := by
        rw [getD_of_lt (by omega)]
        exact mlt _ (List.getElem_mem _)
      have hRe : Reduced F.byteSize (Rs.getD e 0) := by
        rw [getD_of_lt (by omega)]
        exact (hRr _ (List.getElem_mem _)).1
      dsimp only [Function.comp, Ctx.hash3]
      unfold signRep4
      dsimp only
      rw [if_neg (not_not.2 (hprod e _ hRe)), t1, t3, t4, t5, u4, revealAllBut_revealOf hI X salt _ e (htree e) hme, getD_range_map _ _ _ _ hme]
      rfl
    rw [ok_bind, z4, m4, ok_bind]
    rfl

/-- `signWith` for a usable key: a prover with `SignerRuns`. -/
theorem signWith_eq {F : FieldState} [hF : FieldOk F] (X : Xof) (fuel : Nat) (sk pk msg : Bytes) (hsk : sk.length = I.aes.keySize) (hpk : 2 * I.ctSize ≤ pk.length)
    (h0 : 0 ∉ sboxInputs (I.aes.keySize / 4) I.aes.numBlocks sk (slice pk 0 I.ctSize)) : ∃ runs : Nat → Run, SignerRuns X F I sk pk msg runs ∧
    signWith X fuel F I sk pk msg =
      (phase2Expand X fuel F I (proverH2 X F I (genSalt X I sk pk msg) (proverH1 X I (genSalt X I sk pk msg) pk msg runs) runs) (F.firstN I.m2)).bind fun Rs =>
      (phase3Expand X fuel I (proverH3 X F I (slice pk 0 I.ctSize) (genSalt X I sk pk msg) (proverH1 X I (genSalt X I sk pk msg) pk msg runs)
        (proverH2 X F I (genSalt X I sk pk msg) (proverH1 X I (genSalt X I sk pk msg) pk msg runs) runs) runs Rs)).bind fun ms =>
      .ok (proverSig X F I (slice pk 0 I.ctSize) (genSalt X I sk pk msg) (proverH1 X I (genSalt X I sk pk msg) pk msg runs)
        (proverH3 X F I (slice pk 0 I.ctSize) (genSalt X I sk pk msg) (proverH1 X I (genSalt X I sk pk msg) pk msg runs)
          (proverH2 X F I (genSalt X I sk pk msg) (proverH1 X I (genSalt X I sk pk msg) pk msg runs) runs) runs Rs) runs Rs ms) :=
  signBy_eq hI (phase2Commit X F I) X fuel sk pk msg hsk hpk h0

/-- What is known about a signature that sign returned for a usable key. -/
theorem signWith_ok {F : FieldState} [hF : FieldOk F] (hb : F.byteSize = I.lambda) (X : Xof) (fuel : Nat) (sk pk msg : Bytes) (hsk : sk.length = I.aes.keySize) (hpk : 2 * I.ctSize ≤ pk.length)
    (h0 : 0 ∉ sboxInputs (I.aes.keySize / 4) I.aes.numBlocks sk (slice pk 0 I.ctSize)) (sig : Signature) (h : signWith X fuel F I sk pk msg = .ok sig) :
    (∃ ms, phase3Expand X fuel I sig.h3 = .ok ms ∧ SigWF I ms sig) ∧
    (slice pk I.ctSize I.ctSize = encrypt (I.aes.keySize / 4) I.aes.numBlocks sk (slice pk 0 I.ctSize) → ∀ dummy : Bytes, dummy.length = I.seedSize → ∀ fuel' ≥ fuel, verifyWith X dummy fuel' F I pk sig msg = .ok true) := by
  obtain ⟨runs, hr, e⟩ := signWith_eq hI (F := F) X fuel sk pk msg hsk hpk h0
  rw [e] at h
  have hs : (genSalt X I sk pk msg).length = 32 := squeeze_len _ _ _
  have hl1 : (proverH1 X I (genSalt X I sk pk msg) pk msg runs).length = I.digestSize := squeeze_len _ _ _
  cases hRs : phase2Expand X fuel F I (proverH2 X F I (genSalt X I sk pk msg) (proverH1 X I (genSalt X I sk pk msg) pk msg runs) runs) (F.firstN I.m2) with
  | error e => rw [hRs] at h; cases h
  | ok Rs =>
  rw [hRs] at h
  obtain ⟨Rl, hRr⟩ := phase2Expand_spec X fuel I _ _ Rs hRs
  cases hms : phase3Expand X fuel I (proverH3 X F I (slice pk 0 I.ctSize) (genSalt X I sk pk msg) (proverH1 X I (genSalt X I sk pk msg) pk msg runs)
      (proverH2 X F I (genSalt X I sk pk msg) (proverH1 X I (genSalt X I sk pk msg) pk msg runs) runs) runs Rs) with
  | error e =>
    change (phase3Expand X fuel I _).bind _ = _ at h
    rw [hms] at h
    cases h
  | ok ms =>
  change (phase3Expand X fuel I _).bind _ = _ at h
  rw [hms] at h
  obtain ⟨ml, mlt⟩ := phase3Expand_spec X _ fuel I _ ms hms
  have h := Except.ok.inj h
  subst h
  constructor
  · exact ⟨ms, hms, proverSig_wf hb X _ _ hs _ _ hl1 (squeeze_len _ _ _) runs hr.sized hr.red Rs ms ml⟩
  · intro hct dummy hd fuel' hf
    refine prover_accepted hI X F _ dummy hd fuel' pk hpk msg hs runs (fun e _ => hr.sized e) _ _ _ Rs ms rfl rfl rfl (phase2Expand_mono X F I _ _ hf Rs hRs) (phase3Expand_mono X I _ hf ms hms)
      (fun e _ => by rw [hct]; exact hr.ct e) fun e he => hr.prod e _ ?_
    rw [getD_of_lt (by omega)]
    exact (hRr _ (List.getElem_mem _)).1

/-- Sign returns a signature or uses up the iterations of a rejection loop. -/
theorem signWith_total {F : FieldState} [hF : FieldOk F] (X : Xof) (fuel : Nat) (sk pk msg : Bytes) (hsk : sk.length = I.aes.keySize) (hpk : 2 * I.ctSize ≤ pk.length)
    (h0 : 0 ∉ sboxInputs (I.aes.keySize / 4) I.aes.numBlocks sk (slice pk 0 I.ctSize)) :
    ((∃ sig, signWith X fuel F I sk pk msg = .ok sig) ∨ signWith X fuel F I sk pk msg = .error .fuel) ∧
    ((∀ h, ∃ Rs, phase2Expand X fuel F I h (F.firstN I.m2) = .ok Rs) → (∀ h, ∃ ms, phase3Expand X fuel I h = .ok ms) → ∃ sig, signWith X fuel F I sk pk msg = .ok sig) := by
  obtain ⟨runs, hr, e⟩ := signWith_eq hI (F := F) X fuel sk pk msg hsk hpk h0
  rw [e]
  constructor
  · cases hRs : phase2Expand X fuel F I (proverH2 X F I (genSalt X I sk pk msg) (proverH1 X I (genSalt X I sk pk msg) pk msg runs) runs) (F.firstN I.m2) with
    | error e =>
      have := phase2Expand_error X fuel F I _ _ e hRs
      subst this
      exact .inr rfl
    | ok Rs =>
    change (∃ sig, (phase3Expand X fuel I _).bind _ = _) ∨ (phase3Expand X fuel I _).bind _ = _
    cases hms : phase3Expand X fuel I (proverH3 X F I (slice pk 0 I.ctSize) (genSalt X I sk pk msg) (proverH1 X I (genSalt X I sk pk msg) pk msg runs)
      (proverH2 X F I (genSalt X I sk pk msg) (proverH1 X I (genSalt X I sk pk msg) pk msg runs) runs) runs Rs) with
    | error e =>
      have := phase3Expand_error X fuel I _ e hms
      subst this
      exact .inr rfl
    | ok ms => exact .inl ⟨_, rfl⟩
  · intro g2 g3
    obtain ⟨Rs, hRs⟩ := g2 (proverH2 X F I (genSalt X I sk pk msg) (proverH1 X I (genSalt X I sk pk msg) pk msg runs) runs)
    rw [hRs]
    obtain ⟨ms, hms⟩ := g3 (proverH3 X F I (slice pk 0 I.ctSize) (genSalt X I sk pk msg) (proverH1 X I (genSalt X I sk pk msg) pk msg runs)
      (proverH2 X F I (genSalt X I sk pk msg) (proverH1 X I (genSalt X I sk pk msg) pk msg runs) runs) runs Rs)
    change ∃ sig, (phase3Expand X fuel I _).bind _ = _
    rw [hms]
    exact ⟨_, rfl⟩

end

/-- Outcomes of verification other than acceptance or rejection. -/
theorem verifyWith_unshaped {I : Instance} (hI : Consistent I) (F : FieldState) (X : Xof) (dummy : Bytes) (fuel : Nat) (pk : Bytes) (sig : Signature) (msg : Bytes)
    (h : ¬(2 * I.ctSize ≤ pk.length ∧ sig.shaped I = true)) : verifyWith X dummy fuel F I pk sig msg = .error .ub := by
  unfold verifyWith verifyBy
  rw [checkAes_ok hI, ok_bind]
  by_cases hpk : 2 * I.ctSize ≤ pk.length
  · rw [decide_eq_true ⟨hpk, hI.sboxes.le⟩, require_true, ok_bind, show sig.shaped I = false by by_contra hc; exact h ⟨hpk, by simpa using hc⟩]
    rfl
  · rw [decide_eq_false (fun hc => hpk hc.1)]
    rfl

/-- What acceptance means for the sizes and the first hash. -/
theorem accepted1 (X : Xof) (fuel : Nat) (I : Instance) (hI : Consistent I) (pk msg : Bytes) (sig : Signature) (h : verify X fuel I pk sig msg = .ok true) :
    2 * I.ctSize ≤ pk.length ∧ sig.shaped I = true ∧ (X (kindOf I.digestSize) (transcript1 X I pk sig msg)).squeeze 0 I.digestSize = sig.h1 := by
  unfold verify at h
  cases hF : initExtensionField I.lambda with
  | error e => rw [hF] at h; cases h
  | ok F =>
  obtain ⟨hok, _, _⟩ := initExtensionField_ok hF
  rw [hF, ok_bind] at h
  by_cases hc : 2 * I.ctSize ≤ pk.length ∧ sig.shaped I = true
  swap
  · rw [verifyWith_unshaped hI F X _ fuel pk sig msg hc] at h
    cases h
  refine ⟨hc.1, hc.2, ?_⟩
  rw [verifyWith_eq hI F X _ (by simp) fuel _ hc.1 sig hc.2 msg] at h
  obtain ⟨Rs, hR, h⟩ := bind_ok.1 h
  obtain ⟨ms, hm, h⟩ := bind_ok.1 h
  split at h
  · have := Except.ok.inj h
    simp only [Bool.and_eq_true, decide_eq_true_eq] at this
    exact this.1.1
  · cases h

/-- Acceptance of a signature of the right shape. -/
theorem verify_iff {I : Instance} (hI : Consistent I) {F : FieldState} (hF : initExtensionField I.lambda = .ok F) (X : Xof) (fuel : Nat) (pk : Bytes) (hpk : 2 * I.ctSize ≤ pk.length) (sig : Signature)
    (hs : sig.shaped I = true) (msg : Bytes) : verify X fuel I pk sig msg = .ok true ↔
      ∃ Rs, phase2Expand X fuel F I (verH2 X F I sig) (F.firstN I.m2) = .ok Rs ∧ phase3Expand X fuel I sig.h3 = .ok (sig.proofs.map (·.reveal.missing)) ∧
        phase1Commit X I sig.salt pk msg (verReps1 X I (List.replicate I.seedSize 0) pk sig) = sig.h1 ∧
        phase3Commit X F I sig.salt (verH2 X F I sig) (verReps3 X F I (List.replicate I.seedSize 0) pk sig Rs) = sig.h3 ∧
        ∀ p ∈ sig.proofs, sumProducts F I p.sAtR p.tAtR = p.pAtR := by
  obtain ⟨hok, _, _⟩ := initExtensionField_ok hF
  unfold verify
  rw [hF, ok_bind, verifyWith_eq hI F X _ List.length_replicate fuel pk hpk sig hs msg]
  cases h2 : phase2Expand X fuel F I (verH2 X F I sig) (F.firstN I.m2) with
  | error e => exact ⟨fun h => (by cases h), fun ⟨_, h, _⟩ => by cases h⟩
  | ok Rs =>
    cases h3 : phase3Expand X fuel I sig.h3 with
    | error e => exact ⟨fun h => (by cases h), fun ⟨_, _, h, _⟩ => by cases h⟩
    | ok ms =>
      change (if ms = _ then Except.ok _ else Except.error _) = _ ↔ _
      by_cases hm : ms = sig.proofs.map (·.reveal.missing)
      · rw [if_pos hm]
        simp only [Except.ok.injEq, Bool.and_eq_true, decide_eq_true_eq, List.all_eq_true, and_assoc, exists_eq_left', hm, true_and]
      · rw [if_neg hm]
        refine ⟨fun h => (by cases h), fun ⟨_, _, h, _⟩ => ?_⟩
        exact absurd (by simpa using h) hm

section
variable {F : FieldState} {I : Instance}

theorem input2_eq (hb : F.byteSize = I.lambda) {sig : Signature} (hs : ∀ p ∈ sig.proofs, p.pDelta.length = I.m2 + 1) : phase2Input F I sig.salt sig.h1 (sig.proofs.map (·.pDelta)) = input2n (I.m2 + 1) I sig := by
  unfold phase2Input input2n
  rw [List.flatMap_map]
  refine congrArg (fun z => 2 :: (sig.salt ++ sig.h1 ++ z)) (List.flatMap_congr fun p hp => ?_)
  have e : p.pDelta.take (I.m2 + 1) = (List.range (I.m2 + 1)).map fun k => p.pDelta.getD k 0 := by
    refine List.ext_getElem (by rw [List.length_take, hs p hp]; simp) fun i h1 h2 => ?_
    rw [List.getElem_take, List.getElem_map, List.getElem_range, getD_of_lt]
  rw [e, List.flatMap_map]
  refine List.flatMap_congr fun k _ => ?_
  unfold gfHash
  rw [toBytes_eq, hb]

end

/-- When a signature is to be accepted. `fuel` bounds the iterations of the rejection sampling of the challenges (C25, C26 are about these). -/
def Accepted (X : Xof) (fuel : Nat) (F : FieldState) (I : Instance) (pk msg : Bytes) (sig : Signature) : Prop :=
  ∃ (Rs : List W64) (bc : Nat → Nat → Bytes) (c : Nat → Nat → W64) (a b : Nat → Nat → Nat → W64),
    phase2Expand X fuel F I (digest X I (input2n (I.m2 + 1) I sig)) (F.firstN I.m2) = .ok Rs ∧
    phase3Expand X fuel I sig.h3 = .ok (sig.proofs.map (·.reveal.missing)) ∧
    (∀ e pr, (pr, e) ∈ sig.proofs.zipIdx → Completes I.lambda I (slice pk 0 I.ctSize) (slice pk I.ctSize I.ctSize) (repOf X I sig e pr) pr.reveal.missing ((phase1Expand X F I sig.h1).getD e []) (Rs.getD e 0)
      pr.pAtR pr.sAtR pr.tAtR (bc e) (c e) (a e) (b e)) ∧
    sig.h1 = digest X I (input1 X I pk msg sig bc) ∧
    sig.h3 = digest X I (input3 I sig (digest X I (input2n (I.m2 + 1) I sig)) c a b) ∧
    ∀ pr ∈ sig.proofs, ∑ j ∈ Finset.range I.m1, val I.lambda (pr.sAtR.getD j 0) * val I.lambda (pr.tAtR.getD j 0) = val I.lambda pr.pAtR

/-- A signature in the format of the instance is accepted exactly when the specification says so: all recomputed hashes match, with the broadcast and the shares of the hidden party
completing the ciphertext and the claimed values, and the product check holds in every repetition. -/
theorem accepted_iff (X : Xof) (fuel : Nat) (I : Instance) (hI : Consistent I) (F : FieldState) (hF : initExtensionField I.lambda = .ok F) (pk : Bytes) (hpk : 2 * I.ctSize ≤ pk.length) (msg : Bytes)
    (ms : List Nat) (sig : Signature) (wf : SigWF I ms sig) : verify X fuel I pk sig msg = .ok true ↔ Accepted X fuel F I pk msg sig := by
  obtain ⟨hok, hb, _⟩ := initExtensionField_ok hF
  obtain ⟨b1, b2, b3, b4⟩ := parties_bounds hI
  by_cases h3 : phase3Expand X fuel I sig.h3 = .ok (sig.proofs.map (·.reveal.missing))
  swap
  · refine ⟨fun h => ?_, fun ⟨_, _, _, _, _, _, h, _⟩ => absurd h h3⟩
    obtain ⟨_, hs, _⟩ := accepted1 X fuel I hI pk msg sig h
    obtain ⟨_, _, h', _⟩ := (verify_iff hI hF X fuel pk hpk sig hs msg).1 h
    exact absurd h' h3
  obtain ⟨hlen, hmN⟩ := phase3Expand_spec X _ fuel I _ _ h3
  rw [List.length_map] at hlen
  have hml : ms.length = I.numRounds := by rw [wf.proofs.length_eq, hlen]
  have hs := wf.shaped b4 hml
  have hwf := fun e (he : e < I.numRounds) => wf.get e (by omega)
  have hmiss : ∀ e < I.numRounds, (sig.proofs.getD e noProof).reveal.missing < I.numParties := fun e he => by
    refine hmN _ (List.mem_map_of_mem ?_)
    rw [getD_of_lt (by omega)]
    exact List.getElem_mem _
  have hzip : sig.proofs.zipIdx = (List.range I.numRounds).map fun e => (sig.proofs.getD e noProof, e) := by rw [zipIdx_eq _ noProof, hlen]
  have hpd : ∀ p ∈ sig.proofs, p.pDelta.length = I.m2 + 1 := fun p hp => by
    obtain ⟨i, hi, rfl⟩ := List.getElem_of_mem hp
    rw [← getD_of_lt (d := noProof)]
    exact (wf.get i hi).pDelta.1
  have h2 : verH2 X F I sig = digest X I (input2n (I.m2 + 1) I sig) := by
    unfold verH2 phase2Commit digest
    rw [input2_eq hb hpd]
  have hag := fun e (he : e < I.numRounds) => repOf_agree hI X (List.replicate I.seedSize 0) sig e ((shaped_facts hs).2.2.2.2 e he) (hmiss e he)
  -- completions of one repetition
  have hcomp : ∀ Rs, phase2Expand X fuel F I (verH2 X F I sig) (F.firstN I.m2) = .ok Rs → ∀ e < I.numRounds, ∀ bc c a b, _ := fun Rs hRs e he bc c a b =>
    completes_iff (F := F) hI hb (repOf_sized X sig e (hwf e he)) (by rw [hb]; exact (hwf e he).pDelta.2) (phase1Expand_red (I := I) X sig.h1 e)
      (by
        obtain ⟨hl, hr⟩ := phase2Expand_spec X fuel I _ _ Rs hRs
        have : e < Rs.length := by omega
        rw [show Rs.getD e 0 = Rs[e] from getD_of_lt this]
        exact (hr _ (List.getElem_mem this)).1 : Reduced F.byteSize (Rs.getD e 0))
      (hmiss e he) (slice pk 0 I.ctSize) (ct := slice pk I.ctSize I.ctSize) (slice_length (by omega)) (by rw [hb]; exact (hwf e he).pAtR) (by rw [hb]; exact (hwf e he).sAtR.2) (by rw [hb]; exact (hwf e he).tAtR.2) bc c a b
  rw [hb] at hcomp
  have hin1 : ∀ bc : Nat → Nat → Bytes, (∀ e < I.numRounds, ∀ p < I.numParties, bc e p = if p = (sig.proofs.getD e noProof).reveal.missing then
        (repOf X I sig e (sig.proofs.getD e noProof)).ctx.ctMissing I (slice pk 0 I.ctSize) (slice pk I.ctSize I.ctSize) (sig.proofs.getD e noProof).reveal.missing
        else ((repOf X I sig e (sig.proofs.getD e noProof)).ctx.out I (slice pk 0 I.ctSize) p).2) →
      phase1Commit X I sig.salt pk msg (verReps1 X I (List.replicate I.seedSize 0) pk sig) = digest X I (input1 X I pk msg sig bc) := fun bc hbc => by
    unfold phase1Commit digest
    refine congrArg (fun z => (X (kindOf I.digestSize) z).squeeze 0 I.digestSize) ?_
    unfold phase1Input input1 verReps1
    rw [hzip, List.flatMap_map, List.flatMap_map]
    refine congrArg (fun z => 1 :: (sig.salt ++ pk ++ msg ++ z)) (List.flatMap_congr fun e he => ?_)
    have he := List.mem_range.1 he
    dsimp only
    rw [(hag e he).verHash1]
    exact bytes1_eq X _ _ sig e _ _ _ (hbc e he)
  have hin3 : ∀ (Rs : List W64) (c : Nat → Nat → W64) (a b : Nat → Nat → Nat → W64), (∀ e < I.numRounds, ∃ bc, Completes I.lambda I (slice pk 0 I.ctSize) (slice pk I.ctSize I.ctSize)
        (repOf X I sig e (sig.proofs.getD e noProof)) (sig.proofs.getD e noProof).reveal.missing ((phase1Expand X F I sig.h1).getD e []) (Rs.getD e 0)
        (sig.proofs.getD e noProof).pAtR (sig.proofs.getD e noProof).sAtR (sig.proofs.getD e noProof).tAtR bc (c e) (a e) (b e)) → phase2Expand X fuel F I (verH2 X F I sig) (F.firstN I.m2) = .ok Rs →
      phase3Commit X F I sig.salt (verH2 X F I sig) (verReps3 X F I (List.replicate I.seedSize 0) pk sig Rs) = digest X I (input3 I sig (digest X I (input2n (I.m2 + 1) I sig)) c a b) := fun Rs c a b hall hRs => by
    unfold phase3Commit
    rw [← h2]
    unfold digest
    refine congrArg (fun z => (X (kindOf I.digestSize) z).squeeze 0 I.digestSize) ?_
    unfold phase3Input input3 verReps3
    rw [hzip, List.flatMap_map, List.flatMap_map]
    refine congrArg (fun z => 3 :: (sig.salt ++ verH2 X F I sig ++ z)) (List.flatMap_congr fun e he => ?_)
    have he := List.mem_range.1 he
    obtain ⟨bc, hco⟩ := hall e he
    obtain ⟨_, k2, k3, k4⟩ := (hcomp Rs hRs e he bc (c e) (a e) (b e)).1 hco
    dsimp only
    rw [(hag e he).verHash3]
    exact bytes3_eq hb _ _ _ _ _ _ _ _ _ k2 k3 k4
  have hprod : (∀ p ∈ sig.proofs, sumProducts F I p.sAtR p.tAtR = p.pAtR) ↔ ∀ pr ∈ sig.proofs, ∑ j ∈ Finset.range I.m1, val I.lambda (pr.sAtR.getD j 0) * val I.lambda (pr.tAtR.getD j 0) = val I.lambda pr.pAtR := by
    rw [← hb]
    refine forall₂_congr fun p hp => ?_
    obtain ⟨i, hi, rfl⟩ := List.getElem_of_mem hp
    have w := wf.get i hi
    rw [getD_of_lt hi] at w
    have r1 := w.pAtR
    have r2 := w.sAtR.2
    have r3 := w.tAtR.2
    rw [← hb] at r1 r2 r3
    have e : val F.byteSize (sumProducts F I sig.proofs[i].sAtR sig.proofs[i].tAtR) = ∑ j ∈ Finset.range I.m1, val F.byteSize (sig.proofs[i].sAtR.getD j 0) * val F.byteSize (sig.proofs[i].tAtR.getD j 0) := by
      unfold sumProducts
      rw [val_sum_range, val_zero, zero_add]
      refine Finset.sum_congr rfl fun j _ => val_mul (AllRed.getD (F := F) r2 j) (AllRed.getD (F := F) r3 j)
    rw [← e]
    exact ⟨fun h => by rw [h], fun h => val_inj (reduced_sum _ _ _ reduced_zero fun j _ => reduced_apply _) r1 h⟩
  rw [verify_iff hI hF X fuel pk hpk sig hs msg, hprod]
  have hmem : ∀ e pr, (pr, e) ∈ sig.proofs.zipIdx ↔ e < I.numRounds ∧ pr = sig.proofs.getD e noProof := fun e pr => by
    rw [hzip, List.mem_map]
    constructor
    · rintro ⟨x, hx, heq⟩
      obtain ⟨rfl, rfl⟩ := Prod.mk.inj heq
      exact ⟨List.mem_range.1 hx, rfl⟩
    · rintro ⟨he, rfl⟩
      exact ⟨e, List.mem_range.2 he, rfl⟩
  constructor
  · rintro ⟨Rs, k1, _, k3, k4, k5⟩
    have hex : ∀ e, ∃ bc c a b, e < I.numRounds → Completes I.lambda I (slice pk 0 I.ctSize) (slice pk I.ctSize I.ctSize) (repOf X I sig e (sig.proofs.getD e noProof))
        (sig.proofs.getD e noProof).reveal.missing ((phase1Expand X F I sig.h1).getD e []) (Rs.getD e 0) (sig.proofs.getD e noProof).pAtR (sig.proofs.getD e noProof).sAtR
        (sig.proofs.getD e noProof).tAtR bc c a b := fun e => by
      by_cases he : e < I.numRounds
      · exact ⟨_, _, _, _, fun _ => (hcomp Rs k1 e he _ _ _ _).2 ⟨fun p _ => rfl, fun p _ => rfl, fun p _ j _ => rfl, fun p _ j _ => rfl⟩⟩
      · exact ⟨fun _ => [], fun _ => 0, fun _ _ => 0, fun _ _ => 0, fun h => absurd h he⟩
    choose bc c a b hall using hex
    refine ⟨Rs, bc, c, a, b, by rw [← h2]; exact k1, h3, fun e pr he => ?_, ?_, ?_, k5⟩
    · obtain ⟨he', rfl⟩ := (hmem e pr).1 he
      exact hall e he'
    · rw [← hin1 bc fun e he => ((hcomp Rs k1 e he _ _ _ _).1 (hall e he)).1]
      exact k3.symm
    · rw [← hin3 Rs c a b (fun e he => ⟨_, hall e he⟩) k1]
      exact k4.symm
  · rintro ⟨Rs, bc, c, a, b, k1, _, k3, k4, k5, k6⟩
    rw [← h2] at k1
    have hall := fun e (he : e < I.numRounds) => k3 e _ ((hmem e _).2 ⟨he, rfl⟩)
    refine ⟨Rs, k1, h3, ?_, ?_, k6⟩
    · rw [k4]
      exact hin1 _ fun e he => ((hcomp Rs k1 e he _ _ _ _).1 (hall e he)).1
    · rw [k5]
      exact hin3 Rs _ _ _ (fun e he => ⟨_, hall e he⟩) k1

section
variable {F : FieldState} [hF : FieldOk F]

theorem phase2Input_inj (I : Instance) (salt h1 salt' h1' : Bytes) (ds ds' : List (List W64)) (hs : salt.length = salt'.length) (hp : h1.length = h1'.length)
    (hr : ds.length = ds'.length) (h : ∀ d ∈ ds, d.length = I.m2 + 1 ∧ ∀ x ∈ d, Reduced F.byteSize x) (h' : ∀ d ∈ ds', d.length = I.m2 + 1 ∧ ∀ x ∈ d, Reduced F.byteSize x)
    (e : phase2Input F I salt h1 ds = phase2Input F I salt' h1' ds') :
    salt = salt' ∧ h1 = h1' ∧ ds.map (List.take (I.m2 + 1)) = ds'.map (List.take (I.m2 + 1)) := by
  unfold phase2Input at e
  have hk : ∀ d : List W64, ((List.range (I.m2 + 1)).flatMap fun k => gfHash F (d.getD k 0)).length = (I.m2 + 1) * F.byteSize := fun d =>
    length_flatMap_range _ _ _ fun i _ => gfHash_length _
  obtain ⟨e1, e5⟩ := List.append_inj' e (by
    rw [length_flatMap_const _ _ _ fun d _ => hk d, length_flatMap_const _ _ _ fun d _ => hk d, hr])
  obtain ⟨e1, e3⟩ := List.append_inj' e1 hp
  obtain ⟨_, e2⟩ := List.append_inj' e1 hs
  refine ⟨e2, e3, ?_⟩
  have conv : ∀ d : List W64, d.length = I.m2 + 1 → ((List.range (I.m2 + 1)).flatMap fun k => gfHash F (d.getD k 0)) = (List.range (I.m2 + 1)).flatMap fun k => gfHash F ((d.take (I.m2 + 1)).getD k 0) := by
    intro d hd
    simp only [List.flatMap_def]
    congr 1
    apply List.map_congr_left
    intro k hk
    have hk := List.mem_range.1 hk
    rw [getD_of_lt (by omega), getD_of_lt (by rw [List.length_take]; omega), List.getElem_take]
  have conv2 : ∀ ds : List (List W64), (∀ d ∈ ds, d.length = I.m2 + 1 ∧ ∀ x ∈ d, Reduced F.byteSize x) →
      (ds.flatMap fun d => (List.range (I.m2 + 1)).flatMap fun k => gfHash F (d.getD k 0)) =
      (ds.map (List.take (I.m2 + 1))).flatMap fun d => (List.range (I.m2 + 1)).flatMap fun k => gfHash F (d.getD k 0) := by
    intro ds hds
    rw [List.flatMap_map]
    simp only [List.flatMap_def (f := fun d : List W64 => _)]
    congr 1
    apply List.map_congr_left
    intro d hd
    exact conv d (hds d hd).1
  rw [conv2 ds h, conv2 ds' h'] at e5
  have take_ok : ∀ ds : List (List W64), (∀ d ∈ ds, d.length = I.m2 + 1 ∧ ∀ x ∈ d, Reduced F.byteSize x) →
      ∀ d ∈ ds.map (List.take (I.m2 + 1)), d.length = I.m2 + 1 ∧ ∀ x ∈ d, Reduced F.byteSize x := by
    intro ds hds d hd
    obtain ⟨d', hd', rfl⟩ := List.mem_map.1 hd
    refine ⟨by rw [List.length_take, (hds d' hd').1]; omega, ?_⟩
    intro x hx
    exact (hds d' hd').2 x (List.mem_of_mem_take hx)
  refine flatMap_inj _ (fun d => d.length = I.m2 + 1 ∧ ∀ x ∈ d, Reduced F.byteSize x) _ (fun d _ => hk d) ?_ _ _ (take_ok ds h) (take_ok ds' h') (by simp [hr]) e5
  intro x y hx hy hxy
  have := flatMap_range_inj _ _ _ (fun i _ => by rw [gfHash_length, gfHash_length]) hxy
  exact ext_getD 0 hx.1 hy.1 fun k hk => gfHash_inj _ _ (getD_prop 0 hx k hk) (getD_prop 0 hy k hk) (this k hk)

end

/-- The input of the third hash, recomputed by the verifier. -/
def transcript3 (X : Xof) (fuel : Nat) (F : FieldState) (I : Instance) (pk : Bytes) (sig : Signature) : Bytes :=
  match phase2Expand X fuel F I (verH2 X F I sig) (F.firstN I.m2) with
  | .ok Rs => phase3Input F I sig.salt (verH2 X F I sig) (verReps3 X F I (List.replicate I.seedSize 0) pk sig Rs)
  | .error _ => []

/-- The input of the second hash, recomputed by the verifier. -/
def transcript2 (F : FieldState) (I : Instance) (sig : Signature) : Bytes := phase2Input F I sig.salt sig.h1 (sig.proofs.map (·.pDelta))

/-- Some hash computed when `sig` is verified and the corresponding one for `sig'` have different inputs and the same output. -/
def Collision (X : Xof) (fuel : Nat) (F : FieldState) (I : Instance) (pk msg : Bytes) (sig sig' : Signature) : Prop :=
  Collide X (kindOf I.digestSize) I.digestSize (transcript1 X I pk sig msg) (transcript1 X I pk sig' msg) ∨
  Collide X (kindOf I.digestSize) I.digestSize (transcript2 F I sig) (transcript2 F I sig') ∨
  Collide X (kindOf I.digestSize) I.digestSize (transcript3 X fuel F I pk sig) (transcript3 X fuel F I pk sig') ∨
  (∃ e p, Collide X (kindOf I.digestSize) I.digestSize (commitInput X I sig e p) (commitInput X I sig' e p)) ∨
  (∃ e i, Collide X (kindOf (2 * I.seedSize)) (2 * I.seedSize) (treeInput X I sig e i) (treeInput X I sig' e i))

/-- The signature without the last delta of each repetition. -/
def dropLast (I : Instance) (sig : Signature) : Signature := { sig with proofs := sig.proofs.map fun p => { p with pDelta := p.pDelta.take (I.m2 + 1) } }

/-- C29 as far as it holds: the signatures agree except for the last delta of each repetition, or give a collision. Missing: the last deltas, for which it is false. -/
theorem unique_take (X : Xof) (fuel : Nat) (I : Instance) (F : FieldState) (hI : Consistent I) (hF : initExtensionField I.lambda = .ok F) (pk msg : Bytes) (ms ms' : List Nat) (sig sig' : Signature)
    (wf : SigWF I ms sig) (wf' : SigWF I ms' sig') (hv : verify X fuel I pk sig msg = .ok true) (hv' : verify X fuel I pk sig' msg = .ok true) (h1 : sig.h1 = sig'.h1) (h3 : sig.h3 = sig'.h3) :
    dropLast I sig = dropLast I sig' ∨ Collision X fuel F I pk msg sig sig' := by
  by_cases hcol : Collision X fuel F I pk msg sig sig'
  · exact .inr hcol
  left
  unfold Collision at hcol
  push Not at hcol
  obtain ⟨n1, n2, n3, n4, n5⟩ := hcol
  obtain ⟨hok, hb, _⟩ := initExtensionField_ok hF
  obtain ⟨hpk, hs, _⟩ := accepted1 X fuel I hI pk msg sig hv
  obtain ⟨_, hs', _⟩ := accepted1 X fuel I hI pk msg sig' hv'
  obtain ⟨a1, a2, a3, a4, a5⟩ := shaped_facts hs
  obtain ⟨a1', a2', a3', a4', a5'⟩ := shaped_facts hs'
  obtain ⟨Rs, v1, v2, v3, v4, _⟩ := (verify_iff hI hF X fuel pk hpk sig hs msg).1 hv
  obtain ⟨Rs', v1', v2', v3', v4', _⟩ := (verify_iff hI hF X fuel pk hpk sig' hs' msg).1 hv'
  -- the first hash
  have e1 := collide_of ((v3.trans h1).trans v3'.symm) n1
  obtain ⟨c1, c2⟩ := verReps1_sized hI X (List.replicate I.seedSize 0) pk hpk sig hs
  obtain ⟨c1', c2'⟩ := verReps1_sized hI X (List.replicate I.seedSize 0) pk hpk sig' hs'
  obtain ⟨esalt, _, _, er1⟩ := phase1Input_inj I _ _ _ _ _ _ _ _ (a1.trans a1'.symm) rfl (c1.trans c1'.symm) c2 c2' e1
  -- the third hash
  have e3 : transcript3 X fuel F I pk sig = transcript3 X fuel F I pk sig' := by
    refine collide_of ?_ n3
    unfold transcript3
    rw [v1, v1']
    exact (v4.trans h3).trans v4'.symm
  unfold transcript3 at e3
  rw [v1, v1'] at e3
  have sz : ∀ (s : Signature) (l : List Nat), SigWF I l s → s.proofs.length = I.numRounds → ∀ Rs, (verReps3 X F I (List.replicate I.seedSize 0) pk s Rs).length = I.numRounds ∧
      ∀ r ∈ verReps3 X F I (List.replicate I.seedSize 0) pk s Rs, r.Sized F I := fun s l hw hl Rs => by
    refine ⟨by simp [verReps3], fun r hr => ?_⟩
    obtain ⟨e, he, rfl⟩ := List.mem_map.1 hr
    exact verHash3_sized _ _ _ _ _ _ _ hb (hw.get e (by have := List.mem_range.1 he; omega))
  obtain ⟨s1, s2⟩ := sz sig ms wf a4 Rs
  obtain ⟨s1', s2'⟩ := sz sig' ms' wf' a4' Rs'
  obtain ⟨_, eh2, er3⟩ := phase3Input_inj I _ _ _ _ _ _ (a1.trans a1'.symm) (by simp [verH2, phase2Commit, squeeze_length]) (s1.trans s1'.symm) s2 s2' e3
  -- the second hash
  have e2 := collide_of eh2 n2
  have dl : ∀ (s : Signature) (l : List Nat), SigWF I l s → ∀ d ∈ s.proofs.map (·.pDelta), d.length = I.m2 + 1 ∧ ∀ x ∈ d, Reduced F.byteSize x := fun s l hw d hd => by
    obtain ⟨p, hp, rfl⟩ := List.mem_map.1 hd
    obtain ⟨e, he, rfl⟩ := List.getElem_of_mem hp
    have := (hw.get e he).pDelta
    rw [getD_of_lt he] at this
    rw [hb]
    exact this
  obtain ⟨_, _, ed⟩ := phase2Input_inj I _ _ _ _ _ _ (a1.trans a1'.symm) (a2.trans a2'.symm) (by simp only [List.length_map]; omega) (dl _ _ wf) (dl _ _ wf') e2
  -- the hidden parties
  have em : sig.proofs.map (·.reveal.missing) = sig'.proofs.map (·.reveal.missing) := by
    rw [h3, v2'] at v2
    exact (Except.ok.inj v2).symm
  -- each repetition
  obtain ⟨q, hq1, hq2, hN⟩ := hI.parties
  have hrep : ∀ e < I.numRounds, ({ sig.proofs.getD e noProof with pDelta := (sig.proofs.getD e noProof).pDelta.take (I.m2 + 1) } : Proof) =
      { sig'.proofs.getD e noProof with pDelta := (sig'.proofs.getD e noProof).pDelta.take (I.m2 + 1) } := by
    intro e he
    have f1 := map_range_inj er1 e he
    have f3 := map_range_inj er3 e he
    have f2 : (sig.proofs.getD e noProof).pDelta.take (I.m2 + 1) = (sig'.proofs.getD e noProof).pDelta.take (I.m2 + 1) := by
      have := congrArg (fun l => l.getD e []) ed
      simpa [getD_of_lt, a4, a4', he, List.getElem?_eq_getElem] using this
    have fm : (sig.proofs.getD e noProof).reveal.missing = (sig'.proofs.getD e noProof).reveal.missing := by
      have := congrArg (fun l => l.getD e 0) em
      simpa [a4, a4', he, List.getElem?_eq_getElem] using this
    have hsd := shaped_seeds (a5 e he)
    have hsd' := shaped_seeds (a5' e he)
    have hml : (sig.proofs.getD e noProof).reveal.missing < I.numParties := by
      have hlt := (phase3Expand_spec X _ fuel I _ _ v2).2 (sig.proofs.getD e noProof).reveal.missing
      rw [getD_of_lt (by omega)] at hlt ⊢
      exact hlt (List.mem_map.2 ⟨_, List.getElem_mem _, rfl⟩)
    have n4 := n4 e
    have n5 := n5 e
    unfold commitInput at n4
    unfold treeInput at n5
    have hlen := fun p hp hne => openedSeed_length hI X sig.salt e hsd hml p hp hne
    have hlen' := fun p hp hne => openedSeed_length hI X sig'.salt e hsd' (fm ▸ hml) p hp hne
    dsimp only at f1 f3
    generalize sig.proofs.getD e noProof = pr at *
    generalize sig'.proofs.getD e noProof = pr' at *
    unfold Ctx.verHash1 at f1
    unfold Ctx.verHash3 at f3
    rw [Rep1Hash.mk.injEq] at f1
    rw [Rep3.mk.injEq] at f3
    obtain ⟨g1, _, g2, g3⟩ := f1
    obtain ⟨k1, _, k2, k3, _⟩ := f3
    have gc : pr.cE = pr'.cE := by
      have := map_range_inj g1 _ hml
      rwa [if_pos rfl, if_pos fm] at this
    have gs : ∀ p < I.numParties, p ≠ pr.reveal.missing → openedSeed X I sig.salt e pr.reveal p = openedSeed X I sig.salt e pr'.reveal p := fun p hp hne => by
      have := map_range_inj g1 _ hp
      rw [if_neg hne, if_neg (fm ▸ hne)] at this
      have := collide_of this (n4 p)
      rw [← esalt] at this
      exact (List.append_inj' this ((hlen p hp hne).trans (esalt ▸ hlen' p hp (fm ▸ hne)).symm)).2
    have gr : pr.reveal = pr'.reveal := by
      have hseeds : pr.reveal.seeds = pr'.reveal.seeds := by
        have hd : ∀ rl : RevealList, (rl.seeds.length = ceilLog2 I.numParties ∧ ∀ s ∈ rl.seeds, s.length = I.seedSize) → rl.seeds.length = depth (2 ^ q) ∧ ∀ s ∈ rl.seeds, s.length = I.seedSize := fun rl hrl => by
          rwa [ceilLog2_eq _ (parties_bounds hI).2.2.2, hN] at hrl
        unfold openedSeed at gs
        rw [← esalt, ← fm, hN] at n5
        rw [← fm, hN] at gs
        exact reveal_binding hq1 (by omega) (hN ▸ hml) X sig.salt e I.seedSize _ _ (hd _ hsd) (hd _ hsd') gs fun i hi => collide_of hi (n5 i)
      cases hr : pr.reveal
      cases hr' : pr'.reveal
      rw [hr, hr'] at fm hseeds
      simp only at fm hseeds
      rw [fm, hseeds]
    cases pr
    cases pr'
    simp only at gr gc g2 g3 k1 k2 k3 f2
    subst gr gc g2 g3 k1 k2 k3
    rw [f2]
  have hp : (dropLast I sig).proofs = (dropLast I sig').proofs := by
    unfold dropLast
    refine List.ext_getElem (by simp only [List.length_map]; omega) fun e h1 h2 => ?_
    simp only [List.length_map] at h1 h2
    have := hrep e (by omega)
    rw [getD_of_lt h1, getD_of_lt h2] at this
    rw [List.getElem_map, List.getElem_map]
    exact this
  unfold dropLast at hp ⊢
  cases sig
  cases sig'
  simp only at hp h1 h3 esalt
  subst h1 h3 esalt
  simp only [hp]

/-- The changed verify accepts exactly the acceptable signatures. (`fuel` only says that the loops of the challenges end.) -/
theorem acceptable_iff (X : Xof) (I : Instance) (hI : Consistent I) (pk : Bytes) (hpk : 2 * I.ctSize ≤ pk.length) (msg : Bytes) (ms : List Nat)
    (sig : Signature) (wf : SigWF I ms sig) : (∃ fuel, verify X fuel I pk sig msg = .ok true) ↔ ∃ v, VerifiedBy (input2n (I.m2 + 1) I sig) X I pk msg sig v := by
  obtain ⟨F, hF⟩ := init_supported hI.lambda
  have hr : ∀ e, e < I.numRounds → (phase1Expand X F I sig.h1).getD e [] = challenge1 X I sig.h1 e := by
    intro e he
    rw [C53_r X I F hF, getD_range_map _ _ _ _ he]
  have hmem : ∀ e pr, (pr, e) ∈ sig.proofs.zipIdx → e < sig.proofs.length := fun e pr h => by
    have := List.mem_zipIdx' h
    exact this.1
  constructor
  · rintro ⟨fuel, hv⟩
    obtain ⟨Rs, bc, c, a, b, k1, k2, k3, k4, k5, k6⟩ := (accepted_iff X fuel I hI F hF pk hpk msg ms sig wf).1 hv
    have c3 := (C53_hidden X I hI _ _).1 ⟨fuel, k2⟩
    refine ⟨⟨Rs, bc, c, a, b⟩, (C53_R X I F hF _ _).1 ⟨fuel, k1⟩, c3, fun e pr h => ?_, k4, k5, k6⟩
    rw [← hr e (by have := hmem e pr h; have := c3.1; rw [List.length_map] at this; omega)]
    exact k3 e pr h
  · rintro ⟨⟨Rs, bc, c, a, b⟩, k1, k2, k3, k4, k5, k6⟩
    obtain ⟨f1, h1⟩ := (C53_R X I F hF _ _).2 k1
    obtain ⟨f2, h2⟩ := (C53_hidden X I hI _ _).2 k2
    refine ⟨max f1 f2, (accepted_iff X _ I hI F hF pk hpk msg ms sig wf).2 ⟨Rs, bc, c, a, b, phase2Expand_mono X F I _ _ (le_max_left ..) _ h1, phase3Expand_mono X I _ (le_max_right ..) _ h2, fun e pr h => ?_, k4, k5, k6⟩⟩
    rw [hr e (by have := hmem e pr h; have := k2.1; rw [List.length_map] at this; omega)]
    exact k3 e pr h

end Banquet.Fixed
