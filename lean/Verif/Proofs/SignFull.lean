import Verif.Proofs.Sign

/-! Closed form of `signWith`: the signer is a prover whose runs fit the public key. -/

namespace Banquet

open Polynomial Spec FieldOk Spec.Aes

section
variable {I : Instance} (hI : Consistent I)
include hI

theorem keySize_cases : I.aes.keySize = 16 ∨ I.aes.keySize = 24 ∨ I.aes.keySize = 32 := by
  rcases hI.aes with h | h | h <;> (simp only [Prod.mk.injEq] at h; omega)

omit hI in
theorem tape_facts (X : Xof) (salt root : Bytes) (e p : Nat) :
    (tapeBytes (genTape X I.tapeSize (partySeed X I salt root e p) salt e p) 0 I.aes.keySize).length = I.aes.keySize ∧
    (tapeBytes (genTape X I.tapeSize (partySeed X I salt root e p) salt e p) I.aes.keySize I.aes.numSboxes).length = I.aes.numSboxes := by
  constructor
  · refine tapeBytes_length X I _ _ _ _ ?_
    unfold Instance.tapeSize
    omega
  · refine tapeBytes_length X I _ _ _ _ ?_
    unfold Instance.tapeSize
    omega

omit hI in
theorem signDelta_length (X : Xof) (salt root : Bytes) (e start len : Nat) (x : Bytes) (hx : x.length = len)
    (h : ∀ p, (tapeBytes (genTape X I.tapeSize (partySeed X I salt root e p) salt e p) start len).length = len) : (signDelta X I salt root e start len x).length = len := by
  have hm : ∀ b ∈ (List.range I.numParties).map (fun p => tapeBytes (genTape X I.tapeSize (partySeed X I salt root e p) salt e p) start len), b.length = len := by
    intro b hb
    obtain ⟨p, _, rfl⟩ := List.mem_map.1 hb
    exact h p
  unfold signDelta
  rw [List.foldl_map, foldl_xorBytes_swap _ _ h x hx]
  exact foldl_xorBytes_length _ x hx hm

/-- What the shares of an honest run add up to. -/
theorem honest_sums (X : Xof) (sk t pt salt root : Bytes) (e : Nat) (d : List W64) (hsk : sk.length = I.aes.keySize) (ht : t.length = I.aes.numSboxes) :
    xorOf I.aes.numSboxes ((List.range I.numParties).map (((signRun X I sk t salt root e d).ctx X I salt e).t I)) = t ∧
    xorOf I.aes.numSboxes ((List.range I.numParties).map fun p => (((signRun X I sk t salt root e d).ctx X I salt e).out I pt p).1) = (aesParty I.aes.keySize true sk t pt).1 ∧
    xorOf I.ctSize ((List.range I.numParties).map fun p => (((signRun X I sk t salt root e d).ctx X I salt e).out I pt p).2) = (aesParty I.aes.keySize true sk t pt).2 := by
  have hN : 0 < I.numParties := by have := (parties_bounds hI).1; omega
  have f1 : ∀ p, (tapeBytes (genTape X I.tapeSize (partySeed X I salt root e p) salt e p) 0 I.aes.keySize).length = I.aes.keySize := fun p => (tape_facts X salt root e p).1
  have f2 : ∀ p, (tapeBytes (genTape X I.tapeSize (partySeed X I salt root e p) salt e p) I.aes.keySize I.aes.numSboxes).length = I.aes.numSboxes := fun p => (tape_facts X salt root e p).2
  have l1 := signDelta_length X salt root e 0 I.aes.keySize sk hsk f1
  have l2 := signDelta_length X salt root e I.aes.keySize I.aes.numSboxes t ht f2
  have k1 : xorOf I.aes.keySize ((List.range I.numParties).map (((signRun X I sk t salt root e d).ctx X I salt e).key I)) = sk := xorOf_fix hN sk hsk _ f1
  have k2 : xorOf I.aes.numSboxes ((List.range I.numParties).map (((signRun X I sk t salt root e d).ctx X I salt e).t I)) = t := xorOf_fix hN t ht _ f2
  have g1 : ∀ p, (((signRun X I sk t salt root e d).ctx X I salt e).key I p).length = I.aes.keySize := by
    intro p
    unfold Ctx.key
    split
    · rw [length_xorBytes]
      exact (congrArg₂ min l1 (f1 p)).trans (Nat.min_self _)
    · exact f1 p
  have g2 : ∀ p, (((signRun X I sk t salt root e d).ctx X I salt e).t I p).length = I.aes.numSboxes := by
    intro p
    unfold Ctx.t
    split
    · rw [length_xorBytes]
      exact (congrArg₂ min l2 (f2 p)).trans (Nat.min_self _)
    · exact f2 p
  have := Ctx.all_eq hI ((signRun X I sk t salt root e d).ctx X I salt e) pt g1 g2
  rw [k1, k2] at this
  exact ⟨k2, this⟩

/-- The values recorded for a usable key. -/
theorem saved_facts (sk pt : Bytes) (h0 : 0 ∉ sboxInputs (I.aes.keySize / 4) I.aes.numBlocks sk pt) : ∃ saved : Saved, (aesSave I.aes.keySize sk pt).2 = saved ∧ saved.2.length = I.aes.numSboxes ∧
    aesParty I.aes.keySize true sk saved.2 pt = (saved.1, encrypt (I.aes.keySize / 4) I.aes.numBlocks sk pt) ∧ ∀ i < I.aes.numSboxes, aesMul (saved.1.getD i 0) (saved.2.getD i 0) = 1 := by
  have hb : nBlocks I.aes.keySize = I.aes.numBlocks := by
    rcases hI.aes with h | h | h <;> (simp only [Prod.mk.injEq] at h; obtain ⟨h1, h2, h3, h4⟩ := h; rw [h1, h3]; rfl)
  have hl := length_codeInputs I.aes.keySize (keySize_cases hI) sk pt
  rw [← sboxCount_eq hI] at hl
  refine ⟨_, rfl, ?_⟩
  rw [aesSave_fips _ (keySize_cases hI) sk pt (by rwa [hb])]
  refine ⟨by rw [List.length_map, hl], ?_, fun i hi => ?_⟩
  · dsimp only
    rw [aesParty_fips _ (keySize_cases hI), hb]
  · dsimp only
    have hi' : i < (codeInputs (I.aes.keySize / 4) (nBlocks I.aes.keySize) sk pt).length := by omega
    rw [List.getD_eq_getElem?_getD, List.getD_eq_getElem?_getD, List.getElem?_map, List.getElem?_eq_getElem hi']
    refine aesMul_inv _ fun hz => h0 ?_
    have : (codeInputs (I.aes.keySize / 4) (nBlocks I.aes.keySize) sk pt)[i] ∈ sboxInputs (I.aes.keySize / 4) (nBlocks I.aes.keySize) sk pt := (codeInputs_perm _ _ _ _).mem_iff.1 (List.getElem_mem _)
    simp only [Option.getD_some] at hz
    rwa [hz, hb] at this

/-- The runs of the signer. -/
structure SignerRuns (X : Xof) (F : FieldState) [FieldOk F] (I : Instance) (sk pk msg : Bytes) (runs : Nat → Run) : Prop where
  run : ∀ e, runs e = signRun X I sk (aesSave I.aes.keySize sk (slice pk 0 I.ctSize)).2.2 (genSalt X I sk pk msg) (genSeed X I sk pk msg e) e (runs e).pDelta
  sized : ∀ e, (runs e).Sized I
  red : ∀ e, AllRed F.byteSize (runs e).pDelta
  ct : ∀ e, xorOf I.ctSize ((List.range I.numParties).map fun p => (((runs e).ctx X I (genSalt X I sk pk msg) e).out I (slice pk 0 I.ctSize) p).2) =
    encrypt (I.aes.keySize / 4) I.aes.numBlocks sk (slice pk 0 I.ctSize)
  prod : ∀ e R, Reduced F.byteSize R → sumProducts F I
    ((List.range I.m1).map (((runs e).ctx X I (genSalt X I sk pk msg) e).sumA F I (slice pk 0 I.ctSize) ((phase1Expand X F I (proverH1 X I (genSalt X I sk pk msg) pk msg runs)).getD e []) R))
    ((List.range I.m1).map (((runs e).ctx X I (genSalt X I sk pk msg) e).sumB F I R)) =
    ((runs e).ctx X I (genSalt X I sk pk msg) e).sumC F I ((phase1Expand X F I (proverH1 X I (genSalt X I sk pk msg) pk msg runs)).getD e []) R
  fits : ∀ e, FitsDelta F I (slice pk 0 I.ctSize) ((runs e).ctx X I (genSalt X I sk pk msg) e) ((phase1Expand X F I (proverH1 X I (genSalt X I sk pk msg) pk msg runs)).getD e []) (runs e).pDelta

omit hI in
theorem phase1Expand_red {F : FieldState} [FieldOk F] (X : Xof) (h1 : Bytes) (e : Nat) : AllRed F.byteSize ((phase1Expand X F I h1).getD e []) := by
  by_cases he : e < I.numRounds
  · unfold phase1Expand
    dsimp only
    rw [getD_range_map _ _ _ _ he]
    exact allRed_range fun _ _ => reduced_fromBytes _
  · have : (phase1Expand X F I h1).getD e [] = [] := by
      rw [List.getD_eq_getElem?_getD, List.getElem?_eq_none (by unfold phase1Expand; simp; omega)]
      rfl
    rw [this]
    intro x hx
    cases hx

/-- `signWith` for a usable key: a prover with `SignerRuns`. -/
theorem signWith_eq {F : FieldState} [hF : FieldOk F] (X : Xof) (fuel : Nat) (sk pk msg : Bytes) (hsk : sk.length = I.aes.keySize) (hpk : 2 * I.ctSize ≤ pk.length)
    (h0 : 0 ∉ sboxInputs (I.aes.keySize / 4) I.aes.numBlocks sk (slice pk 0 I.ctSize)) : ∃ runs : Nat → Run, SignerRuns X F I sk pk msg runs ∧
    signWith X fuel F I sk pk msg =
      (phase2Expand X fuel F I (proverH2 X F I (genSalt X I sk pk msg) (proverH1 X I (genSalt X I sk pk msg) pk msg runs) runs) (F.firstN I.m2)).bind fun Rs =>
      (phase3Expand X fuel I (proverH3 X F I (slice pk 0 I.ctSize) (genSalt X I sk pk msg) (proverH1 X I (genSalt X I sk pk msg) pk msg runs)
        (proverH2 X F I (genSalt X I sk pk msg) (proverH1 X I (genSalt X I sk pk msg) pk msg runs) runs) runs Rs)).bind fun ms =>
      .ok (proverSig X F I (slice pk 0 I.ctSize) (genSalt X I sk pk msg) (proverH1 X I (genSalt X I sk pk msg) pk msg runs)
        (proverH3 X F I (slice pk 0 I.ctSize) (genSalt X I sk pk msg) (proverH1 X I (genSalt X I sk pk msg) pk msg runs)
          (proverH2 X F I (genSalt X I sk pk msg) (proverH1 X I (genSalt X I sk pk msg) pk msg runs) runs) runs Rs) runs Rs ms) := by
  have hN : 0 < I.numParties := by have := (parties_bounds hI).1; omega
  obtain ⟨saved, es, hsl, hparty, hmul⟩ := saved_facts hI sk (slice pk 0 I.ctSize) h0
  generalize hsalt : genSalt X I sk pk msg = salt
  generalize hpt : slice pk 0 I.ctSize = pt at *
  have hroot : ∀ e, (genSeed X I sk pk msg e).length = I.seedSize := fun e => squeeze_len _ _ _
  -- first phase
  choose tree htree hrep1 using fun e => signRep1_ok hI X sk pt salt (genSeed X I sk pk msg e) e saved.2 (hroot e) []
  obtain ⟨R1, hR1, t1, t2, t3, t4, t5, t6, t7, t8⟩ : ∃ R1 : Nat → SignRep1, (∀ e, signRep1 X I sk pt saved.2 salt (genSeed X I sk pk msg e) e = .ok (R1 e)) ∧ (∀ e, (R1 e).tree = tree e) ∧
      (∀ e, (R1 e).tapes = (List.range I.numParties).map ((signRun X I sk saved.2 salt (genSeed X I sk pk msg e) e []).ctx X I salt e).tape) ∧
      (∀ e, (R1 e).commitments = (List.range I.numParties).map ((signRun X I sk saved.2 salt (genSeed X I sk pk msg e) e []).com X I salt e)) ∧
      (∀ e, (R1 e).keyDelta = (signRun X I sk saved.2 salt (genSeed X I sk pk msg e) e []).skDelta) ∧ (∀ e, (R1 e).tDelta = (signRun X I sk saved.2 salt (genSeed X I sk pk msg e) e []).tDelta) ∧
      (∀ e, (R1 e).tShares = (List.range I.numParties).map (((signRun X I sk saved.2 salt (genSeed X I sk pk msg e) e []).ctx X I salt e).t I)) ∧
      (∀ e, (R1 e).sShares = (List.range I.numParties).map fun p => (((signRun X I sk saved.2 salt (genSeed X I sk pk msg e) e []).ctx X I salt e).out I pt p).1) ∧
      (∀ e, (R1 e).ctShares = (List.range I.numParties).map fun p => (((signRun X I sk saved.2 salt (genSeed X I sk pk msg e) e []).ctx X I salt e).out I pt p).2) :=
    ⟨_, hrep1, fun _ => rfl, fun _ => rfl, fun _ => rfl, fun _ => rfl, fun _ => rfl, fun _ => rfl, fun _ => rfl, fun _ => rfl⟩
  clear hrep1
  have hsums := fun e d => honest_sums hI X sk saved.2 pt salt (genSeed X I sk pk msg e) e d hsk hsl
  rw [hparty] at hsums
  have hsA : ∀ e d, ∀ i < I.m1 * I.m2, ((signRun X I sk saved.2 salt (genSeed X I sk pk msg e) e d).ctx X I salt e).sAll I pt i = saved.1.getD i 0 := by
    intro e d i hi
    rw [hI.sboxes] at hi
    rw [← (hsums e d).2.1, getD_xorOf _ _ hi]
    rfl
  have htA : ∀ e d, ∀ i < I.m1 * I.m2, ((signRun X I sk saved.2 salt (genSeed X I sk pk msg e) e d).ctx X I salt e).tAll I i = saved.2.getD i 0 := by
    intro e d i hi
    rw [hI.sboxes] at hi
    refine Eq.trans ?_ (congrArg (fun l => List.getD l i 0) (hsums e d).1)
    rw [getD_xorOf _ _ hi]
    rfl
  -- second phase
  obtain ⟨lastSq, hlast, vlast⟩ := (isVec_last (F := F) I).mul (isVec_last I)
  choose st sl tl hprods hvec using fun j => signProducts_ok (F := F) I hI.points saved j
  generalize hh1 : phase1Commit X I salt pk msg ((List.range I.numRounds).map fun e => ((signRun X I sk saved.2 salt (genSeed X I sk pk msg e) e []).ctx X I salt e).hash1 I pt
    ((signRun X I sk saved.2 salt (genSeed X I sk pk msg e) e []).com X I salt e)) = h1
  choose d hfit hrep2 using fun e => signRep2_ok (F := F) (I := I) (pt := pt) (saved := saved) (rs := (phase1Expand X F I h1).getD e []) hI.points (phase1Expand_red X h1 e) (hsA e []) (htA e []) vlast
    (prods := (List.range I.m1).map fun j => (st j, sl j, tl j)) (fun j hj => by
      rw [getD_range_map _ _ _ _ hj]
      exact hvec j) (R1 e) (t2 e) (t6 e) (t7 e)
  obtain ⟨R2, hR2, u1, u2, u3, u4⟩ : ∃ R2 : Nat → SignRep2, (∀ e, signRep2 F I (precomp F I) lastSq ((List.range I.m1).map fun j => (st j, sl j, tl j)) ((phase1Expand X F I h1).getD e []) (R1 e) = .ok (R2 e)) ∧
      (∀ e, (R2 e).sP = (List.range I.numParties).map (((signRun X I sk saved.2 salt (genSeed X I sk pk msg e) e (d e)).ctx X I salt e).sPts F I pt ((phase1Expand X F I h1).getD e []))) ∧
      (∀ e, (R2 e).tP = (List.range I.numParties).map (((signRun X I sk saved.2 salt (genSeed X I sk pk msg e) e (d e)).ctx X I salt e).tPts F I)) ∧
      (∀ e, (R2 e).pShares = (List.range I.numParties).map (((signRun X I sk saved.2 salt (genSeed X I sk pk msg e) e (d e)).ctx X I salt e).pPts F I ((phase1Expand X F I h1).getD e []))) ∧
      (∀ e, (R2 e).pDelta = d e) := ⟨_, hrep2, fun _ => rfl, fun _ => rfl, fun _ => rfl, fun _ => rfl⟩
  clear hrep2
  have e1 : proverH1 X I salt pk msg (fun e => signRun X I sk saved.2 salt (genSeed X I sk pk msg e) e (d e)) = h1 := by
    rw [← hh1]
    unfold proverH1
    rw [hpt]
    rfl
  have hprod : ∀ e R, Reduced F.byteSize R → sumProducts F I
      ((List.range I.m1).map (((signRun X I sk saved.2 salt (genSeed X I sk pk msg e) e (d e)).ctx X I salt e).sumA F I pt ((phase1Expand X F I h1).getD e []) R))
      ((List.range I.m1).map (((signRun X I sk saved.2 salt (genSeed X I sk pk msg e) e (d e)).ctx X I salt e).sumB F I R)) =
      ((signRun X I sk saved.2 salt (genSeed X I sk pk msg e) e (d e)).ctx X I salt e).sumC F I ((phase1Expand X F I h1).getD e []) R := by
    intro e R hR
    rw [Ctx.sumProducts_iff _ _ _ _ _ hR (phase1Expand_red X h1 e) (hfit e).red]
    have := honest_poly (F := F) (I := I) (pt := pt) (c := (signRun X I sk saved.2 salt (genSeed X I sk pk msg e) e (d e)).ctx X I salt e) (rs := (phase1Expand X F I h1).getD e []) hI.points hN
      (phase1Expand_red X h1 e) ⟨(hfit e).len, (hfit e).red, (hfit e).vals⟩ (fun i hi => by
        rw [hsA e _ i hi, htA e _ i hi]
        exact hmul i (by rwa [hI.sboxes] at hi))
    exact congrArg (fun P => P.eval (val F.byteSize R)) this
  refine ⟨fun e => signRun X I sk saved.2 salt (genSeed X I sk pk msg e) e (d e), ⟨?_, ?_, ?_, ?_, ?_, ?_⟩, ?_⟩
  · intro e
    rw [hpt, es, hsalt]
    rfl
  · intro e
    exact ⟨hroot e, signDelta_length X salt _ e _ _ _ hsk fun p => (tape_facts X salt _ e p).1, signDelta_length X salt _ e _ _ _ hsl fun p => (tape_facts X salt _ e p).2, (hfit e).len⟩
  · exact fun e => (hfit e).red
  · intro e
    rw [hpt, hsalt]
    exact (hsums e (d e)).2.2
  · intro e R hR
    rw [hpt, hsalt, e1]
    exact hprod e R hR
  · intro e
    rw [hpt, hsalt, e1]
    exact ⟨(hfit e).len, (hfit e).red, (hfit e).vals⟩
  · rw [e1]
    unfold signWith
    rw [checkAes_ok hI, ok_bind, decide_eq_true ⟨hsk, hpk⟩, require_true, ok_bind]
    dsimp only
    rw [hpt, es, decide_eq_true ⟨hsl, hI.sboxes.le⟩, require_true, ok_bind, hsalt, mapM_ok _ _ R1 fun e _ => hR1 e, ok_bind]
    have c1 : phase1Commit X I salt pk msg (((List.range I.numRounds).map R1).map fun r => ⟨r.commitments, r.ctShares, r.keyDelta, r.tDelta⟩) = h1 := by
      rw [← hh1, List.map_map]
      congr 1
      apply List.map_congr_left
      intro e _
      dsimp only [Function.comp]
      rw [t3, t4, t5, t8]
      rfl
    rw [c1, hlast, ok_bind, mapM_ok _ _ (fun j => (st j, sl j, tl j)) fun j _ => hprods j, ok_bind]
    have z1 : List.zip (phase1Expand X F I h1) ((List.range I.numRounds).map R1) = (List.range I.numRounds).map fun e => ((phase1Expand X F I h1).getD e [], R1 e) := by
      rw [← zip_range, ← eq_range_map (phase1Expand X F I h1) I.numRounds [] (by unfold phase1Expand; simp)]
    have m2 : (List.zip (phase1Expand X F I h1) ((List.range I.numRounds).map R1)).mapM (fun x => signRep2 F I (precomp F I) lastSq ((List.range I.m1).map fun j => (st j, sl j, tl j)) x.1 x.2) =
        .ok ((List.range I.numRounds).map R2) := by
      rw [z1, List.mapM_map]
      exact mapM_ok _ _ R2 fun e _ => hR2 e
    rw [m2, ok_bind, List.map_map]
    have c2 : phase2Commit X F I salt h1 ((List.range I.numRounds).map ((fun r : SignRep2 => r.pDelta) ∘ R2)) =
        proverH2 X F I salt h1 (fun e => signRun X I sk saved.2 salt (genSeed X I sk pk msg e) e (d e)) := by
      unfold proverH2
      congr 1
      apply List.map_congr_left
      intro e _
      exact u4 e
    rw [c2]
    generalize proverH2 X F I salt h1 (fun e => signRun X I sk saved.2 salt (genSeed X I sk pk msg e) e (d e)) = h2
    cases hRs : phase2Expand X fuel F I h2 (F.firstN I.m2) with
    | error e => rfl
    | ok Rs =>
    obtain ⟨Rl, hRr⟩ := phase2Expand_spec X fuel I _ _ Rs hRs
    rw [ok_bind]
    change _ = (phase3Expand X fuel I (proverH3 X F I pt salt h1 h2 (fun e => signRun X I sk saved.2 salt (genSeed X I sk pk msg e) e (d e)) Rs)).bind _
    have z3 : List.zip Rs ((List.range I.numRounds).map R2) = (List.range I.numRounds).map fun e => (Rs.getD e 0, R2 e) := by
      rw [← zip_range, ← eq_range_map Rs I.numRounds 0 Rl]
    have m3 : (List.zip Rs ((List.range I.numRounds).map R2)).mapM (fun x => signRep3 F I (precomp F I) x.1 x.2) = .ok ((List.range I.numRounds).map fun e =>
        ((signRun X I sk saved.2 salt (genSeed X I sk pk msg e) e (d e)).ctx X I salt e).hash3 F I pt ((phase1Expand X F I h1).getD e []) (Rs.getD e 0)) := by
      rw [z3, List.mapM_map]
      exact mapM_ok _ _ _ fun e _ => signRep3_ok (Rs.getD e 0) (R2 e) (u1 e) (u2 e) (u3 e)
    have c3 : phase3Commit X F I salt h2 ((List.range I.numRounds).map fun e =>
        ((signRun X I sk saved.2 salt (genSeed X I sk pk msg e) e (d e)).ctx X I salt e).hash3 F I pt ((phase1Expand X F I h1).getD e []) (Rs.getD e 0)) =
        proverH3 X F I pt salt h1 h2 (fun e => signRun X I sk saved.2 salt (genSeed X I sk pk msg e) e (d e)) Rs := rfl
    rw [m3, ok_bind, c3]
    generalize proverH3 X F I pt salt h1 h2 (fun e => signRun X I sk saved.2 salt (genSeed X I sk pk msg e) e (d e)) Rs = h3
    cases hms : phase3Expand X fuel I h3 with
    | error e => rfl
    | ok ms =>
    obtain ⟨ml, mlt⟩ := phase3Expand_spec X _ fuel I h3 ms hms
    have z4 : List.zip ms (List.zip ((List.range I.numRounds).map R1) (List.zip ((List.range I.numRounds).map R2) ((List.range I.numRounds).map fun e =>
        ((signRun X I sk saved.2 salt (genSeed X I sk pk msg e) e (d e)).ctx X I salt e).hash3 F I pt ((phase1Expand X F I h1).getD e []) (Rs.getD e 0)))) =
        (List.range I.numRounds).map fun e => (ms.getD e 0, R1 e, R2 e,
          ((signRun X I sk saved.2 salt (genSeed X I sk pk msg e) e (d e)).ctx X I salt e).hash3 F I pt ((phase1Expand X F I h1).getD e []) (Rs.getD e 0)) := by
      rw [zip_range, zip_range, ← zip_range (fun e => ms.getD e 0), ← eq_range_map ms I.numRounds 0 ml]
    have m4 : ((List.range I.numRounds).map fun e => (ms.getD e 0, R1 e, R2 e,
          ((signRun X I sk saved.2 salt (genSeed X I sk pk msg e) e (d e)).ctx X I salt e).hash3 F I pt ((phase1Expand X F I h1).getD e []) (Rs.getD e 0))).mapM
          (fun x => signRep4 F I x.2.1 x.2.2.1 x.2.2.2 x.1) = .ok ((List.range I.numRounds).map fun e =>
          (signRun X I sk saved.2 salt (genSeed X I sk pk msg e) e (d e)).proof X F I pt salt e ((phase1Expand X F I h1).getD e []) (Rs.getD e 0) (ms.getD e 0)) := by
      rw [List.mapM_map]
      refine mapM_ok _ _ _ fun e he => ?_
      have he := List.mem_range.1 he
      have hme : ms.getD e 0 < I.numParties := by
        rw [getD_of_lt (by omega)]
        exact mlt _ (List.getElem_mem _)
      have hRe : Reduced F.byteSize (Rs.getD e 0) := by
        rw [getD_of_lt (by omega)]
        exact (hRr _ (List.getElem_mem _)).1
      dsimp only [Function.comp, Ctx.hash3]
      unfold signRep4
      dsimp only
      rw [if_neg (not_not.2 (hprod e _ hRe)), t1, t3, t4, t5, u4, revealAllBut_revealOf hI X salt _ e (htree e) hme, getD_range_map _ _ _ _ hme]
      rfl
    rw [ok_bind, z4, m4, ok_bind]
    rfl

end

end Banquet
