import Verif.Proofs.LoopsView

/-! `Loops.signWith` and `signWith` agree. -/

namespace Banquet.Loops

open Polynomial Spec FieldOk Spec.Aes

/-- Building a vector by `push_back`, where the computation of the elements may fail. -/
theorem forTo_pushM {α : Type} (n : Nat) (body : Nat → List α → M (List α)) (g : Nat → M α) (h : ∀ i < n, ∀ l, body i l = (g i >>= fun x => .ok (l ++ [x]))) : forTo n body [] = (List.range n).mapM g := by
  induction n with
  | zero => rfl
  | succ n ih =>
    rw [forTo_succ, ih fun i hi => h i (by omega), List.range_succ, List.mapM_append]
    cases (List.range n).mapM g with
    | error e => rfl
    | ok l =>
      rw [ok_bind, ok_bind, h n (by omega), List.mapM_cons, List.mapM_nil]
      cases g n <;> rfl

theorem check_push {α : Type} {c : Prop} [Decidable c] (x : α) (l : List α) : (if c then (.error .thrown : M (List α)) else .ok (l ++ [x])) = ((if c then (.error .thrown : M α) else .ok x) >>= fun x => .ok (l ++ [x])) := by
  by_cases h : c
  · rw [if_pos h, if_pos h]
    rfl
  · rw [if_neg h, if_neg h]
    rfl

theorem precomp_lengths (F : FieldState) [FieldOk F] (I : Instance) : (precomp F I).xs2.length = 2 * I.m2 + 1 ∧ (precomp F I).lagM2.length = I.m2 + 1 ∧ (precomp F I).lag2M2.length = 2 * I.m2 + 1 := by
  refine ⟨length_firstN _, ?_, ?_⟩
  · change (F.precomputeLagrange _).length = _
    unfold FieldState.precomputeLagrange
    rw [List.length_map, List.length_range, length_firstN]
  · change (F.precomputeLagrange _).length = _
    unfold FieldState.precomputeLagrange
    rw [List.length_map, List.length_range, length_firstN]

theorem saved_lengths {I : Instance} (hI : Consistent I) (sk pt : Bytes) (h0 : 0 ∉ sboxInputs (I.aes.keySize / 4) I.aes.numBlocks sk pt) : (aesSave I.aes.keySize sk pt).2.1.length = I.aes.numSboxes := by
  have hb : nBlocks I.aes.keySize = I.aes.numBlocks := by
    rcases hI.aes with h | h | h <;> (simp only [Prod.mk.injEq] at h; obtain ⟨h1, h2, h3, h4⟩ := h; rw [h1, h3]; rfl)
  have hl := length_codeInputs I.aes.keySize (keySize_cases hI) sk pt
  rw [← sboxCount_eq hI] at hl
  rw [aesSave_fips _ (keySize_cases hI) sk pt (by rwa [hb])]
  exact hl

/-- Usable keys. -/
theorem signWith_usable {I : Instance} (hI : Consistent I) {F : FieldState} [hFo : FieldOk F] (hF : F.byteSize = I.lambda) (X : Xof) (fuel : Nat) (sk pk msg : Bytes) (hsk : sk.length = I.aes.keySize)
    (hpk : 2 * I.ctSize ≤ pk.length) (h0 : 0 ∉ sboxInputs (I.aes.keySize / 4) I.aes.numBlocks sk (slice pk 0 I.ctSize)) :
    signWith X fuel F I sk pk msg = Banquet.signWith X fuel F I sk pk msg := by
  have hN : 0 < I.numParties := by have := (parties_bounds hI).1; omega
  obtain ⟨saved, es, hsl, hparty, hmul⟩ := saved_facts hI sk (slice pk 0 I.ctSize) h0
  have hsl1 := saved_lengths hI sk (slice pk 0 I.ctSize) h0
  rw [es] at hsl1
  generalize hsalt : genSalt X I sk pk msg = salt
  have hptl : (slice pk 0 I.ctSize).length = I.ctSize := slice_length (by omega)
  generalize hpt : slice pk 0 I.ctSize = pt at *
  have hroot : ∀ e, (genSeed X I sk pk msg e).length = I.seedSize := fun e => squeeze_len _ _ _
  -- first phase
  choose tree htree hleaf using fun e => Banquet.signTree hI X salt (genSeed X I sk pk msg e) e (hroot e)
  choose tree' htree' hrep1 using fun e => signRep1_ok hI X sk pt salt (genSeed X I sk pk msg e) e saved.2 (hroot e) []
  have htt : tree' = tree := by
    funext e
    have := (htree' e).symm.trans (htree e)
    injection this
  subst htt
  let C : Nat → Ctx := fun e => (signRun X I sk saved.2 salt (genSeed X I sk pk msg e) e []).ctx X I salt e
  let com : Nat → Nat → Bytes := fun e => (signRun X I sk saved.2 salt (genSeed X I sk pk msg e) e []).com X I salt e
  have hCt : ∀ e p, ((C e).tape p).length = I.tapeSize := fun e p => squeeze_len _ _ _
  obtain ⟨R1, hR1, t1, t2, t3, t4, t5, t6, t7, t8⟩ : ∃ R1 : Nat → SignRep1, (∀ e, signRep1 X I sk pt saved.2 salt (genSeed X I sk pk msg e) e = .ok (R1 e)) ∧ (∀ e, (R1 e).tree = tree' e) ∧
      (∀ e, (R1 e).tapes = (List.range I.numParties).map (C e).tape) ∧ (∀ e, (R1 e).commitments = (List.range I.numParties).map (com e)) ∧ (∀ e, (R1 e).keyDelta = (C e).skDelta) ∧
      (∀ e, (R1 e).tDelta = (C e).tDelta) ∧ (∀ e, (R1 e).tShares = (List.range I.numParties).map ((C e).t I)) ∧
      (∀ e, (R1 e).sShares = (List.range I.numParties).map fun p => ((C e).out I pt p).1) ∧ (∀ e, (R1 e).ctShares = (List.range I.numParties).map fun p => ((C e).out I pt p).2) :=
    ⟨_, hrep1, fun _ => rfl, fun _ => rfl, fun _ => rfl, fun _ => rfl, fun _ => rfl, fun _ => rfl, fun _ => rfl, fun _ => rfl⟩
  clear hrep1
  have hsums := fun e d => honest_sums hI X sk saved.2 pt salt (genSeed X I sk pk msg e) e d hsk hsl
  rw [hparty] at hsums
  have hsA : ∀ e d, ∀ i < I.m1 * I.m2, ((signRun X I sk saved.2 salt (genSeed X I sk pk msg e) e d).ctx X I salt e).sAll I pt i = saved.1.getD i 0 := by
    intro e d i hi
    rw [hI.sboxes] at hi
    rw [← (hsums e d).2.1, getD_xorOf _ _ hi]
    rfl
  have htA : ∀ e d, ∀ i < I.m1 * I.m2, ((signRun X I sk saved.2 salt (genSeed X I sk pk msg e) e d).ctx X I salt e).tAll I i = saved.2.getD i 0 := by
    intro e d i hi
    rw [hI.sboxes] at hi
    refine Eq.trans ?_ (congrArg (fun l => List.getD l i 0) (hsums e d).1)
    rw [getD_xorOf _ _ hi]
    rfl
  -- second phase
  obtain ⟨lastSq, hlast, vlast⟩ := (isVec_last (F := F) I).mul (isVec_last I)
  choose st sl tl hprods hvec using fun j => signProducts_ok (F := F) I hI.points saved j
  generalize hh1 : phase1Commit X I salt pk msg ((List.range I.numRounds).map fun e => (C e).hash1 I pt (com e)) = h1
  choose d hfit hrep2 using fun e => signRep2_ok (F := F) (I := I) (pt := pt) (saved := saved) (rs := (phase1Expand X F I h1).getD e []) hI.points (phase1Expand_red X h1 e) (hsA e []) (htA e []) vlast
    (prods := (List.range I.m1).map fun j => (st j, sl j, tl j)) (fun j hj => by
      rw [getD_range_map _ _ _ _ hj]
      exact hvec j) (R1 e) (t2 e) (t6 e) (t7 e)
  let D : Nat → Ctx := fun e => (signRun X I sk saved.2 salt (genSeed X I sk pk msg e) e (d e)).ctx X I salt e
  obtain ⟨R2, hR2, u1, u2, u3, u4⟩ : ∃ R2 : Nat → SignRep2, (∀ e, signRep2 F I (precomp F I) lastSq ((List.range I.m1).map fun j => (st j, sl j, tl j)) ((phase1Expand X F I h1).getD e []) (R1 e) = .ok (R2 e)) ∧
      (∀ e, (R2 e).sP = (List.range I.numParties).map ((D e).sPts F I pt ((phase1Expand X F I h1).getD e []))) ∧
      (∀ e, (R2 e).tP = (List.range I.numParties).map ((D e).tPts F I)) ∧
      (∀ e, (R2 e).pShares = (List.range I.numParties).map ((D e).pPts F I ((phase1Expand X F I h1).getD e []))) ∧
      (∀ e, (R2 e).pDelta = d e) := ⟨_, hrep2, fun _ => rfl, fun _ => rfl, fun _ => rfl, fun _ => rfl⟩
  clear hrep2
  have hdl : ∀ e, (d e).length = I.m2 + 1 := fun e => (hfit e).len
  obtain ⟨px, p1, p2⟩ := precomp_lengths F I
  have hrss : (phase1Expand X F I h1).length = I.numRounds := by simp [phase1Expand]
  have hrl : ∀ e < I.numRounds, ((phase1Expand X F I h1).getD e []).length = I.m1 := by
    intro e he
    unfold phase1Expand
    dsimp only
    rw [getD_range_map _ _ _ _ he]
    simp
  have hkd : ∀ e, (List.range I.numParties).foldl (fun d p => xorBytes (tapeBytes ((C e).tape p) 0 I.aes.keySize) d) sk = (C e).skDelta := by
    intro e
    change _ = signDelta X I salt (genSeed X I sk pk msg e) e 0 I.aes.keySize sk
    unfold signDelta
    rw [List.foldl_map]
    rfl
  have htd : ∀ e, (List.range I.numParties).foldl (fun d p => xorBytes (tapeBytes ((C e).tape p) I.aes.keySize I.aes.numSboxes) d) saved.2 = (C e).tDelta := by
    intro e
    change _ = signDelta X I salt (genSeed X I sk pk msg e) e I.aes.keySize I.aes.numSboxes saved.2
    unfold signDelta
    rw [List.foldl_map]
    rfl
  have t1' : 0 + I.aes.keySize ≤ I.tapeSize := by unfold Instance.tapeSize; omega
  have t2' : I.aes.keySize + I.aes.numSboxes ≤ I.tapeSize := by unfold Instance.tapeSize; omega
  have htl : ∀ e, ∀ p < I.numParties, ((C e).t I p).length = I.aes.numSboxes := by
    intro e p hp
    have h1 := tapeBytes_len (hCt e p) t2'
    unfold Ctx.t
    split
    · rw [length_xorBytes, h1, ← htd e, foldl_xor_length _ (fun q hq => tapeBytes_len (hCt e q) t2') _ hsl, Nat.min_self]
    · exact h1
  have hol : ∀ e p, ((C e).out I pt p).1.length = I.aes.numSboxes ∧ ((C e).out I pt p).2.length = I.ctSize := fun e p => out_length hI (C e) pt p
  -- the loops
  unfold signWith
  rw [decide_eq_true hpk, require_true, ok_bind]
  dsimp only
  rw [checkAes_ok hI, ok_bind, decide_eq_true hsk.ge, require_true, ok_bind, List.take_of_length_le hsk.le, hpt, es, hsalt,
    signTrees_ok X I salt (genSeed X I sk pk msg) tree' (fun e => partySeed X I salt (genSeed X I sk pk msg e) e) (fun e _ => htree e) (fun e _ => hleaf e) (fun e _ p _ => by unfold partySeed; rw [seedAt_length, hroot]), ok_bind]
  dsimp only
  rw [show (of I.numRounds I.numParties I.tapeSize 0 fun e p => genTape X I.tapeSize (partySeed X I salt (genSeed X I sk pk msg e) e p) salt e p) = of I.numRounds I.numParties I.tapeSize 0 fun e p => (C e).tape p from rfl,
    show (of I.numRounds I.numParties I.digestSize 0 fun e p => commitSingle X I (partySeed X I salt (genSeed X I sk pk msg e) e p) salt e p) = of I.numRounds I.numParties I.digestSize 0 com from rfl,
    signSharesAll_ok hI sk pt saved.2 hptl.ge hsk hsl C (fun e _ p _ => hCt e p) (fun e _ => hkd e) (fun e _ => htd e), ok_bind]
  dsimp only
  rw [phase1Bytes_ok I salt pk msg com (fun e p => ((C e).out I pt p).2) _ _ (fun e _ p _ => squeeze_len _ _ _) (fun e _ p _ => (hol e p).2) (by simp) (by simp), ok_bind]
  have c1 : (X (kindOf I.digestSize) (phase1Input I salt pk msg ((List.range I.numRounds).map fun e => ⟨(List.range I.numParties).map (com e), (List.range I.numParties).map fun p => ((C e).out I pt p).2,
      ((List.range I.numRounds).map fun e => (C e).skDelta).getD e [], ((List.range I.numRounds).map fun e => (C e).tDelta).getD e []⟩))).squeeze 0 I.digestSize = h1 := by
    rw [← hh1]
    unfold phase1Commit
    congr 3
    refine List.map_congr_left fun e he => ?_
    rw [getD_range_map _ _ _ _ (List.mem_range.1 he), getD_range_map _ _ _ _ (List.mem_range.1 he)]
    rfl
  rw [c1, rd_getD [] (by omega), ok_bind, hlast, ok_bind, signProductsAll_ok F hI (precomp F I) saved hsl1 hsl st sl tl (fun j _ => hprods j), ok_bind]
  dsimp only
  obtain ⟨y, z, hpolys⟩ := signPolysAll_ok F hI hF (precomp F I) px lastSq st sl tl (phase1Expand X F I h1) hrss hrl (fun e p => (C e).tape p) (fun e p => ((C e).out I pt p).1) (fun e p => (C e).t I p)
    (fun e _ p _ => hCt e p) (fun e _ p _ => (hol e p).1) (fun e _ => htl e) R1 R2 (fun e _ => t2 e) (fun e _ => t6 e) (fun e _ => t7 e) (fun e _ => hR2 e)
  rw [hpolys, ok_bind]
  dsimp only
  rw [phase2Bytes_ok F I salt h1 _ (by simp) (fun x hx => by
    obtain ⟨e, _, rfl⟩ := List.mem_map.1 hx
    rw [u4, hdl]
    omega), ok_bind]
  have hsP : ((List.range I.numRounds).map fun e => (R2 e).sP) = (List.range I.numRounds).map fun e => (List.range I.numParties).map ((D e).sPts F I pt ((phase1Expand X F I h1).getD e [])) :=
    List.map_congr_left fun e _ => u1 e
  have htP : ((List.range I.numRounds).map fun e => (R2 e).tP) = (List.range I.numRounds).map fun e => (List.range I.numParties).map ((D e).tPts F I) := List.map_congr_left fun e _ => u2 e
  have hpS : ((List.range I.numRounds).map fun e => (R2 e).pShares) = (List.range I.numRounds).map fun e => (List.range I.numParties).map ((D e).pPts F I ((phase1Expand X F I h1).getD e [])) :=
    List.map_congr_left fun e _ => u3 e
  have hpD : ((List.range I.numRounds).map fun e => (R2 e).pDelta) = (List.range I.numRounds).map d := List.map_congr_left fun e _ => u4 e
  rw [hsP, htP, hpS, hpD]
  -- the other model
  have hR : Banquet.signWith X fuel F I sk pk msg = (do
      let Rs ← phase2Expand X fuel F I (phase2Commit X F I salt h1 ((List.range I.numRounds).map d)) (F.firstN I.m2)
      let reps3 ← (List.zip Rs ((List.range I.numRounds).map R2)).mapM fun (R, r2) => signRep3 F I (precomp F I) R r2
      let h3 := phase3Commit X F I salt (phase2Commit X F I salt h1 ((List.range I.numRounds).map d)) reps3
      let missing ← phase3Expand X fuel I h3
      let proofs ← (List.zip missing (List.zip ((List.range I.numRounds).map R1) (List.zip ((List.range I.numRounds).map R2) reps3))).mapM fun (m, r1, r2, r3) => signRep4 F I r1 r2 r3 m
      .ok ⟨salt, h1, h3, proofs⟩) := by
    unfold Banquet.signWith
    rw [checkAes_ok hI, ok_bind, decide_eq_true ⟨hsk, hpk⟩, require_true, ok_bind]
    dsimp only
    rw [hpt, es, decide_eq_true ⟨hsl, hI.sboxes.le⟩, require_true, ok_bind, hsalt, mapM_ok _ _ R1 fun e _ => hR1 e, ok_bind]
    have c1 : phase1Commit X I salt pk msg (((List.range I.numRounds).map R1).map fun r => ⟨r.commitments, r.ctShares, r.keyDelta, r.tDelta⟩) = h1 := by
      rw [← hh1, List.map_map]
      congr 1
      apply List.map_congr_left
      intro e _
      dsimp only [Function.comp]
      rw [t3, t4, t5, t8]
      rfl
    rw [c1, hlast, ok_bind, mapM_ok _ _ (fun j => (st j, sl j, tl j)) fun j _ => hprods j, ok_bind]
    have z1 : List.zip (phase1Expand X F I h1) ((List.range I.numRounds).map R1) = (List.range I.numRounds).map fun e => ((phase1Expand X F I h1).getD e [], R1 e) := by
      rw [← zip_range, ← eq_range_map (phase1Expand X F I h1) I.numRounds [] (by unfold phase1Expand; simp)]
    have m2 : (List.zip (phase1Expand X F I h1) ((List.range I.numRounds).map R1)).mapM (fun x => signRep2 F I (precomp F I) lastSq ((List.range I.m1).map fun j => (st j, sl j, tl j)) x.1 x.2) =
        .ok ((List.range I.numRounds).map R2) := by
      rw [z1, List.mapM_map]
      exact mapM_ok _ _ R2 fun e _ => hR2 e
    rw [m2, ok_bind, List.map_map]
    rw [show (List.range I.numRounds).map ((fun r : SignRep2 => r.pDelta) ∘ R2) = (List.range I.numRounds).map d from hpD]
  rw [hR]
  rw [show (X (kindOf I.digestSize) (phase2Input F I salt h1 ((List.range I.numRounds).map d))).squeeze 0 I.digestSize = phase2Commit X F I salt h1 ((List.range I.numRounds).map d) from rfl]
  generalize phase2Commit X F I salt h1 ((List.range I.numRounds).map d) = h2
  cases hRs : phase2Expand X fuel F I h2 (F.firstN I.m2) with
  | error e => rfl
  | ok Rs =>
  obtain ⟨Rl, hRr⟩ := phase2Expand_spec X fuel I _ _ Rs hRs
  rw [ok_bind, ok_bind]
  obtain ⟨l, hviews⟩ := signViewsAll_ok F pt D (fun e => (phase1Expand X F I h1).getD e []) Rs Rl p1.ge p2.ge ((List.range I.numRounds).map d) y z
  rw [hviews, ok_bind]
  dsimp only
  rw [phase3Bytes_ok F I salt h2 (fun e => (D e).sumC F I ((phase1Expand X F I h1).getD e []) (Rs.getD e 0)) (fun e => (List.range I.numParties).map ((D e).pc F I ((phase1Expand X F I h1).getD e []) (Rs.getD e 0)))
    (fun e => (List.range I.m1).map ((D e).sumA F I pt ((phase1Expand X F I h1).getD e []) (Rs.getD e 0))) (fun e => (List.range I.m1).map ((D e).sumB F I (Rs.getD e 0))) _ _
    (fun e _ => by simp) (fun e _ => by simp) (fun e _ => by simp) (fun e _ p _ => by simp) (fun e _ p _ => by simp), ok_bind]
  have z3 : List.zip Rs ((List.range I.numRounds).map R2) = (List.range I.numRounds).map fun e => (Rs.getD e 0, R2 e) := by
    rw [← zip_range, ← eq_range_map Rs I.numRounds 0 Rl]
  have m3 : (List.zip Rs ((List.range I.numRounds).map R2)).mapM (fun x => signRep3 F I (precomp F I) x.1 x.2) = .ok ((List.range I.numRounds).map fun e =>
      (D e).hash3 F I pt ((phase1Expand X F I h1).getD e []) (Rs.getD e 0)) := by
    rw [z3, List.mapM_map]
    exact mapM_ok _ _ _ fun e _ => signRep3_ok (Rs.getD e 0) (R2 e) (u1 e) (u2 e) (u3 e)
  rw [m3, ok_bind]
  rw [show (X (kindOf I.digestSize) (phase3Input F I salt h2 ((List.range I.numRounds).map fun e => ⟨(D e).sumC F I ((phase1Expand X F I h1).getD e []) (Rs.getD e 0),
      (List.range I.numParties).map ((D e).pc F I ((phase1Expand X F I h1).getD e []) (Rs.getD e 0)), (List.range I.m1).map ((D e).sumA F I pt ((phase1Expand X F I h1).getD e []) (Rs.getD e 0)),
      (List.range I.m1).map ((D e).sumB F I (Rs.getD e 0)), (List.range I.numParties).map fun p => (List.range I.m1).map ((D e).a F I pt ((phase1Expand X F I h1).getD e []) (Rs.getD e 0) p),
      (List.range I.numParties).map fun p => (List.range I.m1).map ((D e).b F I (Rs.getD e 0) p)⟩))).squeeze 0 I.digestSize =
    phase3Commit X F I salt h2 ((List.range I.numRounds).map fun e => (D e).hash3 F I pt ((phase1Expand X F I h1).getD e []) (Rs.getD e 0)) from rfl]
  generalize phase3Commit X F I salt h2 ((List.range I.numRounds).map fun e => (D e).hash3 F I pt ((phase1Expand X F I h1).getD e []) (Rs.getD e 0)) = h3
  cases hms : phase3Expand X fuel I h3 with
  | error e => rfl
  | ok ms =>
  obtain ⟨ml, mlt⟩ := phase3Expand_spec X _ fuel I h3 ms hms
  rw [ok_bind, ok_bind, forTo_push I.numRounds _ (fun e => (tree' e).revealAllBut (ms.getD e 0)) (fun e he => by
    rw [rd_map _ _ he, ok_bind, rd_getD 0 (by omega), ok_bind]), ok_bind]
  have z4 : List.zip ms (List.zip ((List.range I.numRounds).map R1) (List.zip ((List.range I.numRounds).map R2) ((List.range I.numRounds).map fun e =>
      (D e).hash3 F I pt ((phase1Expand X F I h1).getD e []) (Rs.getD e 0)))) =
      (List.range I.numRounds).map fun e => (ms.getD e 0, R1 e, R2 e, (D e).hash3 F I pt ((phase1Expand X F I h1).getD e []) (Rs.getD e 0)) := by
    rw [zip_range, zip_range, ← zip_range (fun e => ms.getD e 0), ← eq_range_map ms I.numRounds 0 ml]
  rw [z4, List.mapM_map, forTo_pushM (g := fun e => signRep4 F I (R1 e) (R2 e) ((D e).hash3 F I pt ((phase1Expand X F I h1).getD e []) (Rs.getD e 0)) (ms.getD e 0)) I.numRounds _ (fun e he l => by
    have hme : ms.getD e 0 < I.numParties := by
      rw [getD_of_lt (by omega)]
      exact mlt _ (List.getElem_mem _)
    have hcl : (com e (ms.getD e 0)).length = I.digestSize := squeeze_len _ _ _
    unfold signProof
    dsimp only
    rw [rd_getD 0 (by omega), ok_bind, get_of he hme hcl, ok_bind, decide_eq_true hcl.le, require_true, ok_bind, rd_map _ _ he, ok_bind, rd_map _ _ he, ok_bind, rd_map _ _ he, ok_bind, rd_map _ _ he, ok_bind,
      rd_map _ _ he, ok_bind, rd_map _ _ he, ok_bind, rd_map _ _ he, ok_bind, accum_ok F I _ _ (by simp) (by simp), ok_bind]
    unfold signRep4
    dsimp only [Ctx.hash3]
    rw [t1, t3, t4, t5, u4, getD_range_map _ _ _ _ hme, hcl, Nat.sub_self, List.replicate_zero, List.append_nil]
    exact check_push _ _)]
  rfl

theorem error_bind {α β : Type} (e : Err) (f : α → M β) : ((.error e : M α) >>= f) = .error e := rfl

/-- Sharing a value that is too short. -/
theorem signShare_short {I : Instance} (hN : 0 < I.numParties) {T e start len : Nat} (he : e < T) (tape : Nat → Nat → Bytes) (ht : ∀ p < I.numParties, (tape e p).length = I.tapeSize) (h : start + len ≤ I.tapeSize)
    (x : Bytes) (hx : x.length < len) (f : Nat → Nat → Bytes) : signShare I (of T I.numParties I.tapeSize 0 tape) start len e x (of T I.numParties len 0 f) = .error .ub := by
  have hl := tapeBytes_len (ht 0 hN) h
  unfold signShare
  rw [forTo_stop I.numParties _ _ (fun _ => (of T I.numParties len 0 f, x)) 0 hN .ub rfl (fun i hi => by omega) (by
    dsimp only
    rw [getBytes_of he hN (ht 0 hN) h, ok_bind, fill_of he hN hl, ok_bind, get_of he hN (by rw [upd_same]; exact hl), ok_bind, upd_same]
    unfold xorOnto
    rw [decide_eq_false (by rw [hl]; omega), require_false]
    rfl)]
  rfl

/-- All keys of at most the right length. -/
theorem signWith_loops {I : Instance} (hI : Consistent I) {F : FieldState} [FieldOk F] (hF : F.byteSize = I.lambda) (X : Xof) (fuel : Nat) (sk pk msg : Bytes) (hsk : sk.length ≤ I.aes.keySize) :
    signWith X fuel F I sk pk msg = Banquet.signWith X fuel F I sk pk msg := by
  by_cases hpk : 2 * I.ctSize ≤ pk.length
  swap
  · have e1 : signWith X fuel F I sk pk msg = .error .ub := by
      unfold signWith
      rw [decide_eq_false hpk, require_false]
      rfl
    have e2 : Banquet.signWith X fuel F I sk pk msg = .error .ub := by
      unfold Banquet.signWith
      rw [checkAes_ok hI, ok_bind, decide_eq_false (fun h => hpk h.2), require_false]
      rfl
    rw [e1, e2]
  by_cases hl : sk.length = I.aes.keySize
  swap
  · have e1 : signWith X fuel F I sk pk msg = .error .ub := by
      unfold signWith
      rw [decide_eq_true hpk, require_true, ok_bind, checkAes_ok hI]
      dsimp only
      rw [ok_bind, decide_eq_false (by omega), require_false]
      rfl
    have e2 : Banquet.signWith X fuel F I sk pk msg = .error .ub := by
      unfold Banquet.signWith
      rw [checkAes_ok hI, ok_bind, decide_eq_false (fun h => hl h.1), require_false]
      rfl
    rw [e1, e2]
  by_cases h0 : 0 ∈ sboxInputs (I.aes.keySize / 4) I.aes.numBlocks sk (slice pk 0 I.ctSize)
  swap
  · exact signWith_usable hI hF X fuel sk pk msg hl hpk h0
  have hN : 0 < I.numParties := by have := (parties_bounds hI).1; omega
  have hb : nBlocks I.aes.keySize = I.aes.numBlocks := by
    rcases hI.aes with h | h | h <;> (simp only [Prod.mk.injEq] at h; obtain ⟨h1, h2, h3, h4⟩ := h; rw [h1, h3]; rfl)
  have hz := (aesSave_zero I.aes.keySize (keySize_cases hI) sk (slice pk 0 I.ctSize) (by rwa [hb])).2.2
  rw [← sboxCount_eq hI] at hz
  have e2 : Banquet.signWith X fuel F I sk pk msg = .error .ub := by
    unfold Banquet.signWith
    rw [checkAes_ok hI, ok_bind, decide_eq_true ⟨hl, hpk⟩, require_true, ok_bind]
    dsimp only
    rw [decide_eq_false (by omega)]
    rfl
  rw [e2]
  have hroot : ∀ e, (genSeed X I sk pk msg e).length = I.seedSize := fun e => squeeze_len _ _ _
  choose tree htree hleaf using fun e => Banquet.signTree hI X (genSalt X I sk pk msg) (genSeed X I sk pk msg e) e (hroot e)
  have t1 : 0 + I.aes.keySize ≤ I.tapeSize := by unfold Instance.tapeSize; omega
  have t2 : I.aes.keySize + I.aes.numSboxes ≤ I.tapeSize := by unfold Instance.tapeSize; omega
  unfold signWith
  rw [decide_eq_true hpk, require_true, ok_bind]
  dsimp only
  rw [checkAes_ok hI, ok_bind, decide_eq_true hl.ge, require_true, ok_bind, List.take_of_length_le hl.le,
    signTrees_ok X I (genSalt X I sk pk msg) (genSeed X I sk pk msg) tree (fun e => partySeed X I (genSalt X I sk pk msg) (genSeed X I sk pk msg e) e) (fun e _ => htree e) (fun e _ => hleaf e)
      (fun e _ p _ => by unfold partySeed; rw [seedAt_length, hroot]), ok_bind]
  dsimp only
  rw [mk_of, mk_of, mk_of, forTo_stop I.numRounds _ _ (fun _ => _) 0 hI.rounds.1 .ub rfl (fun i hi => by omega) (by
    unfold signShares
    dsimp only
    rw [of_objectSize, signShare_ok hN hI.rounds.1 _ (fun p _ => squeeze_len _ _ _) t1 sk hl _ rfl, ok_bind]
    dsimp only
    rw [signShare_short hN hI.rounds.1 _ (fun p _ => squeeze_len _ _ _) t2 _ hz]
    rfl)]
  rfl

end Banquet.Loops
