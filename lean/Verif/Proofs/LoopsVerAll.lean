import Verif.Proofs.LoopsVerView

/-! `Loops.verifyWith` and `verifyWith` agree. -/

namespace Banquet.Loops

open Spec

theorem prf_map {α : Type} (sig : Signature) (f : Proof → α) {n : Nat} (h : sig.proofs.length = n) : sig.proofs.map f = (List.range n).map fun e => f (prf sig e) := by
  conv_lhs => rw [eq_range_map sig.proofs n noProof h]
  rw [List.map_map]
  rfl

theorem shaped_lengths {I : Instance} {pr : Proof} (h : pr.shaped I = true) : pr.cE.length = I.digestSize ∧ pr.skDelta.length = I.aes.keySize ∧ pr.tDelta.length = I.aes.numSboxes ∧ pr.pDelta.length = I.m2 + 1 ∧
    pr.sAtR.length = I.m1 ∧ pr.tAtR.length = I.m1 := by
  unfold Proof.shaped at h
  simp only [Bool.and_eq_true, decide_eq_true_eq] at h
  tauto

/-- The loop of banquet.cpp:1183-1192. -/
theorem verSums_ok (F : FieldState) {I : Instance} {sig : Signature} (hs : sig.shaped I = true) : verSums F I sig = .ok (sig.proofs.all fun p => decide (sumProducts F I p.sAtR p.tAtR = p.pAtR)) := by
  obtain ⟨-, -, -, hs4, hs5⟩ := shaped_facts hs
  unfold verSums
  refine (forTo_state _ _ _ (fun e => (List.range e).all fun e => decide (sumProducts F I (prf sig e).sAtR (prf sig e).tAtR = (prf sig e).pAtR)) rfl fun e he => ?_).trans ?_
  · obtain ⟨-, -, -, -, l5, l6⟩ := shaped_lengths (hs5 e he)
    rw [List.range_succ, List.all_append]
    by_cases h : ((List.range e).all fun e => decide (sumProducts F I (prf sig e).sAtR (prf sig e).tAtR = (prf sig e).pAtR)) = true
    · rw [if_pos h, h, rd_getD noProof (by omega), ok_bind, accum_ok F I _ _ l5 l6, ok_bind]
      simp
    · rw [if_neg h]
      simp only [Bool.not_eq_true] at h
      rw [h]
      rfl
  · conv_rhs => rw [eq_range_map sig.proofs _ noProof hs4]
    rw [List.all_map]
    rfl

theorem checks_ok (x1 y1 x3 y3 : Bytes) (b : Bool) : (if x1 ≠ y1 then (.ok false : M Bool) else (.ok () : M Unit) >>= fun _ => if x3 ≠ y3 then .ok false else .ok b) =
    .ok (decide (x1 = y1) && decide (x3 = y3) && b) := by
  by_cases e1 : x1 = y1 <;> by_cases e3 : x3 = y3 <;> simp [e1, e3] <;> rfl

/-- The two models of `banquet_verify` agree on all signatures whose vectors have the sizes of the instance. -/
theorem verifyWith_loops {I : Instance} (hI : Consistent I) {F : FieldState} [hFo : FieldOk F] (hF : F.byteSize = I.lambda) (X : Xof) {dummy : Bytes} (hd : dummy.length = I.seedSize) (fuel : Nat) (pk msg : Bytes) {sig : Signature}
    (hs : sig.shaped I = true) : verifyWith X dummy fuel F I pk sig msg = Banquet.verifyWith X dummy fuel F I pk sig msg := by
  by_cases hpk : 2 * I.ctSize ≤ pk.length
  swap
  · have e1 : verifyWith X dummy fuel F I pk sig msg = .error .ub := by
      unfold verifyWith
      rw [decide_eq_false hpk, require_false]
      rfl
    have e2 : Banquet.verifyWith X dummy fuel F I pk sig msg = .error .ub := by
      unfold Banquet.verifyWith
      rw [checkAes_ok hI, ok_bind, decide_eq_false (fun h => hpk h.1), require_false]
      rfl
    rw [e1, e2]
  obtain ⟨hs1, hs2, hs3, hs4, hs5⟩ := shaped_facts hs
  have hlen := fun e he => shaped_lengths (hs5 e he)
  obtain ⟨-, p1, p2⟩ := precomp_lengths F I
  rw [verifyWith_eq hI F X dummy hd fuel pk hpk sig hs msg]
  unfold verifyWith
  rw [decide_eq_true hpk, require_true, ok_bind]
  dsimp only
  rw [phase2Bytes_ok F I sig.salt sig.h1 _ (by rw [List.length_map, hs4]) (fun x hx => by
    rw [prf_map sig (·.pDelta) hs4] at hx
    obtain ⟨e, he, rfl⟩ := List.mem_map.1 hx
    rw [(hlen e (List.mem_range.1 he)).2.2.2.1]
    omega), ok_bind, show (X (kindOf I.digestSize) (phase2Input F I sig.salt sig.h1 (sig.proofs.map (·.pDelta)))).squeeze 0 I.digestSize = verH2 X F I sig from rfl]
  generalize hh2 : verH2 X F I sig = h2
  cases hRs : phase2Expand X fuel F I h2 (F.firstN I.m2) with
  | error e => rfl
  | ok Rs =>
  obtain ⟨Rl, -⟩ := phase2Expand_spec X fuel I _ _ Rs hRs
  rw [ok_bind]
  change _ = (phase3Expand X fuel I sig.h3).bind _
  cases hms : phase3Expand X fuel I sig.h3 with
  | error e => rfl
  | ok missing =>
  obtain ⟨ml, mlt⟩ := phase3Expand_spec X _ fuel I sig.h3 missing hms
  have hmlt : ∀ e < I.numRounds, missing.getD e 0 < I.numParties := fun e he => by
    rw [getD_of_lt (by omega)]
    exact mlt _ (List.getElem_mem _)
  have htr := verTrees_ok hI X hd hs ml hmlt
  change _ = (if missing = sig.proofs.map (·.reveal.missing) then _ else _)
  by_cases hmiss : missing = sig.proofs.map (·.reveal.missing)
  swap
  · rw [if_neg hmiss] at htr
    rw [ok_bind, htr, if_neg hmiss]
    rfl
  rw [if_pos hmiss] at htr
  obtain ⟨trees, htr⟩ := htr
  have hme : ∀ e < I.numRounds, missing.getD e 0 = (prf sig e).reveal.missing := fun e he => by
    rw [hmiss, getD_of_lt (by rw [List.length_map]; omega), List.getElem_map, prf, getD_of_lt (by omega)]
  let c : Nat → Ctx := fun e => verCtx X I dummy sig.salt e (prf sig e)
  have hct : ∀ e p, ((c e).tape p).length = I.tapeSize := fun e p => squeeze_len _ _ _
  have hrl : ∀ e < I.numRounds, ((phase1Expand X F I sig.h1).getD e []).length = I.m1 := by
    intro e he
    unfold phase1Expand
    dsimp only
    rw [getD_range_map _ _ _ _ he]
    simp
  have t2 : I.aes.keySize + I.aes.numSboxes ≤ I.tapeSize := by unfold Instance.tapeSize; omega
  have htl : ∀ e < I.numRounds, ∀ p < I.numParties, ((c e).t I p).length = I.aes.numSboxes := by
    intro e he p hp
    have h1 := tapeBytes_len (hct e p) t2
    unfold Ctx.t
    split
    · rw [length_xorBytes, h1]
      change min (prf sig e).tDelta.length _ = _
      rw [(hlen e he).2.2.1, Nat.min_self]
    · exact h1
  have hctl : (slice pk I.ctSize I.ctSize).length = I.ctSize := slice_length (by omega)
  rw [ok_bind, htr, ok_bind, if_pos hmiss]
  dsimp only
  rw [show (of I.numRounds I.numParties I.tapeSize 0 fun e p => (verCtx X I dummy sig.salt e (prf sig e)).tape p) = of I.numRounds I.numParties I.tapeSize 0 fun e p => (c e).tape p from rfl,
    verSharesAll_ok hI (slice pk 0 I.ctSize) (slice pk I.ctSize I.ctSize) (slice_length (by omega)).ge hctl sig hs4 ml hmlt c (fun e _ p _ => hct e p) (fun e he => ⟨rfl, (hlen e he).2.1⟩) (fun e he => ⟨rfl, (hlen e he).2.2.1⟩), ok_bind]
  dsimp only
  rw [verPolysAll_ok F hI hF (slice pk 0 I.ctSize) sig hs4 ml (phase1Expand X F I sig.h1) (by simp [phase1Expand]) hrl c (fun e _ p _ => hct e p) htl (fun e he => ⟨rfl, (hlen e he).2.2.2.1⟩), ok_bind]
  obtain ⟨l, hvi⟩ := verViewsAll_ok F (slice pk 0 I.ctSize) c (fun e => (phase1Expand X F I sig.h1).getD e []) sig hs4 (fun e he => (hlen e he).2.2.2.2) ml hmlt Rs Rl p1.ge p2.ge
  rw [hvi, ok_bind]
  dsimp only
  rw [phase1Bytes_ok I sig.salt pk msg _ _ _ _ (fun e he p _ => by
      split_ifs
      · exact (hlen e he).1
      · exact squeeze_len _ _ _) (fun e he p _ => by
      split_ifs
      · exact ctMissing_length hI (c e) _ _ hctl _
      · exact (out_length hI (c e) _ p).2) (by rw [List.length_map, hs4]) (by rw [List.length_map, hs4]), ok_bind,
    phase3Bytes_ok F I sig.salt h2 (fun e => (prf sig e).pAtR) _ (fun e => (prf sig e).sAtR) (fun e => (prf sig e).tAtR) _ _ (fun e _ => by simp [Ctx.verHash3]) (fun e he => (hlen e he).2.2.2.2.1)
      (fun e he => (hlen e he).2.2.2.2.2) (fun e _ p _ => by simp) (fun e _ p _ => by simp), ok_bind]
  have c1 : (X (kindOf I.digestSize) (phase1Input I sig.salt pk msg ((List.range I.numRounds).map fun e =>
      ⟨(List.range I.numParties).map (fun p => if p = (prf sig e).reveal.missing then (prf sig e).cE else commitSingle X I (openedSeed X I sig.salt e (prf sig e).reveal p) sig.salt e p),
        (List.range I.numParties).map (fun p => if p = missing.getD e 0 then (c e).ctMissing I (slice pk 0 I.ctSize) (slice pk I.ctSize I.ctSize) (missing.getD e 0) else ((c e).out I (slice pk 0 I.ctSize) p).2),
        (sig.proofs.map (·.skDelta)).getD e [], (sig.proofs.map (·.tDelta)).getD e []⟩))).squeeze 0 I.digestSize = phase1Commit X I sig.salt pk msg (verReps1 X I dummy pk sig) := by
    unfold phase1Commit verReps1
    congr 3
    refine List.map_congr_left fun e he => ?_
    have he := List.mem_range.1 he
    rw [hme e he, prf_map sig (·.skDelta) hs4, prf_map sig (·.tDelta) hs4, getD_range_map _ _ _ _ he, getD_range_map _ _ _ _ he]
    rfl
  have c3 : (X (kindOf I.digestSize) (phase3Input F I sig.salt h2 ((List.range I.numRounds).map fun e =>
      ⟨(prf sig e).pAtR, ((c e).verHash3 F I (slice pk 0 I.ctSize) ((phase1Expand X F I sig.h1).getD e []) (Rs.getD e 0) (prf sig e) (missing.getD e 0)).cShares, (prf sig e).sAtR, (prf sig e).tAtR,
        (List.range I.numParties).map (fun p => (List.range I.m1).map fun j => if p = missing.getD e 0 then
          others (fun acc q => gfAdd acc ((c e).a F I (slice pk 0 I.ctSize) ((phase1Expand X F I sig.h1).getD e []) (Rs.getD e 0) q j)) (missing.getD e 0) ((prf sig e).sAtR.getD j 0) I.numParties
          else (c e).a F I (slice pk 0 I.ctSize) ((phase1Expand X F I sig.h1).getD e []) (Rs.getD e 0) p j),
        (List.range I.numParties).map (fun p => (List.range I.m1).map fun j => if p = missing.getD e 0 then
          others (fun acc q => gfAdd acc ((c e).b F I (Rs.getD e 0) q j)) (missing.getD e 0) ((prf sig e).tAtR.getD j 0) I.numParties else (c e).b F I (Rs.getD e 0) p j)⟩))).squeeze 0 I.digestSize =
      phase3Commit X F I sig.salt h2 (verReps3 X F I dummy pk sig Rs) := by
    unfold phase3Commit verReps3
    congr 3
    refine List.map_congr_left fun e he => ?_
    rw [hme e (List.mem_range.1 he)]
    rfl
  have l1 : (phase1Commit X I sig.salt pk msg (verReps1 X I dummy pk sig)).length = sig.h1.length := by rw [hs2]; exact squeeze_len _ _ _
  have l3 : (phase3Commit X F I sig.salt h2 (verReps3 X F I dummy pk sig Rs)).length = sig.h3.length := by rw [hs3]; exact squeeze_len _ _ _
  rw [c1, c3]
  generalize phase1Commit X I sig.salt pk msg (verReps1 X I dummy pk sig) = x1 at *
  generalize phase3Commit X F I sig.salt h2 (verReps3 X F I dummy pk sig Rs) = x3 at *
  rw [decide_eq_true l1.le, require_true, ok_bind, l1, List.take_of_length_le le_rfl, decide_eq_true l3.le, require_true, l3, List.take_of_length_le le_rfl, verSums_ok F hs]
  exact checks_ok _ _ _ _ _

end Banquet.Loops
