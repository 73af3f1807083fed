import Verif.Proofs.Rekey

/-! The simulated signature does not change when a seed on a hidden path is replaced. -/

namespace Banquet

open Spec FieldOk Props

section
variable {I : Instance} {D : Finset Bytes} {L : Nat} (hI : Consistent I)
variable {X0 : Xof} {c : Nat} {e i : Nat} {r' : Bytes} {ω : Coins I D L} (hD : ∀ y : Bytes, y.length ≤ I.seedSize + 37 → y ∈ D) (hL1 : 32 + I.numRounds * I.seedSize ≤ L) (hL2 : 2 * I.seedSize ≤ L)
  (he : e < I.numRounds) (hi : i + 1 < 2 * I.numParties) (hr : r'.length = I.seedSize) (hne : r' ≠ ω.saltOf.take I.seedSize)
  (hcl : ∀ e < I.numRounds, ∀ p < I.numParties, ω.node X0 e (leafNode I.numParties p) ≠ ω.saltOf.take I.seedSize)
include hI

/-- Inputs of the length of a hash are not concerned. -/
theorem rekey_hash (hr : r'.length = I.seedSize) {d : Bytes} (hd : d.length = I.digestSize) : (ω.rekey X0 e i r').xof X0 (kindOf I.digestSize) d = ω.xof X0 (kindOf I.digestSize) d := by
  obtain ⟨s1, s2, s3⟩ := seed_cases hI
  have hs := ω.salt_length
  have ku : ∀ r : Bytes, r.length = I.seedSize → d ≠ use1 I ω.saltOf e i r ∧ d ≠ use2 I ω.saltOf e i r := by
    intro r hr
    constructor <;> intro h
    · rw [h, use1_length hs hr] at hd
      split at hd <;> omega
    · rw [h, use2_length hs hr] at hd
      split at hd <;> omega
  obtain ⟨a1, a2⟩ := ku _ (ω.node_length X0 e i)
  obtain ⟨a3, a4⟩ := ku _ hr
  refine withTable_congr _ X0 (fun hy => rekey_same a1 a3 (.inr ⟨a2, a4⟩) (.inr fun h => ?_) hy) _
  rw [h] at hd
  unfold Coins.parent at hd
  simp only [List.length_append, le16_length, List.length_singleton, hs, ω.node_length] at hd
  omega

include hD hL1 hL2 he hi hr hne hcl

theorem rekey_com (e' : Nat) (he' : e' < I.numRounds) (p : Nat) (hp : p < I.numParties) :
    commitSingle ((ω.rekey X0 e i r').xof X0) I ((ω.rekey X0 e i r').node X0 e' (leafNode I.numParties p)) ω.saltOf e' p = commitSingle (ω.xof X0) I (ω.node X0 e' (leafNode I.numParties p)) ω.saltOf e' p := by
  have hN := (parties_bounds hI).2.1
  have hT := hI.rounds.2
  have hs := ω.salt_length
  obtain ⟨s1, s2, s3⟩ := seed_cases hI
  have hlf := leafNode_eq hI p
  rw [rekey_node hI hD hL1 hL2 he hi hr hne hcl e' he' _ (by omega)]
  unfold commitSingle
  by_cases h : e' = e ∧ leafNode I.numParties p = i
  · obtain ⟨rfl, rfl⟩ := h
    rw [if_pos ⟨rfl, rfl⟩]
    have k := rekey_use1 (ω := ω) (X0 := X0) hI hD he hi hr hne hcl 0 I.digestSize (by omega)
    unfold use1 at k
    rw [if_pos (by omega), if_pos (by omega), show leafNode I.numParties p + 1 - I.numParties = p by omega] at k
    exact k
  · rw [if_neg h]
    have hx : (ω.saltOf ++ le16 e' ++ le16 p ++ ω.node X0 e' (leafNode I.numParties p)).length = I.seedSize + 36 := by
      simp only [List.length_append, le16_length, hs, ω.node_length]
      omega
    have ku : ∀ r : Bytes, r.length = I.seedSize → (I.numParties ≤ i + 1 → r ≠ ω.saltOf.take I.seedSize) →
        ω.saltOf ++ le16 e' ++ le16 p ++ ω.node X0 e' (leafNode I.numParties p) ≠ use1 I ω.saltOf e i r ∧ ω.saltOf ++ le16 e' ++ le16 p ++ ω.node X0 e' (leafNode I.numParties p) ≠ use2 I ω.saltOf e i r := by
      intro r hr hn
      by_cases hl : I.numParties ≤ i + 1
      · unfold use1 use2
        rw [if_pos hl, if_pos hl]
        refine ⟨fun hc => h ?_, com_ne_tape hI hs hr (hn hl)⟩
        obtain ⟨h1, _⟩ := List.append_inj hc (by simp only [List.length_append, le16_length])
        obtain ⟨h1, h2⟩ := List.append_inj' h1 rfl
        have h3 := (List.append_inj' h1 rfl).2
        have := le16_inj (by omega) (by omega) h2
        exact ⟨le16_inj (by omega) (by omega) h3, by omega⟩
      · constructor <;> intro hc
        · rw [hc, use1_length hs hr, if_neg hl] at hx
          omega
        · rw [hc, use2_length hs hr, if_neg hl] at hx
          omega
    obtain ⟨a1, a2⟩ := ku _ (ω.node_length X0 e i) (own_ne hI he hi hcl)
    obtain ⟨a3, a4⟩ := ku _ hr fun _ => hne
    congr 1
    refine withTable_congr _ X0 (fun hy => rekey_same a1 a3 (.inr ⟨a2, a4⟩) (.inr fun h => ?_) hy) _
    rw [h] at hx
    unfold Coins.parent at hx
    simp only [List.length_append, le16_length, List.length_singleton, hs, ω.node_length] at hx
    omega

theorem rekey_tape (hT : I.tapeSize ≤ L) (e' : Nat) (he' : e' < I.numRounds) (p : Nat) (hp : p < I.numParties) :
    ((ω.rekey X0 e i r').xof X0 (kindOf I.digestSize) (tapeInput ((ω.rekey X0 e i r').node X0 e' (leafNode I.numParties p)) ω.saltOf e' p)).squeeze 0 I.tapeSize =
      (ω.xof X0 (kindOf I.digestSize) (tapeInput (ω.node X0 e' (leafNode I.numParties p)) ω.saltOf e' p)).squeeze 0 I.tapeSize := by
  have hN := (parties_bounds hI).2.1
  have hR := hI.rounds.2
  have hs := ω.salt_length
  obtain ⟨s1, s2, s3⟩ := seed_cases hI
  have hlf := leafNode_eq hI p
  rw [rekey_node hI hD hL1 hL2 he hi hr hne hcl e' he' _ (by omega)]
  by_cases h : e' = e ∧ leafNode I.numParties p = i
  · obtain ⟨rfl, rfl⟩ := h
    rw [if_pos ⟨rfl, rfl⟩]
    have k := rekey_use2 (ω := ω) (X0 := X0) hI hD he hi hr hne hcl (by omega) 0 I.tapeSize (by omega)
    unfold use2 at k
    rw [if_pos (by omega), if_pos (by omega), show leafNode I.numParties p + 1 - I.numParties = p by omega] at k
    exact k
  · rw [if_neg h]
    have hx : (tapeInput (ω.node X0 e' (leafNode I.numParties p)) ω.saltOf e' p).length = I.seedSize + 36 := by
      unfold tapeInput
      simp only [List.length_append, le16_length, hs, ω.node_length]
    have ku : ∀ r : Bytes, r.length = I.seedSize →
        tapeInput (ω.node X0 e' (leafNode I.numParties p)) ω.saltOf e' p ≠ use1 I ω.saltOf e i r ∧ tapeInput (ω.node X0 e' (leafNode I.numParties p)) ω.saltOf e' p ≠ use2 I ω.saltOf e i r := by
      intro r hr
      by_cases hl : I.numParties ≤ i + 1
      · unfold use1 use2
        rw [if_pos hl, if_pos hl]
        refine ⟨(com_ne_tape hI hs (ω.node_length _ _ _) (hcl e' he' p hp)).symm, fun hc => h ?_⟩
        unfold tapeInput at hc
        obtain ⟨h1, h2⟩ := List.append_inj' hc rfl
        have h3 := (List.append_inj' h1 rfl).2
        have := le16_inj (by omega) (by omega) h2
        exact ⟨le16_inj (by omega) (by omega) h3, by omega⟩
      · constructor <;> intro hc
        · rw [hc, use1_length hs hr, if_neg hl] at hx
          omega
        · rw [hc, use2_length hs hr, if_neg hl] at hx
          omega
    obtain ⟨a1, a2⟩ := ku _ (ω.node_length X0 e i)
    obtain ⟨a3, a4⟩ := ku _ hr
    congr 1
    refine withTable_congr _ X0 (fun hy => rekey_same a1 a3 (.inr ⟨a2, a4⟩) (.inr fun h => ?_) hy) _
    rw [h] at hx
    unfold Coins.parent at hx
    simp only [List.length_append, le16_length, List.length_singleton, hs, ω.node_length] at hx
    omega

end

/-! ## The output of the simulator -/

/-- Two hash functions and lists of master seeds with the same opened seeds, commitments and tapes. -/
structure SameSeen (I : Instance) (salt : Bytes) (root root' : Nat → Bytes) (ms : Nat → Nat) (X X' : Xof) : Prop where
  sib : ∀ e < I.numRounds, ∀ k < depth I.numParties, seedAt X' (root' e) salt e (sibling (ancestor (leafNode I.numParties (ms e)) k)) = seedAt X (root e) salt e (sibling (ancestor (leafNode I.numParties (ms e)) k))
  com : ∀ e < I.numRounds, ∀ p < I.numParties, commitSingle X' I (partySeed X' I salt (root' e) e p) salt e p = commitSingle X I (partySeed X I salt (root e) e p) salt e p
  tape : ∀ e < I.numRounds, ∀ p < I.numParties, (X' (kindOf I.digestSize) (tapeInput (partySeed X' I salt (root' e) e p) salt e p)).squeeze 0 I.tapeSize =
    (X (kindOf I.digestSize) (tapeInput (partySeed X I salt (root e) e p) salt e p)).squeeze 0 I.tapeSize

section
variable {I : Instance} (hI : Consistent I) {salt : Bytes} {root root' : Nat → Bytes} (hroot : ∀ e, (root e).length = I.seedSize) (hroot' : ∀ e, (root' e).length = I.seedSize) {ms : Nat → Nat}
  (hms : ∀ e < I.numRounds, ms e < I.numParties) {X X' : Xof} (h : SameSeen I salt root root' ms X X')
include h

include hms in
theorem SameSeen.proof (F : FieldState) (e : Nat) (he : e < I.numRounds) : simProof X' F I salt (root' e) e (ms e) = simProof X F I salt (root e) e (ms e) := by
  have h1 := h.tape e he _ (hms e he)
  have h2 := h.com e he _ (hms e he)
  have h3 := List.map_congr_left (l := List.range (depth I.numParties)) fun k hk => h.sib e he k (List.mem_range.1 hk)
  unfold partySeed at h1 h2
  unfold commitSingle at h2
  unfold simProof digest
  dsimp only
  rw [h1, h2, h3]

include hI hroot hroot' hms in
theorem SameSeen.agree (F : FieldState) (dummy : Bytes) (e : Nat) (he : e < I.numRounds) : Ctx.Agree I (ms e) (verCtx X' I dummy salt e (simProof X' F I salt (root' e) e (ms e)))
    (verCtx X I dummy salt e (simProof X F I salt (root e) e (ms e))) := by
  have hp := h.proof hms F e he
  refine ⟨congrArg Proof.skDelta hp, congrArg Proof.tDelta hp, congrArg Proof.pDelta hp, ?_⟩
  rintro p ⟨hp, hne⟩
  unfold verCtx verTape
  dsimp only
  have e1 : (simProof X F I salt (root e) e (ms e)).reveal = revealOf X I salt (root e) e (ms e) := rfl
  have e2 : (simProof X' F I salt (root' e) e (ms e)).reveal = revealOf X' I salt (root' e) e (ms e) := rfl
  rw [e1, e2, if_neg (show p ≠ (revealOf X I salt (root e) e (ms e)).missing from hne), if_neg (show p ≠ (revealOf X' I salt (root' e) e (ms e)).missing from hne),
    openedSeed_revealOf hI X salt (root e) (hroot e) e (hms e he) hp hne, openedSeed_revealOf hI X' salt (root' e) (hroot' e) e (hms e he) hp hne, genTape_eq hI hroot, genTape_eq hI hroot']
  exact h.tape e he p hp

include hI hroot hroot' hms in
theorem SameSeen.hash1 (F : FieldState) (dummy pt ct : Bytes) (e : Nat) (he : e < I.numRounds) :
    (verCtx X' I dummy salt e (simProof X' F I salt (root' e) e (ms e))).verHash1 I pt ct (simProof X' F I salt (root' e) e (ms e))
      (fun p => commitSingle X' I (openedSeed X' I salt e (simProof X' F I salt (root' e) e (ms e)).reveal p) salt e p) (ms e) =
    (verCtx X I dummy salt e (simProof X F I salt (root e) e (ms e))).verHash1 I pt ct (simProof X F I salt (root e) e (ms e))
      (fun p => commitSingle X I (openedSeed X I salt e (simProof X F I salt (root e) e (ms e)).reveal p) salt e p) (ms e) := by
  rw [(h.agree hI hroot hroot' hms F dummy e he).verHash1 I]
  have hc : ∀ p < I.numParties, p ≠ ms e → commitSingle X' I (openedSeed X' I salt e (simProof X' F I salt (root' e) e (ms e)).reveal p) salt e p =
      commitSingle X I (openedSeed X I salt e (simProof X F I salt (root e) e (ms e)).reveal p) salt e p := by
    intro p hp hne
    have e1 : (simProof X F I salt (root e) e (ms e)).reveal = revealOf X I salt (root e) e (ms e) := rfl
    have e2 : (simProof X' F I salt (root' e) e (ms e)).reveal = revealOf X' I salt (root' e) e (ms e) := rfl
    rw [e1, e2, openedSeed_revealOf hI X salt (root e) (hroot e) e (hms e he) hp hne, openedSeed_revealOf hI X' salt (root' e) (hroot' e) e (hms e he) hp hne]
    exact h.com e he p hp
  rw [h.proof hms F e he] at hc ⊢
  unfold Ctx.verHash1
  rw [Rep1Hash.mk.injEq]
  refine ⟨List.map_congr_left fun p hp => ?_, rfl, rfl, rfl⟩
  split
  · rfl
  · rename_i hpm
    exact hc p (List.mem_range.1 hp) hpm

include hI hroot hroot' hms in
/-- The simulator returns the same. -/
theorem SameSeen.out {c : Nat} {ml : List Nat} (hml : ∀ e < I.numRounds, ml.getD e 0 = ms e) (F : FieldState) (pk msg d1 d2 d3 : Bytes) (h1 : X' (kindOf I.digestSize) d1 = X (kindOf I.digestSize) d1) (Rs : List W64) :
    simOut c X' F I pk msg salt root' d1 d2 d3 Rs ml = simOut c X F I pk msg salt root d1 d2 d3 Rs ml := by
  have hs : simSig X' F I salt root' d1 d3 ml = simSig X F I salt root d1 d3 ml := by
    unfold simSig
    congr 1
    refine List.map_congr_left fun e he => ?_
    rw [hml e (List.mem_range.1 he)]
    exact h.proof hms F e (List.mem_range.1 he)
  have hg : ∀ (X : Xof) (root : Nat → Bytes) (e : Nat), e < I.numRounds → (simSig X F I salt root d1 d3 ml).proofs.getD e noProof = simProof X F I salt (root e) e (ms e) := fun X root e he => by
    unfold simSig
    dsimp only
    rw [getD_range_map _ _ _ _ he, hml e he]
  unfold simOut
  rw [Simulated.mk.injEq]
  refine ⟨hs, ?_, by rw [hs], ?_⟩
  · congr 1
    unfold verReps1
    refine List.map_congr_left fun e he => ?_
    have he := List.mem_range.1 he
    dsimp only
    rw [hg X root e he, hg X' root' e he]
    exact h.hash1 hI hroot hroot' hms F _ _ _ e he
  · congr 1
    unfold verReps3
    refine List.map_congr_left fun e he => ?_
    have he := List.mem_range.1 he
    dsimp only
    rw [hg X root e he, hg X' root' e he]
    change (verCtx X' I _ salt e _).verHash3 F I _ ((phase1Expand X' F I d1).getD e []) _ _ (ms e) = (verCtx X I _ salt e _).verHash3 F I _ ((phase1Expand X F I d1).getD e []) _ _ (ms e)
    rw [(h.agree hI hroot hroot' hms F _ e he).verHash3 I, h.proof hms F e he, phase1Expand_congr h1]

end

section
variable {I : Instance} {D : Finset Bytes} {L : Nat} (hI : Consistent I)
variable {X0 : Xof} {c : Nat} {e j : Nat} {r' : Bytes} {ω : Coins I D L} (hD : ∀ y : Bytes, y.length ≤ I.seedSize + 37 → y ∈ D) (hL1 : 32 + I.numRounds * I.seedSize ≤ L) (hL2 : 2 * I.seedSize ≤ L) (hT : I.tapeSize ≤ L)
  (he : e < I.numRounds) (hr : r'.length = I.seedSize) (hne : r' ≠ ω.saltOf.take I.seedSize)
  (hcl : ∀ e < I.numRounds, ∀ p < I.numParties, ω.node X0 e (leafNode I.numParties p) ≠ ω.saltOf.take I.seedSize) {ms : List Nat} (hms : ∀ e < I.numRounds, ms.getD e 0 < I.numParties)
include hI

theorem anc_lt {m : Nat} (hm : m < I.numParties) (j : Nat) : ancestor (leafNode I.numParties m) j + 1 < 2 * I.numParties := by
  obtain ⟨b1, b2, b3, b4⟩ := parties_bounds hI
  rcases Nat.lt_or_ge (depth I.numParties) j with h | h
  · rw [anc_root b1 b3 hm j h.le]
    omega
  · have hl := leafNode_bounds b1 b3 hm
    obtain ⟨l1, l2⟩ := ancestor_level _ _ hl.1 hl.2 j h
    have hN := depth_pow hI
    have : 2 ^ (depth I.numParties - j + 1) ≤ 2 ^ (depth I.numParties + 1) := Nat.pow_le_pow_right (by norm_num) (by omega)
    rw [pow_succ 2 (depth I.numParties), ← hN] at this
    omega

include hD hL1 hL2 hT he hr hne hcl hms in
/-- The signature and the inputs stay the same when a seed on the path to the hidden party is replaced. -/
theorem rekey_out (F : FieldState) (pk msg : Bytes) (Rs : List W64) :
    (ω.rekey X0 e (ancestor (leafNode I.numParties (ms.getD e 0)) j) r').out X0 c F pk msg Rs ms = ω.out X0 c F pk msg Rs ms := by
  have hi := anc_lt hI (hms e he) j
  set i := ancestor (leafNode I.numParties (ms.getD e 0)) j with hid
  obtain ⟨b1, b2, b3, b4⟩ := parties_bounds hI
  have hsalt := rekey_saltOf (ω := ω) (X0 := X0) (e := e) (i := i) (r' := r') (by omega : 32 ≤ L)
  have hnode := rekey_node (ω := ω) (X0 := X0) hI hD hL1 hL2 he hi hr hne hcl
  have hcom := rekey_com (ω := ω) (X0 := X0) hI hD hL1 hL2 he hi hr hne hcl
  have htape := rekey_tape (ω := ω) (X0 := X0) hI hD hL1 hL2 he hi hr hne hcl hT
  unfold Coins.out
  rw [hsalt]
  have hn : ∀ e' i', (ω.rekey X0 e i r').node X0 e' i' = seedAt ((ω.rekey X0 e i r').xof X0) ((ω.rekey X0 e i r').rootOf e') ω.saltOf e' i' := fun e' i' => by
    rw [← hsalt]
    rfl
  simp only [hn] at hcom htape hnode
  have hss : SameSeen I ω.saltOf ω.rootOf (ω.rekey X0 e i r').rootOf (fun e => ms.getD e 0) (ω.xof X0) ((ω.rekey X0 e i r').xof X0) := by
    refine ⟨fun e' he' k hk => ?_, hcom, htape⟩
    obtain ⟨_, s2⟩ := sib_level b1 b3 (hms e' he') k hk
    have hN := depth_pow hI
    have : 2 ^ (depth I.numParties - k + 1) ≤ 2 ^ (depth I.numParties + 1) := Nat.pow_le_pow_right (by norm_num) (by omega)
    rw [pow_succ 2 (depth I.numParties), ← hN] at this
    rw [hnode e' he' _ (by omega), if_neg]
    · rfl
    · rintro ⟨rfl, hc⟩
      exact sib_not_anc b1 b3 (hms e' he') k hk j hc
  exact hss.out hI (fun e => squeeze_len _ _ _) (fun e => squeeze_len _ _ _) hms (fun e _ => rfl) F pk msg _ _ _ (rekey_hash hI hr (by unfold Coins.hash; rw [List.length_ofFn])) Rs

include hD hL1 hL2 hT he hr hne hcl in
/-- The run of the simulator stays the same. -/
theorem rekey_run {F : FieldState} (hF : initExtensionField I.lambda = .ok F) {c fuel : Nat} {pk msg : Bytes} {o : Simulated} (ho : ω.run X0 c fuel pk msg = .ok o) :
    (ω.rekey X0 e (ancestor (leafNode I.numParties ((o.sig.proofs.map (·.reveal.missing)).getD e 0)) j) r').run X0 c fuel pk msg = .ok o := by
  obtain ⟨Rs, ms, e2, e3, rfl⟩ := run_parts hI hF ho
  obtain ⟨ml, mlt⟩ := phase3Expand_spec _ _ fuel I _ ms e3
  have hms : ∀ e < I.numRounds, ms.getD e 0 < I.numParties := fun e he => by
    rw [getD_of_lt (by omega)]
    exact mlt _ (List.getElem_mem _)
  have hmiss : (((ω.out X0 c F pk msg Rs ms).sig.proofs.map (·.reveal.missing)).getD e 0) = ms.getD e 0 := by
    change (((List.range I.numRounds).map _).map _).getD e 0 = _
    rw [List.map_map, getD_range_map _ _ _ _ he]
    rfl
  rw [hmiss, ← rekey_out (j := j) hI hD hL1 hL2 hT he hr hne hcl hms F pk msg Rs]
  have hl : ∀ k, (ω.hash k).length = I.digestSize := fun k => by unfold Coins.hash; rw [List.length_ofFn]
  set ω' := ω.rekey X0 e (ancestor (leafNode I.numParties (ms.getD e 0)) j) r' with hω
  have hh : ∀ k, ω'.hash k = ω.hash k := fun k => rfl
  unfold Coins.run
  rw [simulate_eq hI hF, hh, hh, hh, phase2Expand_congr (rekey_hash hI hr (hl 1)), phase3Expand_congr (rekey_hash hI hr (hl 2)), e2]
  change Except.bind _ _ = _
  rw [e3]
  rfl

end

end Banquet
