import Verif.Proofs.Signed
import Verif.Props.Sign
import Verif.Props.Challenge

/-! C54: what sign computes. -/

namespace Banquet.Props

open Spec FieldOk Spec.Aes Polynomial

/-- C54: a signature returned by sign is the one specified: salt and seeds are disjoint parts of the hash of all inputs, and the rest is that of an honest prover. -/
theorem C54_sign (X : Xof) (fuel : Nat) (I : Instance) (hI : Consistent I) (sk pk msg : Bytes) (hk : KeyPair I sk pk) (sig : Signature)
    (h : sign X fuel I sk pk msg = .ok sig) : (∃ ms, SigWF I ms sig) ∧ Signed X I sk pk msg sig := by
  obtain ⟨F, hF⟩ := init_supported hI.lambda
  obtain ⟨hok, hb, _⟩ := initExtensionField_ok hF
  obtain ⟨h1, h2, h3, h4⟩ := KeyPair.facts hI hk
  have hv := C15_accepted X fuel I hI sk pk msg hk sig h fuel le_rfl
  unfold sign at h
  rw [hF, ok_bind] at h
  obtain ⟨ms', hms', wf⟩ := (signWith_ok hI hb X fuel sk pk msg h1 h2.ge h3 sig h).1
  have hacc := (C19_acceptable X I hI pk h2.ge msg ms' sig wf).1 ⟨fuel, hv⟩
  obtain ⟨runs, hr, heq⟩ := signWith_eq hI (F := F) X fuel sk pk msg h1 h2.ge h3
  rw [heq] at h
  have hown := ownRep_honest hI hb X msg h1 h3 hr h4
  generalize hh2 : proverH2 X F I (genSalt X I sk pk msg) (proverH1 X I (genSalt X I sk pk msg) pk msg runs) runs = h2' at h
  generalize hh1 : proverH1 X I (genSalt X I sk pk msg) pk msg runs = h1' at h hh2 hown
  cases hRs : phase2Expand X fuel F I h2' (F.firstN I.m2) with
  | error e => rw [hRs] at h; cases h
  | ok Rs =>
  rw [hRs] at h
  obtain ⟨Rl, hRr⟩ := phase2Expand_spec X fuel I _ _ Rs hRs
  change (phase3Expand X fuel I _).bind _ = _ at h
  generalize hh3 : proverH3 X F I (slice pk 0 I.ctSize) (genSalt X I sk pk msg) h1' h2' runs Rs = h3' at h
  cases hms : phase3Expand X fuel I h3' with
  | error e => rw [hms] at h; cases h
  | ok ms =>
  rw [hms] at h
  obtain rfl := Except.ok.inj h
  have e2 : digest X I (input2 I (proverSig X F I (slice pk 0 I.ctSize) (genSalt X I sk pk msg) h1' h3' runs Rs ms)) = h2' := by
    rw [← hh2, ← input2_eq hb fun p hp => ?_]
    · unfold proverH2 phase2Commit digest proverSig
      rw [List.map_map]
      rfl
    · obtain ⟨e, _, rfl⟩ := List.mem_map.1 hp
      exact (hr.sized e).pDelta
  refine ⟨⟨ms', wf⟩, rfl, hacc, Rs, ?_, fun e pr hpr => ?_⟩
  · rw [e2]
    exact (C53_R X I F hF h2' Rs).1 ⟨fuel, hRs⟩
  · obtain ⟨he, hpr⟩ : e < I.numRounds ∧ pr = (runs e).proof X F I (slice pk 0 I.ctSize) (genSalt X I sk pk msg) e ((phase1Expand X F I h1').getD e []) (Rs.getD e 0) (ms.getD e 0) := by
      obtain ⟨g1, g2⟩ := List.mem_zipIdx' hpr
      have hl : e < I.numRounds := by
        have : (proverSig X F I (slice pk 0 I.ctSize) (genSalt X I sk pk msg) h1' h3' runs Rs ms).proofs.length = I.numRounds := by simp [proverSig]
        omega
      refine ⟨hl, g2.trans ?_⟩
      unfold proverSig
      simp
    have hR : Reduced F.byteSize (Rs.getD e 0) := by
      rw [getD_of_lt (by omega)]
      exact (hRr _ (List.getElem_mem _)).1
    have hrs : (phase1Expand X F I h1').getD e [] = challenge1 X I h1' e := by
      rw [C53_r X I F hF, getD_range_map _ _ _ _ he]
    have hred := phase1Expand_red (F := F) (I := I) X h1' e
    have hc := ownRep_ctx (runs := runs) X msg pr e (by rw [hr.run e]; rfl) (by rw [hpr]; rfl) (by rw [hpr]; rfl) (by rw [hpr]; rfl)
    have hsz : (ownRep X I sk pk msg e pr).Sized I :=
      ⟨(congrArg List.length (congrArg Proof.skDelta hpr)).trans (hr.sized e).skDelta, (congrArg List.length (congrArg Proof.tDelta hpr)).trans (hr.sized e).tDelta, fun _ => squeeze_len _ _ _⟩
    have hd : AllRed F.byteSize (ownRep X I sk pk msg e pr).pDelta := by
      have : (ownRep X I sk pk msg e pr).pDelta = (runs e).pDelta := congrArg Proof.pDelta hpr
      rw [this]
      exact hr.red e
    have hroot : masterSeed X I sk pk msg e = (runs e).root := by rw [hr.run e]; rfl
    change SignedRep X I sk pk msg (challenge1 X I h1' e) (Rs.getD e 0) e pr
    rw [← hrs]
    have hm2 := hI.points
    refine ⟨?_, ?_, ?_, ?_, fun j hj => ?_, fun j hj => ?_⟩
    · unfold nodeSeed
      rw [hroot, hpr]
      rfl
    · unfold nodeSeed
      rw [hroot, hpr]
      rfl
    · rw [← hb]
      exact hown pr e (congrArg Proof.skDelta hpr) (congrArg Proof.tDelta hpr) (congrArg Proof.pDelta hpr)
    · rw [← hb]
      obtain ⟨g1, g2⟩ := Ctx.val_sumC I (ownRep X I sk pk msg e pr).ctx _ _ hR hred hd
      have : pr.pAtR = (ownRep X I sk pk msg e pr).ctx.sumC F I ((phase1Expand X F I h1').getD e []) (Rs.getD e 0) := by rw [hc]; exact congrArg Proof.pAtR hpr
      rw [this]
      exact ⟨g1, _, whole_p hb hm2 hred hd, g2⟩
    · rw [← hb]
      obtain ⟨g1, g2⟩ := Ctx.val_sumA I (slice pk 0 I.ctSize) (ownRep X I sk pk msg e pr).ctx ((phase1Expand X F I h1').getD e []) (Rs.getD e 0) hR hj
      have : pr.sAtR.getD j 0 = (ownRep X I sk pk msg e pr).ctx.sumA F I (slice pk 0 I.ctSize) ((phase1Expand X F I h1').getD e []) (Rs.getD e 0) j := by
        rw [hc]
        refine (congrArg (fun x : Proof => x.sAtR.getD j 0) hpr).trans ?_
        exact getD_range_map _ _ _ _ hj
      rw [this]
      exact ⟨g1, _, whole_s hI hb hsz hm2 hred hj, g2⟩
    · rw [← hb]
      obtain ⟨g1, g2⟩ := Ctx.val_sumB I (ownRep X I sk pk msg e pr).ctx (Rs.getD e 0) hR hj
      have : pr.tAtR.getD j 0 = (ownRep X I sk pk msg e pr).ctx.sumB F I (Rs.getD e 0) j := by
        rw [hc]
        refine (congrArg (fun x : Proof => x.tAtR.getD j 0) hpr).trans ?_
        exact getD_range_map _ _ _ _ hj
      rw [this]
      exact ⟨g1, _, whole_t hb hsz hm2 hj, g2⟩

/-- C54: the signature is determined by the specification: sign returns exactly the signatures specified. (`fuel` only says that the loops of the challenges end.) -/
theorem C54_iff (X : Xof) (I : Instance) (hI : Consistent I) (sk pk msg : Bytes) (hk : KeyPair I sk pk) (sig : Signature) :
    (∃ fuel, sign X fuel I sk pk msg = .ok sig) ↔ (∃ ms, SigWF I ms sig) ∧ Signed X I sk pk msg sig := by
  obtain ⟨F, hF⟩ := init_supported hI.lambda
  constructor
  · rintro ⟨fuel, h⟩
    exact C54_sign X fuel I hI sk pk msg hk sig h
  rintro ⟨⟨ms, wf⟩, hsalt, hacc, Rs0, hRs0, hrep⟩
  obtain ⟨hok, hb, _⟩ := initExtensionField_ok hF
  obtain ⟨h1, h2, h3, h4⟩ := KeyPair.facts hI hk
  obtain ⟨b1, b2, b3, b4⟩ := parties_bounds hI
  have hm2 := hI.points
  obtain ⟨fuel, hv⟩ := (C19_acceptable X I hI pk h2.ge msg ms sig wf).2 hacc
  have hms : ms.length = I.numRounds := by
    obtain ⟨_, _, _, _, _, _, h, _⟩ := hacc
    rw [wf.missing_eq]
    exact h.1
  have hshape := wf.shaped b4 hms
  obtain ⟨Rs, k1, k2, k3, k4, _⟩ := (verify_iff hI hF X fuel pk h2.ge sig hshape msg).1 hv
  rw [← wf.missing_eq] at k2
  obtain ⟨Rl, hRr⟩ := phase2Expand_spec X fuel I _ _ Rs k1
  obtain ⟨_, mlt⟩ := phase3Expand_spec X _ fuel I _ ms k2
  have hpd : ∀ p ∈ sig.proofs, p.pDelta.length = I.m2 + 1 := fun p hp => by
    obtain ⟨i, hi, rfl⟩ := List.getElem_of_mem hp
    have := (wf.get i hi).pDelta.1
    rwa [getD_of_lt hi] at this
  have hh2 : verH2 X F I sig = digest X I (input2 I sig) := by rw [← input2_eq hb hpd]; rfl
  obtain rfl : Rs = Rs0 := by
    obtain ⟨f, hf⟩ := (C53_R X I F hF _ _).2 hRs0
    rw [← hh2] at hf
    have g1 := phase2Expand_mono X F I _ _ (le_max_left fuel f) _ k1
    have g2 := phase2Expand_mono X F I _ _ (le_max_right fuel f) _ hf
    exact Except.ok.inj (g1.symm.trans g2)
  have hlen : sig.proofs.length = I.numRounds := by rw [← hms, wf.proofs.length_eq]
  have hmem : ∀ e < I.numRounds, (sig.proofs.getD e noProof, e) ∈ sig.proofs.zipIdx := fun e he => by
    rw [zipIdx_eq _ noProof, List.mem_map]
    exact ⟨e, List.mem_range.2 (by omega), rfl⟩
  have hmlt : ∀ e < I.numRounds, ms.getD e 0 < I.numParties := fun e he => by
    rw [getD_of_lt (by omega)]
    exact mlt _ (List.getElem_mem _)
  have hR : ∀ e < I.numRounds, Reduced F.byteSize (Rs.getD e 0) := fun e he => by
    rw [getD_of_lt (by omega)]
    exact (hRr _ (List.getElem_mem _)).1
  have hred := fun e => phase1Expand_red (F := F) (I := I) X sig.h1 e
  have hsz : ∀ e < I.numRounds, (ownRep X I sk pk msg e (sig.proofs.getD e noProof)).Sized I := fun e he =>
    ⟨(wf.get e (by omega)).skDelta, (wf.get e (by omega)).tDelta, fun _ => squeeze_len _ _ _⟩
  have hd : ∀ e < I.numRounds, Elements F.byteSize (I.m2 + 1) (sig.proofs.getD e noProof).pDelta := fun e he => by
    rw [hb]
    exact (wf.get e (by omega)).pDelta
  have hrep' : ∀ e < I.numRounds, SignedRep X I sk pk msg ((phase1Expand X F I sig.h1).getD e []) (Rs.getD e 0) e (sig.proofs.getD e noProof) := fun e he => by
    rw [C53_r X I F hF, getD_range_map _ _ _ _ he]
    exact hrep e _ (hmem e he)
  obtain ⟨runs, hr, heq⟩ := signWith_eq hI (F := F) X fuel sk pk msg h1 h2.ge h3
  have hroot : ∀ e, (runs e).root = masterSeed X I sk pk msg e := fun e => by rw [hr.run e]; rfl
  have hown := ownRep_honest hI hb X msg h1 h3 hr h4
  -- the corrections of `sig` as those of a prover
  let run' : Nat → Run := fun e => if e < I.numRounds then
    ⟨masterSeed X I sk pk msg e, (sig.proofs.getD e noProof).skDelta, (sig.proofs.getD e noProof).tDelta, (sig.proofs.getD e noProof).pDelta⟩ else runs e
  have hrun' : ∀ e < I.numRounds, run' e = ⟨masterSeed X I sk pk msg e, (sig.proofs.getD e noProof).skDelta, (sig.proofs.getD e noProof).tDelta, (sig.proofs.getD e noProof).pDelta⟩ := fun e he => if_pos he
  have hsized : ∀ e < I.numRounds, (run' e).Sized I := fun e he => by
    rw [hrun' e he]
    exact ⟨squeeze_len _ _ _, (wf.get e (by omega)).skDelta, (wf.get e (by omega)).tDelta, (wf.get e (by omega)).pDelta.1⟩
  have hctx : ∀ e < I.numRounds, (ownRep X I sk pk msg e (sig.proofs.getD e noProof)).ctx = (run' e).ctx X I sig.salt e := fun e he => by
    rw [hsalt]
    exact ownRep_ctx (runs := run') X msg _ e (by rw [hrun' e he]; rfl) (by rw [hrun' e he]) (by rw [hrun' e he]) (by rw [hrun' e he])
  have hproof : ∀ e < I.numRounds, sig.proofs.getD e noProof =
      (run' e).proof X F I (slice pk 0 I.ctSize) sig.salt e ((phase1Expand X F I sig.h1).getD e []) (Rs.getD e 0) (ms.getD e 0) := by
    intro e he
    have w := wf.get e (by omega)
    obtain ⟨s1, s2, _, s4, s5, s6⟩ := hrep' e he
    rw [← hb] at s4 s5 s6
    unfold Run.proof
    rw [← hctx e he]
    have p1 : (sig.proofs.getD e noProof).pAtR = (ownRep X I sk pk msg e (sig.proofs.getD e noProof)).ctx.sumC F I ((phase1Expand X F I sig.h1).getD e []) (Rs.getD e 0) := by
      obtain ⟨g1, g2⟩ := Ctx.val_sumC I (ownRep X I sk pk msg e (sig.proofs.getD e noProof)).ctx ((phase1Expand X F I sig.h1).getD e []) (Rs.getD e 0) (hR e he) (hred e) (hd e he).2
      exact evalAt_unique hm2 s4 ⟨g1, _, whole_p (r := ownRep X I sk pk msg e (sig.proofs.getD e noProof)) hb hm2 (hred e) (hd e he).2, g2⟩ fun _ _ => rfl
    have p2 : (sig.proofs.getD e noProof).sAtR = (List.range I.m1).map ((ownRep X I sk pk msg e (sig.proofs.getD e noProof)).ctx.sumA F I (slice pk 0 I.ctSize) ((phase1Expand X F I sig.h1).getD e []) (Rs.getD e 0)) := by
      refine ext_getD (n := I.m1) 0 w.sAtR.1 (by simp) fun j hj => ?_
      rw [getD_range_map _ _ _ _ hj]
      obtain ⟨g1, g2⟩ := Ctx.val_sumA I (slice pk 0 I.ctSize) (ownRep X I sk pk msg e (sig.proofs.getD e noProof)).ctx ((phase1Expand X F I sig.h1).getD e []) (Rs.getD e 0) (hR e he) hj
      exact evalAt_unique (by omega) (s5 j hj) ⟨g1, _, whole_s hI hb (hsz e he) hm2 (hred e) hj, g2⟩ fun _ _ => rfl
    have p3 : (sig.proofs.getD e noProof).tAtR = (List.range I.m1).map ((ownRep X I sk pk msg e (sig.proofs.getD e noProof)).ctx.sumB F I (Rs.getD e 0)) := by
      refine ext_getD (n := I.m1) 0 w.tAtR.1 (by simp) fun j hj => ?_
      rw [getD_range_map _ _ _ _ hj]
      obtain ⟨g1, g2⟩ := Ctx.val_sumB I (ownRep X I sk pk msg e (sig.proofs.getD e noProof)).ctx (Rs.getD e 0) (hR e he) hj
      exact evalAt_unique (by omega) (s6 j hj) ⟨g1, _, whole_t hb (hsz e he) hm2 hj, g2⟩ fun _ _ => rfl
    rw [← p1, ← p2, ← p3, hrun' e he]
    have c1 : (sig.proofs.getD e noProof).reveal = revealOf X I sig.salt (masterSeed X I sk pk msg e) e (ms.getD e 0) := by
      rw [hsalt]
      unfold revealOf
      rw [← w.missing]
      exact congrArg (fun l => (⟨l, (sig.proofs.getD e noProof).reveal.missing⟩ : RevealList)) s1
    have c2 : (sig.proofs.getD e noProof).cE = Run.com X I sig.salt e ⟨masterSeed X I sk pk msg e, (sig.proofs.getD e noProof).skDelta, (sig.proofs.getD e noProof).tDelta, (sig.proofs.getD e noProof).pDelta⟩ (ms.getD e 0) := by
      rw [hsalt, ← w.missing]
      exact s2
    rw [← c1, ← c2]
  -- hashes
  have q1 : proverH1 X I sig.salt pk msg run' = sig.h1 := by
    rw [← k3]
    unfold proverH1 verReps1
    congr 1
    refine List.map_congr_left fun e he => ?_
    have he := List.mem_range.1 he
    dsimp only
    rw [hproof e he]
    refine (Run.hash1_eq hI X F _ _ _ _ (hsized e he) e _ _ (hmlt e he) ?_).symm
    have g := (hrep' e he).honest.ct
    unfold Rep.wholeCt at g
    rw [← g, ← hctx e he]
    exact congrArg _ (List.map_congr_left fun p _ => by rw [Rep.aes_ctx hI (hsz e he)])
  have q3 : proverH3 X F I (slice pk 0 I.ctSize) sig.salt sig.h1 (verH2 X F I sig) run' Rs = sig.h3 := by
    rw [← k4]
    unfold proverH3 verReps3
    congr 1
    refine List.map_congr_left fun e he => ?_
    have he := List.mem_range.1 he
    dsimp only
    rw [hproof e he]
    exact (Run.hash3_eq hI X F _ _ _ (hsized e he) e _ _ (hmlt e he)).symm
  have q2 : proverH2 X F I sig.salt sig.h1 run' = verH2 X F I sig := by
    unfold proverH2 verH2
    congr 1
    refine List.ext_getElem (by simp [hlen]) fun i hi hi' => ?_
    rw [List.getElem_map, List.getElem_map, List.getElem_range, hrun' i (by simpa using hi), getD_of_lt (by simpa using hi')]
  -- the corrections are those of the signer
  let pr0 : Nat → Proof := fun e => { noProof with skDelta := (runs e).skDelta, tDelta := (runs e).tDelta, pDelta := (runs e).pDelta }
  have hsz0 : ∀ e, (ownRep X I sk pk msg e (pr0 e)).Sized I := fun e => ⟨(hr.sized e).skDelta, (hr.sized e).tDelta, fun _ => squeeze_len _ _ _⟩
  have hst : ∀ e < I.numRounds, (sig.proofs.getD e noProof).skDelta = (runs e).skDelta ∧ (sig.proofs.getD e noProof).tDelta = (runs e).tDelta := fun e he => by
    have g := (hrep' e he).honest
    rw [← hb] at g
    exact honest_unique hI (hsz e he) (hsz0 e) rfl g (hown (pr0 e) e rfl rfl rfl)
  have q1' : proverH1 X I sig.salt pk msg runs = sig.h1 := by
    rw [← q1]
    unfold proverH1
    congr 1
    refine List.map_congr_left fun e he => ?_
    have he := List.mem_range.1 he
    rw [hrun' e he, (hst e he).1, (hst e he).2, ← hroot e]
    rfl
  have hsalt' : genSalt X I sk pk msg = sig.salt := hsalt.symm
  rw [hsalt', q1'] at hown heq
  have hall : run' = runs := by
    funext e
    by_cases he : e < I.numRounds
    · have g := (hrep' e he).honest
      rw [← hb] at g
      have hp := honest_unique_p hI hb (hsz e he) (hsz0 e) rfl (hred e) (hst e he).1 (hst e he).2 (hd e he) ⟨(hr.sized e).pDelta, hr.red e⟩ g (hown (pr0 e) e rfl rfl rfl)
      rw [hrun' e he, (hst e he).1, (hst e he).2, ← hroot e]
      exact congrArg (fun d => (⟨(runs e).root, (runs e).skDelta, (runs e).tDelta, d⟩ : Run)) hp
    · exact if_neg he
  rw [hall] at q1 q2 q3 hproof
  refine ⟨fuel, ?_⟩
  unfold sign
  rw [hF, ok_bind, heq, q2, k1]
  change (phase3Expand X fuel I _).bind _ = _
  rw [q3, k2]
  change Except.ok _ = _
  refine congrArg _ ?_
  have : sig.proofs = (List.range I.numRounds).map fun e => (runs e).proof X F I (slice pk 0 I.ctSize) sig.salt e ((phase1Expand X F I sig.h1).getD e []) (Rs.getD e 0) (ms.getD e 0) := by
    refine List.ext_getElem (by simp [hlen]) fun i hi hi' => ?_
    rw [List.getElem_map, List.getElem_range, ← hproof i (by omega), getD_of_lt hi]
  unfold proverSig
  rw [← this]

/-- C54: there is at most one signature in the format of the instance that meets the specification. -/
theorem C54_unique (X : Xof) (I : Instance) (hI : Consistent I) (sk pk msg : Bytes) (hk : KeyPair I sk pk) (sig sig' : Signature) (ms ms' : List Nat)
    (wf : SigWF I ms sig) (wf' : SigWF I ms' sig') (h : Signed X I sk pk msg sig) (h' : Signed X I sk pk msg sig') : sig = sig' := by
  obtain ⟨f, g⟩ := (C54_iff X I hI sk pk msg hk sig).2 ⟨⟨ms, wf⟩, h⟩
  obtain ⟨f', g'⟩ := (C54_iff X I hI sk pk msg hk sig').2 ⟨⟨ms', wf'⟩, h'⟩
  exact sign_unique g g'

/-- C54: different messages, keys or instance numbers give different inputs for the randomness of the signer. -/
theorem C54_inputs {i i' : Nat} (hi : i < 2 ^ 16) (hi' : i' < 2 ^ 16) {sk sk' pk pk' msg msg' : Bytes} (h1 : sk.length = sk'.length) (h2 : pk.length = pk'.length)
    (h : le16 i ++ sk ++ pk ++ msg = le16 i' ++ sk' ++ pk' ++ msg') : i = i' ∧ sk = sk' ∧ pk = pk' ∧ msg = msg' := by
  simp only [List.append_assoc] at h
  obtain ⟨e1, h⟩ := List.append_inj h rfl
  obtain ⟨e2, h⟩ := List.append_inj h h1
  obtain ⟨e3, e4⟩ := List.append_inj h h2
  refine ⟨?_, e2, e3, e4⟩
  unfold le16 at e1
  simp only [List.cons.injEq, and_true] at e1
  have a1 := congrArg BitVec.toNat e1.1
  have a2 := congrArg BitVec.toNat e1.2
  simp only [BitVec.toNat_ofNat] at a1 a2
  omega

example : le16 1 ++ [1, 2] ++ [3] ++ [4] ≠ le16 1 ++ [1, 2] ++ [3] ++ ([5, 6] : Bytes) := fun h =>
  absurd (C54_inputs (by norm_num) (by norm_num) rfl rfl h).2.2.2 (by decide)

/-- The key of the known answer test signs, and the signature is the only one specified. -/
example : ∃ sig, Signed onesXof smallInstance katKey katPk [1, 2, 3] sig ∧
    ∀ sig' ms, SigWF smallInstance ms sig' → Signed onesXof smallInstance katKey katPk [1, 2, 3] sig' → sig' = sig := by
  obtain ⟨sig, h, _⟩ := kat_signs [1, 2, 3]
  obtain ⟨⟨ms, wf⟩, hs⟩ := C54_sign onesXof 1 smallInstance small_consistent katKey katPk [1, 2, 3] (kat_pair _ rfl) sig h
  exact ⟨sig, hs, fun sig' ms' wf' hs' => C54_unique onesXof smallInstance small_consistent katKey katPk [1, 2, 3] (kat_pair _ rfl) sig' sig ms' ms wf' wf hs' hs⟩

end Banquet.Props
