import Verif.Spec.Collide
import Verif.Proofs.Binding
import Verif.Props.Sign

/-! C29: other signatures from a signature. -/

namespace Banquet.Props

open Spec FieldOk

/-- The input of the third hash, recomputed by the verifier. -/
def transcript3 (X : Xof) (fuel : Nat) (F : FieldState) (I : Instance) (pk : Bytes) (sig : Signature) : Bytes :=
  match phase2Expand X fuel F I (verH2 X F I sig) (F.firstN I.m2) with
  | .ok Rs => phase3Input F I sig.salt (verH2 X F I sig) (verReps3 X F I (List.replicate I.seedSize 0) pk sig Rs)
  | .error _ => []

/-- The input of the second hash, recomputed by the verifier. -/
def transcript2 (F : FieldState) (I : Instance) (sig : Signature) : Bytes := phase2Input F I sig.salt sig.h1 (sig.proofs.map (·.pDelta))

/-- The commitment of party `p` in repetition `e`, recomputed by the verifier. -/
def commitInput (X : Xof) (I : Instance) (sig : Signature) (e p : Nat) : Bytes := sig.salt ++ le16 e ++ le16 p ++ openedSeed X I sig.salt e (sig.proofs.getD e noProof).reveal p

/-- Expansion of node `i` of the seed tree of repetition `e` by the verifier. -/
def treeInput (X : Xof) (I : Instance) (sig : Signature) (e i : Nat) : Bytes :=
  nodeInput X sig.salt e I.seedSize I.numParties (sig.proofs.getD e noProof).reveal.missing (sig.proofs.getD e noProof).reveal.seeds i

/-- Some hash computed when `sig` is verified and the corresponding one for `sig'` have different inputs and the same output. -/
def Collision (X : Xof) (fuel : Nat) (F : FieldState) (I : Instance) (pk msg : Bytes) (sig sig' : Signature) : Prop :=
  Collide X (kindOf I.digestSize) I.digestSize (transcript1 X I pk sig msg) (transcript1 X I pk sig' msg) ∨
  Collide X (kindOf I.digestSize) I.digestSize (transcript2 F I sig) (transcript2 F I sig') ∨
  Collide X (kindOf I.digestSize) I.digestSize (transcript3 X fuel F I pk sig) (transcript3 X fuel F I pk sig') ∨
  (∃ e p, Collide X (kindOf I.digestSize) I.digestSize (commitInput X I sig e p) (commitInput X I sig' e p)) ∨
  (∃ e i, Collide X (kindOf (2 * I.seedSize)) (2 * I.seedSize) (treeInput X I sig e i) (treeInput X I sig' e i))

/-- C29: the claim: two accepted signatures in the format of the instance with the same hashes `h_1` and `h_3` are equal or give a collision. -/
def C29_statement : Prop := ∀ (X : Xof) (fuel : Nat) (I : Instance) (F : FieldState), Consistent I → initExtensionField I.lambda = .ok F → ∀ (pk msg : Bytes) (ms : List Nat) (sig sig' : Signature),
  SigWF I ms sig → SigWF I ms sig' → verify X fuel I pk sig msg = .ok true → verify X fuel I pk sig' msg = .ok true → sig.h1 = sig'.h1 → sig.h3 = sig'.h3 →
  sig = sig' ∨ Collision X fuel F I pk msg sig sig'

/-- The signature without the last delta of each repetition. -/
def dropLast (I : Instance) (sig : Signature) : Signature := { sig with proofs := sig.proofs.map fun p => { p with pDelta := p.pDelta.take I.m2 } }

theorem collide_of {X : Xof} {kind : ShakeKind} {len : Nat} {x y : Bytes} (h : (X kind x).squeeze 0 len = (X kind y).squeeze 0 len) (hc : ¬Collide X kind len x y) : x = y :=
  by_contra fun hne => hc ⟨hne, h⟩

theorem map_range_inj {α : Type} {n : Nat} {f g : Nat → α} (h : (List.range n).map f = (List.range n).map g) (i : Nat) (hi : i < n) : f i = g i :=
  List.map_inj_left.1 h i (List.mem_range.2 hi)

/-- C29 as far as it holds: the signatures agree except for the last delta of each repetition, or give a collision. Missing: the last deltas, for which it is false. -/
theorem C29_partial (X : Xof) (fuel : Nat) (I : Instance) (F : FieldState) (hI : Consistent I) (hF : initExtensionField I.lambda = .ok F) (pk msg : Bytes) (ms ms' : List Nat) (sig sig' : Signature)
    (wf : SigWF I ms sig) (wf' : SigWF I ms' sig') (hv : verify X fuel I pk sig msg = .ok true) (hv' : verify X fuel I pk sig' msg = .ok true) (h1 : sig.h1 = sig'.h1) (h3 : sig.h3 = sig'.h3) :
    dropLast I sig = dropLast I sig' ∨ Collision X fuel F I pk msg sig sig' := by
  by_cases hcol : Collision X fuel F I pk msg sig sig'
  · exact .inr hcol
  left
  unfold Collision at hcol
  push Not at hcol
  obtain ⟨n1, n2, n3, n4, n5⟩ := hcol
  obtain ⟨hok, hb, _⟩ := initExtensionField_ok hF
  obtain ⟨hpk, hs, _⟩ := accepted1 X fuel I hI pk msg sig hv
  obtain ⟨_, hs', _⟩ := accepted1 X fuel I hI pk msg sig' hv'
  obtain ⟨a1, a2, a3, a4, a5⟩ := shaped_facts hs
  obtain ⟨a1', a2', a3', a4', a5'⟩ := shaped_facts hs'
  obtain ⟨Rs, v1, v2, v3, v4, _⟩ := (verify_iff hI hF X fuel pk hpk sig hs msg).1 hv
  obtain ⟨Rs', v1', v2', v3', v4', _⟩ := (verify_iff hI hF X fuel pk hpk sig' hs' msg).1 hv'
  -- the first hash
  have e1 := collide_of ((v3.trans h1).trans v3'.symm) n1
  obtain ⟨c1, c2⟩ := verReps1_sized hI X (List.replicate I.seedSize 0) pk hpk sig hs
  obtain ⟨c1', c2'⟩ := verReps1_sized hI X (List.replicate I.seedSize 0) pk hpk sig' hs'
  obtain ⟨esalt, _, _, er1⟩ := phase1Input_inj I _ _ _ _ _ _ _ _ (a1.trans a1'.symm) rfl (c1.trans c1'.symm) c2 c2' e1
  -- the third hash
  have e3 : transcript3 X fuel F I pk sig = transcript3 X fuel F I pk sig' := by
    refine collide_of ?_ n3
    unfold transcript3
    rw [v1, v1']
    exact (v4.trans h3).trans v4'.symm
  unfold transcript3 at e3
  rw [v1, v1'] at e3
  have sz : ∀ (s : Signature) (l : List Nat), SigWF I l s → s.proofs.length = I.numRounds → ∀ Rs, (verReps3 X F I (List.replicate I.seedSize 0) pk s Rs).length = I.numRounds ∧
      ∀ r ∈ verReps3 X F I (List.replicate I.seedSize 0) pk s Rs, r.Sized F I := fun s l hw hl Rs => by
    refine ⟨by simp [verReps3], fun r hr => ?_⟩
    obtain ⟨e, he, rfl⟩ := List.mem_map.1 hr
    exact verHash3_sized _ _ _ _ _ _ _ hb (hw.get e (by have := List.mem_range.1 he; omega))
  obtain ⟨s1, s2⟩ := sz sig ms wf a4 Rs
  obtain ⟨s1', s2'⟩ := sz sig' ms' wf' a4' Rs'
  obtain ⟨_, eh2, er3⟩ := phase3Input_inj I _ _ _ _ _ _ (a1.trans a1'.symm) (by simp [verH2, phase2Commit, squeeze_length]) (s1.trans s1'.symm) s2 s2' e3
  -- the second hash
  have e2 := collide_of eh2 n2
  have dl : ∀ (s : Signature) (l : List Nat), SigWF I l s → ∀ d ∈ s.proofs.map (·.pDelta), d.length = I.m2 + 1 ∧ ∀ x ∈ d, Reduced F.byteSize x := fun s l hw d hd => by
    obtain ⟨p, hp, rfl⟩ := List.mem_map.1 hd
    obtain ⟨e, he, rfl⟩ := List.getElem_of_mem hp
    have := (hw.get e he).pDelta
    rw [getD_of_lt he] at this
    rw [hb]
    exact this
  obtain ⟨_, _, ed⟩ := phase2Input_inj I _ _ _ _ _ _ (a1.trans a1'.symm) (a2.trans a2'.symm) (by simp only [List.length_map]; omega) (dl _ _ wf) (dl _ _ wf') e2
  -- the hidden parties
  have em : sig.proofs.map (·.reveal.missing) = sig'.proofs.map (·.reveal.missing) := by
    rw [h3, v2'] at v2
    exact (Except.ok.inj v2).symm
  -- each repetition
  obtain ⟨q, hq1, hq2, hN⟩ := hI.parties
  have hrep : ∀ e < I.numRounds, ({ sig.proofs.getD e noProof with pDelta := (sig.proofs.getD e noProof).pDelta.take I.m2 } : Proof) =
      { sig'.proofs.getD e noProof with pDelta := (sig'.proofs.getD e noProof).pDelta.take I.m2 } := by
    intro e he
    have f1 := map_range_inj er1 e he
    have f3 := map_range_inj er3 e he
    have f2 : (sig.proofs.getD e noProof).pDelta.take I.m2 = (sig'.proofs.getD e noProof).pDelta.take I.m2 := by
      have := congrArg (fun l => l.getD e []) ed
      simpa [getD_of_lt, a4, a4', he, List.getElem?_eq_getElem] using this
    have fm : (sig.proofs.getD e noProof).reveal.missing = (sig'.proofs.getD e noProof).reveal.missing := by
      have := congrArg (fun l => l.getD e 0) em
      simpa [a4, a4', he, List.getElem?_eq_getElem] using this
    have hsd := shaped_seeds (a5 e he)
    have hsd' := shaped_seeds (a5' e he)
    have hml : (sig.proofs.getD e noProof).reveal.missing < I.numParties := by
      have hlt := (phase3Expand_spec X _ fuel I _ _ v2).2 (sig.proofs.getD e noProof).reveal.missing
      rw [getD_of_lt (by omega)] at hlt ⊢
      exact hlt (List.mem_map.2 ⟨_, List.getElem_mem _, rfl⟩)
    have n4 := n4 e
    have n5 := n5 e
    unfold commitInput at n4
    unfold treeInput at n5
    have hlen := fun p hp hne => openedSeed_length hI X sig.salt e hsd hml p hp hne
    have hlen' := fun p hp hne => openedSeed_length hI X sig'.salt e hsd' (fm ▸ hml) p hp hne
    dsimp only at f1 f3
    generalize sig.proofs.getD e noProof = pr at *
    generalize sig'.proofs.getD e noProof = pr' at *
    unfold Ctx.verHash1 at f1
    unfold Ctx.verHash3 at f3
    rw [Rep1Hash.mk.injEq] at f1
    rw [Rep3.mk.injEq] at f3
    obtain ⟨g1, _, g2, g3⟩ := f1
    obtain ⟨k1, _, k2, k3, _⟩ := f3
    have gc : pr.cE = pr'.cE := by
      have := map_range_inj g1 _ hml
      rwa [if_pos rfl, if_pos fm] at this
    have gs : ∀ p < I.numParties, p ≠ pr.reveal.missing → openedSeed X I sig.salt e pr.reveal p = openedSeed X I sig.salt e pr'.reveal p := fun p hp hne => by
      have := map_range_inj g1 _ hp
      rw [if_neg hne, if_neg (fm ▸ hne)] at this
      have := collide_of this (n4 p)
      rw [← esalt] at this
      exact (List.append_inj' this ((hlen p hp hne).trans (esalt ▸ hlen' p hp (fm ▸ hne)).symm)).2
    have gr : pr.reveal = pr'.reveal := by
      have hseeds : pr.reveal.seeds = pr'.reveal.seeds := by
        have hd : ∀ rl : RevealList, (rl.seeds.length = ceilLog2 I.numParties ∧ ∀ s ∈ rl.seeds, s.length = I.seedSize) → rl.seeds.length = depth (2 ^ q) ∧ ∀ s ∈ rl.seeds, s.length = I.seedSize := fun rl hrl => by
          rwa [ceilLog2_eq _ (parties_bounds hI).2.2.2, hN] at hrl
        unfold openedSeed at gs
        rw [← esalt, ← fm, hN] at n5
        rw [← fm, hN] at gs
        exact reveal_binding hq1 (by omega) (hN ▸ hml) X sig.salt e I.seedSize _ _ (hd _ hsd) (hd _ hsd') gs fun i hi => collide_of hi (n5 i)
      cases hr : pr.reveal
      cases hr' : pr'.reveal
      rw [hr, hr'] at fm hseeds
      simp only at fm hseeds
      rw [fm, hseeds]
    cases pr
    cases pr'
    simp only at gr gc g2 g3 k1 k2 k3 f2
    subst gr gc g2 g3 k1 k2 k3
    rw [f2]
  have hp : (dropLast I sig).proofs = (dropLast I sig').proofs := by
    unfold dropLast
    refine List.ext_getElem (by simp only [List.length_map]; omega) fun e h1 h2 => ?_
    simp only [List.length_map] at h1 h2
    have := hrep e (by omega)
    rw [getD_of_lt h1, getD_of_lt h2] at this
    rw [List.getElem_map, List.getElem_map]
    exact this
  unfold dropLast at hp ⊢
  cases sig
  cases sig'
  simp only at hp h1 h3 esalt
  subst h1 h3 esalt
  simp only [hp]

/-- C29: in a repetition with hidden party 0 the last delta of an accepted signature can be replaced by any value. -/
theorem C29_maul (X : Xof) (fuel : Nat) (I : Instance) (hI : Consistent I) (pk msg : Bytes) (sig : Signature) (hv : verify X fuel I pk sig msg = .ok true) (e : Nat)
    (hm : (sig.proofs.getD e noProof).reveal.missing = 0) (x : W64) : verify X fuel I pk (setLast I sig e x) msg = .ok true := by
  obtain ⟨hpk, hs, _⟩ := accepted1 X fuel I hI pk msg sig hv
  exact (setLast_free I sig e x hm).verify hI X fuel pk hpk hs msg hv

/-- The hash function with constant output 2. -/
def twosXof : Xof := fun _ _ => ⟨fun _ => 2⟩

/-- With this hash the only hidden party of the example instance is 0. -/
theorem twos_loops {F : FieldState} (hF : initExtensionField 4 = .ok F) : (∀ h, phase2Expand twosXof 1 F smallInstance h (F.firstN smallInstance.m2) = .ok [0x02020202]) ∧
    ∀ h, phase3Expand twosXof 1 smallInstance h = .ok [0] := by
  have h2 : (initExtensionField 4 >>= fun F => phase2Expand twosXof 1 F smallInstance [] (F.firstN smallInstance.m2)) = .ok [0x02020202] := by decide +kernel
  have h3 : phase3Expand twosXof 1 smallInstance [] = .ok [0] := by decide +kernel
  rw [hF, ok_bind] at h2
  have t2 : ∀ h forb, phase2Expand twosXof 1 F smallInstance h forb = phase2Expand twosXof 1 F smallInstance [] forb := fun _ _ => rfl
  have t3 : ∀ h, phase3Expand twosXof 1 smallInstance h = phase3Expand twosXof 1 smallInstance [] := fun _ => rfl
  exact ⟨fun h => by rw [t2, h2], fun h => by rw [t3, h3]⟩

/-- A signature in which party 0 is hidden. -/
theorem kat_signs_zero (msg : Bytes) : ∃ sig, sign twosXof 1 smallInstance katKey katPk msg = .ok sig ∧ SigWF smallInstance [0] sig ∧ verify twosXof 1 smallInstance katPk sig msg = .ok true := by
  obtain ⟨F, hF⟩ := init_supported small_consistent.lambda
  obtain ⟨hok, hb, _⟩ := initExtensionField_ok hF
  obtain ⟨sig, h⟩ := C41_returns twosXof 1 smallInstance small_consistent katKey katPk msg (kat_pair _ rfl) (fun F h hF => ⟨_, (twos_loops hF).1 h⟩) (fun h => ⟨_, (twos_loops hF).2 h⟩)
  refine ⟨sig, h, ?_, C15_accepted _ _ _ small_consistent _ _ _ (kat_pair _ rfl) sig h 1 le_rfl⟩
  obtain ⟨h1, h2, h3, h4⟩ := KeyPair.facts small_consistent (kat_pair smallInstance rfl)
  unfold sign at h
  rw [hF, ok_bind] at h
  obtain ⟨⟨ms, hm, wf⟩, _⟩ := signWith_ok small_consistent hb twosXof 1 katKey katPk msg h1 h2.ge h3 sig h
  rw [(twos_loops hF).2] at hm
  exact (Except.ok.inj hm) ▸ wf

example : ∃ sig, verify twosXof 1 smallInstance katPk sig [5] = .ok true ∧ (sig.proofs.getD 0 noProof).reveal.missing = 0 := by
  obtain ⟨sig, _, wf, hv⟩ := kat_signs_zero [5]
  refine ⟨sig, hv, ?_⟩
  exact (wf.get 0 (by rw [← wf.proofs.length_eq]; decide)).missing

/-- C29 does not hold. -/
theorem C29_violated : ¬C29_statement := by
  intro hst
  obtain ⟨F, hF⟩ := init_supported small_consistent.lambda
  obtain ⟨hok, hb, _⟩ := initExtensionField_ok hF
  obtain ⟨sig, _, wf, hv⟩ := kat_signs_zero [5]
  have hl : sig.proofs.length = 1 := wf.proofs.length_eq.symm
  have wf0 := wf.get 0 (by omega)
  have hm : (sig.proofs.getD 0 noProof).reveal.missing = 0 := wf0.missing
  have hp : (sig.proofs.getD 0 noProof).pDelta.length = 21 := wf0.pDelta.1
  obtain ⟨x, hx, hne⟩ : ∃ x : W64, Reduced smallInstance.lambda x ∧ x ≠ (sig.proofs.getD 0 noProof).pDelta.getD 20 0 := by
    by_cases h0 : (sig.proofs.getD 0 noProof).pDelta.getD 20 0 = 0
    · exact ⟨1, hb ▸ reduced_one, by rw [h0]; decide⟩
    · exact ⟨0, hb ▸ reduced_zero, fun h => h0 h.symm⟩
  have hfree := setLast_free smallInstance sig 0 x hm
  have hv' := C29_maul twosXof 1 smallInstance small_consistent katPk [5] sig hv 0 hm x
  rcases hst twosXof 1 smallInstance F small_consistent hF katPk [5] [0] sig (setLast smallInstance sig 0 x) wf (setLast_wf _ _ _ _ hx (by omega) _ wf) hv hv' rfl rfl with he | hc
  · apply hne
    have h2 : (sig.proofs.getD 0 noProof).pDelta.getD 20 0 = ((setLast smallInstance sig 0 x).proofs.getD 0 noProof).pDelta.getD 20 0 := by rw [← he]
    rw [h2]
    unfold setLast
    dsimp only
    generalize sig.proofs.getD 0 noProof = pr at hp
    have hg : ∀ p : Proof, (sig.proofs.set 0 p).getD 0 noProof = p := fun p => by rw [getD_of_lt (by simp [hl]), List.getElem_set_self]
    rw [hg]
    dsimp only
    rw [getD_of_lt (by rw [List.length_set]; omega)]
    exact (List.getElem_set_self ..).symm
  · have hr : ∀ e, ((setLast smallInstance sig 0 x).proofs.getD e noProof).reveal = (sig.proofs.getD e noProof).reveal := fun e => by
      by_cases h : e < sig.proofs.length
      · obtain ⟨d, hd, _⟩ := hfree.rep e h
        rw [hd]
      · have g : ∀ l : List Proof, l.length ≤ e → l.getD e noProof = noProof := fun l hle => by rw [List.getD_eq_getElem?_getD, List.getElem?_eq_none hle]; rfl
        rw [g _ (by rw [hfree.len]; omega), g _ (by omega)]
    have hsalt : (setLast smallInstance sig 0 x).salt = sig.salt := rfl
    rcases hc with ⟨h, _⟩ | ⟨h, _⟩ | ⟨h, _⟩ | ⟨e, p, h, _⟩ | ⟨e, i, h, _⟩
    · refine h ?_
      unfold transcript1
      rw [hfree.verReps1 _ _ _ hl, hsalt]
    · exact h (hfree.input2 F).symm
    · refine h ?_
      unfold transcript3
      rw [hfree.verH2]
      simp only [hfree.verReps3 _ _ _ _ hl, hsalt]
    · refine h ?_
      unfold commitInput
      rw [hr, hsalt]
    · refine h ?_
      unfold treeInput
      rw [hr, hsalt]

end Banquet.Props
