import Verif.Proofs.Verify
import Verif.Props.Serialize

/-! C20, C34, C50, C51: verification. -/

namespace Banquet.Props

open Spec FieldOk

/-! ## C51 -/

/-- C51: the seed used in place of the hidden party's seed has no influence on the result, for any public key, signature (of any shape) and message. -/
theorem C51_dummy (X : Xof) (fuel : Nat) (F : FieldState) (I : Instance) (hI : Consistent I) (hF : initExtensionField I.lambda = .ok F) (pk : Bytes) (sig : Signature) (msg : Bytes)
    (dummy dummy' : Bytes) (hd : dummy.length = I.seedSize) (hd' : dummy'.length = I.seedSize) :
    verifyWith X dummy fuel F I pk sig msg = verifyWith X dummy' fuel F I pk sig msg := by
  obtain ⟨hok, _, _⟩ := initExtensionField_ok hF
  by_cases h : 2 * I.ctSize ≤ pk.length ∧ sig.shaped I = true
  · rw [verifyWith_eq hI F X dummy hd fuel pk h.1 sig h.2 msg, verifyWith_eq hI F X dummy' hd' fuel pk h.1 sig h.2 msg, verReps1_dummy X I dummy dummy']
    simp only [verReps3_dummy X F I dummy dummy' pk sig]
  · rw [verifyWith_unshaped hI F X dummy fuel pk sig msg h, verifyWith_unshaped hI F X dummy' fuel pk sig msg h]

/-- C51: so the result is that of `verify`. -/
theorem C51_verify (X : Xof) (fuel : Nat) (F : FieldState) (I : Instance) (hI : Consistent I) (hF : initExtensionField I.lambda = .ok F) (pk : Bytes) (sig : Signature) (msg : Bytes)
    (dummy : Bytes) (hd : dummy.length = I.seedSize) : verify X fuel I pk sig msg = verifyWith X dummy fuel F I pk sig msg := by
  unfold verify
  rw [hF]
  exact C51_dummy X fuel F I hI hF pk sig msg _ dummy (by simp) hd

/-- Verification of the example signature, with hidden party 1, gets to the comparison of the hashes. -/
example : verify onesXof 1 smallInstance (List.replicate 32 4) smallSig [5, 6] = .ok false := by decide +kernel

/-! ## C50 -/

/-- C50: bytes can be moved from the end of an over-long public key to the message, for every signature. -/
theorem C50_shift (X : Xof) (fuel : Nat) (I : Instance) (hI : Consistent I) (pk x msg : Bytes) (hpk : 2 * I.ctSize ≤ pk.length) (sig : Signature) :
    verify X fuel I (pk ++ x) sig msg = verify X fuel I pk sig (x ++ msg) := by
  unfold verify
  cases hF : initExtensionField I.lambda with
  | error e => rfl
  | ok F =>
  obtain ⟨hok, _, _⟩ := initExtensionField_ok hF
  rw [ok_bind, ok_bind]
  have hpk' : 2 * I.ctSize ≤ (pk ++ x).length := by rw [List.length_append]; omega
  by_cases h : sig.shaped I = true
  · rw [verifyWith_eq hI F X _ (by simp) fuel _ hpk' sig h msg, verifyWith_eq hI F X _ (by simp) fuel _ hpk sig h _]
    have e1 : ∀ d, verReps1 X I d (pk ++ x) sig = verReps1 X I d pk sig := fun d => by
      unfold verReps1
      rw [slice_append (by omega), slice_append (by omega)]
    have e3 : ∀ d Rs, verReps3 X F I d (pk ++ x) sig Rs = verReps3 X F I d pk sig Rs := fun d Rs => by
      unfold verReps3
      rw [slice_append (by omega)]
    simp only [e1, e3]
    have ec : ∀ reps, phase1Commit X I sig.salt (pk ++ x) msg reps = phase1Commit X I sig.salt pk (x ++ msg) reps := fun reps => by
      unfold phase1Commit phase1Input
      simp only [List.append_assoc]
    simp only [ec]
  · rw [verifyWith_unshaped hI F X _ fuel _ sig msg (fun hc => h hc.2), verifyWith_unshaped hI F X _ fuel _ sig _ (fun hc => h hc.2)]

/-! ## C20 -/

/-- C20: the recomputed first hash input of a verification: the tag, salt, public key and message, and what the verifier recomputes from the signature. -/
def transcript1 (X : Xof) (I : Instance) (pk : Bytes) (sig : Signature) (msg : Bytes) : Bytes :=
  phase1Input I sig.salt pk msg (verReps1 X I (List.replicate I.seedSize 0) pk sig)

/-- What acceptance means for the sizes and the first hash. -/
theorem accepted1 (X : Xof) (fuel : Nat) (I : Instance) (hI : Consistent I) (pk msg : Bytes) (sig : Signature) (h : verify X fuel I pk sig msg = .ok true) :
    2 * I.ctSize ≤ pk.length ∧ sig.shaped I = true ∧ (X (kindOf I.digestSize) (transcript1 X I pk sig msg)).squeeze 0 I.digestSize = sig.h1 := by
  unfold verify at h
  cases hF : initExtensionField I.lambda with
  | error e => rw [hF] at h; cases h
  | ok F =>
  obtain ⟨hok, _, _⟩ := initExtensionField_ok hF
  rw [hF, ok_bind] at h
  by_cases hc : 2 * I.ctSize ≤ pk.length ∧ sig.shaped I = true
  swap
  · rw [verifyWith_unshaped hI F X _ fuel pk sig msg hc] at h
    cases h
  refine ⟨hc.1, hc.2, ?_⟩
  rw [verifyWith_eq hI F X _ (by simp) fuel _ hc.1 sig hc.2 msg] at h
  obtain ⟨Rs, hR, h⟩ := bind_ok.1 h
  obtain ⟨ms, hm, h⟩ := bind_ok.1 h
  split at h
  · have := Except.ok.inj h
    simp only [Bool.and_eq_true, decide_eq_true_eq] at this
    exact this.1.1
  · cases h

/-- C20: if a signature is accepted for two pairs of public keys (of the right length) and messages, the pairs are equal or the two explicitly given transcripts are different strings with the same hash. -/
theorem C20_bound (X : Xof) (fuel : Nat) (I : Instance) (hI : Consistent I) (pk msg pk' msg' : Bytes) (hpk : pk.length = 2 * I.ctSize) (hpk' : pk'.length = 2 * I.ctSize) (sig : Signature)
    (h : verify X fuel I pk sig msg = .ok true) (h' : verify X fuel I pk' sig msg' = .ok true) :
    (pk = pk' ∧ msg = msg') ∨ (transcript1 X I pk sig msg ≠ transcript1 X I pk' sig msg' ∧
      (X (kindOf I.digestSize) (transcript1 X I pk sig msg)).squeeze 0 I.digestSize = (X (kindOf I.digestSize) (transcript1 X I pk' sig msg')).squeeze 0 I.digestSize) := by
  obtain ⟨a1, a2, a3⟩ := accepted1 X fuel I hI pk msg sig h
  obtain ⟨b1, b2, b3⟩ := accepted1 X fuel I hI pk' msg' sig h'
  by_cases e : transcript1 X I pk sig msg = transcript1 X I pk' sig msg'
  · left
    obtain ⟨c1, c2⟩ := verReps1_sized hI X (List.replicate I.seedSize 0) pk a1 sig a2
    obtain ⟨d1, d2⟩ := verReps1_sized hI X (List.replicate I.seedSize 0) pk' b1 sig b2
    obtain ⟨_, e1, e2, _⟩ := phase1Input_inj I _ _ _ _ _ _ _ _ rfl (hpk.trans hpk'.symm) (c1.trans d1.symm) c2 d2 e
    exact ⟨e1, e2⟩
  · exact .inr ⟨e, a3.trans b3.symm⟩

/-- C50: the claim: for byte strings of any length, if a signature is accepted for two pairs of public key and message, the pairs are equal or the two transcripts are different strings with the same hash. -/
def C50_statement : Prop := ∀ (X : Xof) (fuel : Nat) (I : Instance), Consistent I → ∀ (pk msg pk' msg' : Bytes) (sig : Signature), verify X fuel I pk sig msg = .ok true → verify X fuel I pk' sig msg' = .ok true →
  (pk = pk' ∧ msg = msg') ∨ (transcript1 X I pk sig msg ≠ transcript1 X I pk' sig msg' ∧
    (X (kindOf I.digestSize) (transcript1 X I pk sig msg)).squeeze 0 I.digestSize = (X (kindOf I.digestSize) (transcript1 X I pk' sig msg')).squeeze 0 I.digestSize)

/-- C50 as far as it holds: public keys of equal length, not necessarily the right one. Missing: public keys of different lengths, for which it is false. -/
theorem C50_partial (X : Xof) (fuel : Nat) (I : Instance) (hI : Consistent I) (pk msg pk' msg' : Bytes) (hpk : pk.length = pk'.length) (sig : Signature)
    (h : verify X fuel I pk sig msg = .ok true) (h' : verify X fuel I pk' sig msg' = .ok true) :
    (pk = pk' ∧ msg = msg') ∨ (transcript1 X I pk sig msg ≠ transcript1 X I pk' sig msg' ∧
      (X (kindOf I.digestSize) (transcript1 X I pk sig msg)).squeeze 0 I.digestSize = (X (kindOf I.digestSize) (transcript1 X I pk' sig msg')).squeeze 0 I.digestSize) := by
  obtain ⟨a1, a2, a3⟩ := accepted1 X fuel I hI pk msg sig h
  obtain ⟨b1, b2, b3⟩ := accepted1 X fuel I hI pk' msg' sig h'
  by_cases e : transcript1 X I pk sig msg = transcript1 X I pk' sig msg'
  · left
    obtain ⟨c1, c2⟩ := verReps1_sized hI X (List.replicate I.seedSize 0) pk a1 sig a2
    obtain ⟨d1, d2⟩ := verReps1_sized hI X (List.replicate I.seedSize 0) pk' b1 sig b2
    obtain ⟨_, e1, e2, _⟩ := phase1Input_inj I _ _ _ _ _ _ _ _ rfl hpk (c1.trans d1.symm) c2 d2 e
    exact ⟨e1, e2⟩
  · exact .inr ⟨e, a3.trans b3.symm⟩

/-- C50: for public keys of any lengths, the concatenations of public key and message are equal or the transcripts are different strings with the same hash. -/
theorem C50_concat (X : Xof) (fuel : Nat) (I : Instance) (hI : Consistent I) (pk msg pk' msg' : Bytes) (sig : Signature)
    (h : verify X fuel I pk sig msg = .ok true) (h' : verify X fuel I pk' sig msg' = .ok true) :
    pk ++ msg = pk' ++ msg' ∨ (transcript1 X I pk sig msg ≠ transcript1 X I pk' sig msg' ∧
      (X (kindOf I.digestSize) (transcript1 X I pk sig msg)).squeeze 0 I.digestSize = (X (kindOf I.digestSize) (transcript1 X I pk' sig msg')).squeeze 0 I.digestSize) := by
  obtain ⟨a1, a2, a3⟩ := accepted1 X fuel I hI pk msg sig h
  obtain ⟨b1, b2, b3⟩ := accepted1 X fuel I hI pk' msg' sig h'
  by_cases e : transcript1 X I pk sig msg = transcript1 X I pk' sig msg'
  · left
    obtain ⟨c1, c2⟩ := verReps1_sized hI X (List.replicate I.seedSize 0) pk a1 sig a2
    obtain ⟨d1, d2⟩ := verReps1_sized hI X (List.replicate I.seedSize 0) pk' b1 sig b2
    have e' : phase1Input I sig.salt [] (pk ++ msg) (verReps1 X I (List.replicate I.seedSize 0) pk sig) = phase1Input I sig.salt [] (pk' ++ msg') (verReps1 X I (List.replicate I.seedSize 0) pk' sig) := by
      unfold transcript1 phase1Input at e
      unfold phase1Input
      simpa only [List.append_nil, List.append_assoc] using e
    exact (phase1Input_inj I _ _ _ _ _ _ _ _ rfl rfl (c1.trans d1.symm) c2 d2 e').2.2.1
  · exact .inr ⟨e, a3.trans b3.symm⟩

/-! ## C34 -/

/-- C34: deserialization and verification of a string of the right length (and a public key of at least the right length): the result is true or false, unless a rejection sampling loop
uses up its iterations. -/
theorem C34_total (X : Xof) (fuel : Nat) (I : Instance) (hI : Consistent I) (F : FieldState) (hF : initExtensionField I.lambda = .ok F) (pk : Bytes) (hpk : 2 * I.ctSize ≤ pk.length)
    (bs : Bytes) (hl : bs.length = sigLength I) (msg : Bytes) :
    (∃ b, (deserialize X fuel F I bs).bind (fun s => verify X fuel I pk s msg) = .ok b) ∨
    (deserialize X fuel F I bs).bind (fun s => verify X fuel I pk s msg) = .error .fuel := by
  obtain ⟨hok, hb, hsup⟩ := initExtensionField_ok hF
  have hN := (parties_bounds hI).2.2.2
  cases hm : phase3Expand X fuel I (slice bs (32 + I.digestSize) I.digestSize) with
  | error e =>
    right
    have he := phase3Expand_error X fuel I _ e hm
    subst he
    have := (deserializeRest_total X fuel F I (by rw [hb]) hN bs).2.2 (by rw [hl]; unfold sigLength; omega) hm
    unfold deserialize
    rw [this]
    rfl
  | ok ms =>
    obtain ⟨s, hs, wf⟩ := C18_total X fuel F I hF hN bs hl ms hm
    have hml := (phase3Expand_spec X _ fuel I _ ms hm).1
    have hms : phase3Expand X fuel I s.h3 = .ok ms := by
      have hc := C18_canonical X fuel F I hF hN bs hl s hs
      unfold deserialize at hs
      obtain ⟨⟨s', r⟩, hd, hr⟩ := bind_ok.1 hs
      have hr : s' = s := Except.ok.inj hr
      subst hr
      obtain ⟨ms', hm', wf', _⟩ := (deserializeRest_iff X fuel hb hN).1 hd
      rw [hm', wf'.missing_eq, wf.missing_eq]
    rw [hs]
    change (∃ b, verify X fuel I pk s msg = .ok b) ∨ verify X fuel I pk s msg = .error .fuel
    unfold verify
    rw [hF, ok_bind, verifyWith_eq hI F X _ (by simp) fuel pk hpk s (wf.shaped hN hml) msg, hms]
    cases hR : phase2Expand X fuel F I (verH2 X F I s) (F.firstN I.m2) with
    | error e =>
      right
      rw [phase2Expand_error X fuel F I _ _ e hR]
      rfl
    | ok Rs =>
      left
      change ∃ b, (if ms = _ then _ else _) = _
      rw [if_pos wf.missing_eq]
      exact ⟨_, rfl⟩

example : sigLength smallInstance = (List.replicate 528 (0xab : Byte)).length ∧
    (initExtensionField smallInstance.lambda).bind (fun F => (deserialize onesXof 1 F smallInstance (List.replicate 528 0xab)).bind fun s => verify onesXof 1 smallInstance (List.replicate 32 4) s []) = .ok false := by
  refine ⟨?_, by decide +kernel⟩
  unfold sigLength proofLength
  rw [show Nat.clog 2 smallInstance.numParties = 1 by decide, List.length_replicate]
  rfl

end Banquet.Props
