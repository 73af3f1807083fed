import Verif.Spec.Key
import Verif.Proofs.Fuel
import Verif.Props.Aes
import Verif.Props.Verify

/-! C15, C16, C24, C41, C50: signing. -/

namespace Banquet.Props

open Spec FieldOk Spec.Aes

theorem KeyPair.facts {I : Instance} (hI : Consistent I) {sk pk : Bytes} (h : KeyPair I sk pk) : sk.length = I.aes.keySize ∧ pk.length = 2 * I.ctSize ∧
    0 ∉ sboxInputs (I.aes.keySize / 4) I.aes.numBlocks sk (slice pk 0 I.ctSize) ∧ slice pk I.ctSize I.ctSize = encrypt (I.aes.keySize / 4) I.aes.numBlocks sk (slice pk 0 I.ctSize) := by
  obtain ⟨h1, pt, rfl, h2, h3⟩ := h
  obtain ⟨hv, e4, hb⟩ := consistent_variant hI
  have hl := length_encrypt (I.aes.keySize / 4) I.aes.numBlocks sk pt
  have e1 : slice (pt ++ encrypt (I.aes.keySize / 4) I.aes.numBlocks sk pt) 0 I.ctSize = pt := by
    unfold slice
    rw [List.drop_zero]
    exact List.take_left' h2
  have e2 : slice (pt ++ encrypt (I.aes.keySize / 4) I.aes.numBlocks sk pt) I.ctSize I.ctSize = encrypt (I.aes.keySize / 4) I.aes.numBlocks sk pt := by
    unfold slice
    rw [List.drop_left' (show pt.length = I.ctSize from h2)]
    refine List.take_of_length_le ?_
    rw [hl]
    unfold Instance.ctSize
    rw [hb]
  refine ⟨h1, ?_, by rwa [e1], by rw [e1, e2]⟩
  rw [List.length_append, h2, hl]
  unfold Instance.ctSize
  rw [hb]
  ring

/-- A key pair from keygen is a key pair. -/
theorem keygen_pair (I : Instance) (hI : Consistent I) (draws : Nat → Bytes × Bytes) (hd : ∀ i, (draws i).1.length = I.aes.keySize ∧ (draws i).2.length = I.ctSize) (fuel : Nat) (sk pk : Bytes)
    (h : keygen I draws fuel 0 = .ok (sk, pk)) : KeyPair I sk pk := by
  obtain ⟨h1, _, pt, h2, h3, h4, _⟩ := C23_keygen I hI draws hd fuel sk pk h
  exact ⟨h1, pt, h2, h3, h4⟩

/-! ## A concrete key pair and hash -/

/-- The key of the known answer test of the repository. -/
def katKey : Bytes := List.replicate 16 0xff
/-- Its public key. -/
def katPk : Bytes := ([1, 1, 1, 1] ++ List.replicate 12 0) ++ [11, 90, 129, 77, 149, 96, 28, 199, 239, 231, 18, 40, 62, 5, 239, 143]

theorem kat_pair (I : Instance) (h : I.aes = aes128Params) : KeyPair I katKey katPk := by
  obtain ⟨h1, h2⟩ := (C32_aes 4 1 200 (.inl rfl) _ _ _).1 kat_usable
  unfold KeyPair
  rw [h]
  exact ⟨rfl, _, congrArg _ h2, rfl, h1⟩

theorem ones_phase2 (fuel : Nat) (F : FieldState) (I : Instance) (h : Bytes) (forb : List W64) : phase2Expand onesXof fuel F I h forb = phase2Expand onesXof fuel F I [] forb := rfl

theorem ones_phase3 (fuel : Nat) (I : Instance) (h : Bytes) : phase3Expand onesXof fuel I h = phase3Expand onesXof fuel I [] := rfl

/-- With this hash the challenges of the example instance are found at once. -/
theorem ones_loops {F : FieldState} (hF : initExtensionField 4 = .ok F) : (∀ h, phase2Expand onesXof 1 F smallInstance h (F.firstN smallInstance.m2) = .ok [0x01010101]) ∧
    ∀ h, phase3Expand onesXof 1 smallInstance h = .ok [1] := by
  have h2 : (initExtensionField 4 >>= fun F => phase2Expand onesXof 1 F smallInstance [] (F.firstN smallInstance.m2)) = .ok [0x01010101] := by decide +kernel
  have h3 : phase3Expand onesXof 1 smallInstance [] = .ok [1] := by decide +kernel
  rw [hF, ok_bind] at h2
  exact ⟨fun h => by rw [ones_phase2, h2], fun h => by rw [ones_phase3, h3]⟩

/-! ## C15 -/

/-- C15: a signature returned by sign for a key pair is accepted (with at least as many iterations of the rejection loops). -/
theorem C15_accepted (X : Xof) (fuel : Nat) (I : Instance) (hI : Consistent I) (sk pk msg : Bytes) (hk : KeyPair I sk pk) (sig : Signature) (h : sign X fuel I sk pk msg = .ok sig)
    (fuel' : Nat) (hf : fuel ≤ fuel') : verify X fuel' I pk sig msg = .ok true := by
  obtain ⟨F, hF⟩ := init_supported hI.lambda
  obtain ⟨hok, hb, _⟩ := initExtensionField_ok hF
  obtain ⟨h1, h2, h3, h4⟩ := KeyPair.facts hI hk
  unfold sign at h
  rw [hF, ok_bind] at h
  unfold verify
  rw [hF, ok_bind]
  exact (signWith_ok hI hb X fuel sk pk msg h1 h2.ge h3 sig h).2 h4 _ (by simp) fuel' hf

/-- C15 for the keys that keygen returns. -/
theorem C15_keygen (X : Xof) (fuel : Nat) (I : Instance) (hI : Consistent I) (draws : Nat → Bytes × Bytes) (hd : ∀ i, (draws i).1.length = I.aes.keySize ∧ (draws i).2.length = I.ctSize) (tries : Nat)
    (sk pk msg : Bytes) (hk : keygen I draws tries 0 = .ok (sk, pk)) (sig : Signature) (h : sign X fuel I sk pk msg = .ok sig) : verify X fuel I pk sig msg = .ok true :=
  C15_accepted X fuel I hI sk pk msg (keygen_pair I hI draws hd tries sk pk hk) sig h fuel le_rfl

/-! ## C41 -/

/-- C41: for a key without zero S-box input and any public key of at least the right length, sign returns a signature or a rejection loop uses up its iterations; it neither throws nor reads out of range. -/
theorem C41_total (X : Xof) (fuel : Nat) (I : Instance) (hI : Consistent I) (sk pk msg : Bytes) (hsk : sk.length = I.aes.keySize) (hpk : 2 * I.ctSize ≤ pk.length)
    (h0 : 0 ∉ sboxInputs (I.aes.keySize / 4) I.aes.numBlocks sk (slice pk 0 I.ctSize)) :
    (∃ sig, sign X fuel I sk pk msg = .ok sig) ∨ sign X fuel I sk pk msg = .error .fuel := by
  obtain ⟨F, hF⟩ := init_supported hI.lambda
  obtain ⟨hok, hb, _⟩ := initExtensionField_ok hF
  unfold sign
  rw [hF, ok_bind]
  exact (signWith_total hI X fuel sk pk msg hsk hpk h0).1

/-- C41: if the rejection loops end, sign returns a signature. -/
theorem C41_returns (X : Xof) (fuel : Nat) (I : Instance) (hI : Consistent I) (sk pk msg : Bytes) (hk : KeyPair I sk pk)
    (g2 : ∀ F h, initExtensionField I.lambda = .ok F → ∃ Rs, phase2Expand X fuel F I h (F.firstN I.m2) = .ok Rs) (g3 : ∀ h, ∃ ms, phase3Expand X fuel I h = .ok ms) :
    ∃ sig, sign X fuel I sk pk msg = .ok sig := by
  obtain ⟨F, hF⟩ := init_supported hI.lambda
  obtain ⟨hok, hb, _⟩ := initExtensionField_ok hF
  obtain ⟨h1, h2, h3, _⟩ := KeyPair.facts hI hk
  unfold sign
  rw [hF, ok_bind]
  exact (signWith_total hI X fuel sk pk msg h1 h2.ge h3).2 (fun h => g2 F h hF) g3

/-- A concrete signature. -/
theorem kat_signs (msg : Bytes) : ∃ sig, sign onesXof 1 smallInstance katKey katPk msg = .ok sig ∧ verify onesXof 1 smallInstance katPk sig msg = .ok true := by
  obtain ⟨sig, h⟩ := C41_returns onesXof 1 smallInstance small_consistent katKey katPk msg (kat_pair _ rfl) (fun F h hF => ⟨_, (ones_loops hF).1 h⟩) (fun h => by
    obtain ⟨F, hF⟩ := init_supported small_consistent.lambda
    exact ⟨_, (ones_loops hF).2 h⟩)
  exact ⟨sig, h, C15_accepted _ _ _ small_consistent _ _ _ (kat_pair _ rfl) sig h 1 le_rfl⟩

example : ∃ sig, sign onesXof 1 smallInstance katKey katPk [1, 2, 3] = .ok sig ∧ verify onesXof 1 smallInstance katPk sig [1, 2, 3] = .ok true := kat_signs _

/-- A supplied instance (`Banquet_L1_Param1`). -/
example : ∃ I, instances[1]? = some I ∧ Consistent I ∧ ∃ sig, sign onesXof 1 I katKey katPk [1, 2, 3] = .ok sig := by
  obtain ⟨I, hI⟩ : ∃ I : Instance, I = ⟨aes128Params, 32, 16, 31, 64, 10, 20, 4, 1⟩ := ⟨_, rfl⟩
  have hc : Consistent I := by rw [hI]; exact consistent_of_check _ (by decide)
  refine ⟨I, by rw [hI]; rfl, hc, ?_⟩
  have h2 : ((initExtensionField I.lambda).bind fun F => phase2Expand onesXof 1 F I [] (F.firstN I.m2)) = .ok (List.replicate 31 0x01010101) := by rw [hI]; decide +kernel
  have h3 : phase3Expand onesXof 1 I [] = .ok (List.replicate 31 1) := by rw [hI]; decide +kernel
  refine C41_returns onesXof 1 _ hc katKey katPk _ (kat_pair _ (by rw [hI])) (fun F h hF => ?_) (fun h => ⟨_, (ones_phase3 _ _ h).trans h3⟩)
  rw [hF] at h2
  exact ⟨_, (ones_phase2 _ _ _ h _).trans h2⟩

/-! ## C24 -/

/-- C24 as far as it holds: keys without zero S-box input. Missing: the other keys of the right length, for which it is false. -/
theorem C24_partial (X : Xof) (fuel : Nat) (I : Instance) (hI : Consistent I) (sk pk msg : Bytes) (hsk : sk.length = I.aes.keySize) (hpk : pk.length = 2 * I.ctSize)
    (h0 : 0 ∉ sboxInputs (I.aes.keySize / 4) I.aes.numBlocks sk (slice pk 0 I.ctSize)) : sign X fuel I sk pk msg ≠ .error .ub := by
  rcases C41_total X fuel I hI sk pk msg hsk hpk.ge h0 with ⟨sig, h⟩ | h <;> rw [h] <;> simp

/-- C24: exactly the keys with a zero S-box input lead to undefined behaviour. -/
theorem C24_ub_iff (X : Xof) (fuel : Nat) (I : Instance) (hI : Consistent I) (sk pk msg : Bytes) (hsk : sk.length = I.aes.keySize) (hpk : pk.length = 2 * I.ctSize) :
    sign X fuel I sk pk msg = .error .ub ↔ 0 ∈ sboxInputs (I.aes.keySize / 4) I.aes.numBlocks sk (slice pk 0 I.ctSize) :=
  ⟨fun h => by_contra fun h0 => C24_partial X fuel I hI sk pk msg hsk hpk h0 h, C24_ub X fuel I hI sk pk msg hsk hpk⟩

/-! ## C16 -/

/-- C16: a signature returned by sign is encoded without error to a string of the fixed length; the string is decoded without error to a signature that is accepted. -/
theorem C16_encoded (X : Xof) (fuel : Nat) (I : Instance) (hI : Consistent I) (sk pk msg : Bytes) (hk : KeyPair I sk pk) (sig : Signature) (h : sign X fuel I sk pk msg = .ok sig)
    (F : FieldState) (hF : initExtensionField I.lambda = .ok F) : ∃ bs, serialize F I sig = .ok bs ∧ bs.length = sigLength I ∧
    ∃ sig', deserialize X fuel F I bs = .ok sig' ∧ sig' = sig ∧ verify X fuel I pk sig' msg = .ok true := by
  obtain ⟨hok, hb, _⟩ := initExtensionField_ok hF
  obtain ⟨h1, h2, h3, h4⟩ := KeyPair.facts hI hk
  have hs := h
  unfold sign at hs
  rw [hF, ok_bind] at hs
  obtain ⟨⟨ms, hm, wf⟩, _⟩ := signWith_ok hI hb X fuel sk pk msg h1 h2.ge h3 sig hs
  obtain ⟨bs, b1, b2, b3⟩ := C17_roundtrip X fuel F I hF (parties_bounds hI).2.2.2 sig ms hm wf
  exact ⟨bs, b1, b2, sig, b3, rfl, C15_accepted X fuel I hI sk pk msg hk sig h fuel le_rfl⟩

example : ∃ F sig bs, initExtensionField smallInstance.lambda = .ok F ∧ sign onesXof 1 smallInstance katKey katPk [7] = .ok sig ∧ serialize F smallInstance sig = .ok bs ∧ bs.length = 528 := by
  obtain ⟨F, hF⟩ := init_supported small_consistent.lambda
  obtain ⟨sig, h, _⟩ := kat_signs [7]
  obtain ⟨bs, h1, h2, _⟩ := C16_encoded _ _ _ small_consistent _ _ _ (kat_pair _ rfl) sig h F hF
  refine ⟨F, sig, bs, hF, h, h1, h2.trans ?_⟩
  unfold sigLength proofLength
  rw [show Nat.clog 2 smallInstance.numParties = 1 by decide]
  rfl

/-! ## C50 -/

/-- C50 does not hold: a signature for the message `[9, 1]` is accepted for the public key extended by `[9]` and the message `[1]`. -/
theorem C50_violated : ¬C50_statement := by
  intro hst
  obtain ⟨sig, _, h⟩ := kat_signs ([9] ++ [1])
  have h' := h
  rw [← C50_shift onesXof 1 smallInstance small_consistent katPk [9] [1] (by decide) sig] at h'
  rcases hst onesXof 1 smallInstance small_consistent (katPk ++ [9]) [1] katPk ([9] ++ [1]) sig h' h with ⟨h1, _⟩ | ⟨h1, _⟩
  · exact absurd (congrArg List.length h1) (by decide)
  · refine h1 ?_
    obtain ⟨a1, a2, _⟩ := accepted1 onesXof 1 smallInstance small_consistent katPk _ sig h
    unfold transcript1
    have : verReps1 onesXof smallInstance (List.replicate smallInstance.seedSize 0) (katPk ++ [9]) sig = verReps1 onesXof smallInstance (List.replicate smallInstance.seedSize 0) katPk sig := by
      unfold verReps1
      rw [slice_append (by decide), slice_append (by decide)]
    rw [this]
    unfold phase1Input
    simp only [List.append_assoc]

/-- The hypotheses of C20 and C50: an accepted signature. -/
example : ∃ sig, verify onesXof 1 smallInstance katPk sig [1] = .ok true ∧ verify onesXof 1 smallInstance (katPk ++ [1]) sig [] = .ok true := by
  obtain ⟨sig, _, h⟩ := kat_signs [1]
  exact ⟨sig, h, by rw [C50_shift onesXof 1 smallInstance small_consistent katPk [1] [] (by decide) sig]; exact h⟩

end Banquet.Props
