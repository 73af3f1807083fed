import Verif.Proofs.Careful
import Verif.Props.Verify

/-! C85: a caller who compares lengths and checks the key pair meets none of the undefined behaviour recorded for the library. -/

namespace Banquet.Props

open Spec FieldOk

/-- C85: signing ends with an exception exactly for what is not a key pair; otherwise it ends with a string of the length of a signature unless a rejection sampling loop uses up its iterations. -/
theorem C85_sign (X : Xof) (fuel : Nat) (I : Instance) (hI : Consistent I) (sk pk msg : Bytes) :
    (¬ KeyPair I sk pk → Careful.sign X fuel I sk pk msg = .error .thrown) ∧
    (KeyPair I sk pk → (∃ bs, bs.length = sigLength I ∧ Careful.sign X fuel I sk pk msg = .ok bs) ∨ Careful.sign X fuel I sk pk msg = .error .fuel) := by
  unfold Careful.sign
  refine ⟨fun h => if_neg (fun h' => h ((careful_pair I hI sk pk).1 h')), fun h => ?_⟩
  rw [if_pos ((careful_pair I hI sk pk).2 h)]
  obtain ⟨F, hF⟩ := init_supported hI.lambda
  obtain ⟨k1, k2, k3, _⟩ := KeyPair.facts hI h
  rcases C41_total X fuel I hI sk pk msg k1 k2.ge k3 with ⟨sig, e⟩ | e
  · obtain ⟨bs, e1, e2, _⟩ := C16_encoded X fuel I hI sk pk msg h sig e F hF
    exact .inl ⟨bs, e2, by rw [e, ok_bind, hF, ok_bind, e1]⟩
  · right
    rw [e]
    rfl

/-- C85: verification ends, for any strings, with true or false, with an exception exactly for a public key of a wrong length, or because a rejection sampling loop uses up its iterations. -/
theorem C85_verify (X : Xof) (fuel : Nat) (I : Instance) (hI : Consistent I) (pk bs msg : Bytes) :
    (pk.length ≠ 2 * I.ctSize → Careful.verify X fuel I pk bs msg = .error .thrown) ∧
    (pk.length = 2 * I.ctSize → (∃ b, Careful.verify X fuel I pk bs msg = .ok b) ∨ (bs.length = sigLength I ∧ Careful.verify X fuel I pk bs msg = .error .fuel)) := by
  unfold Careful.verify
  refine ⟨fun h => if_pos h, fun h => ?_⟩
  rw [if_neg (not_not.2 h), careful_size I hI]
  by_cases hl : bs.length = sigLength I
  · rw [if_neg (not_not.2 hl)]
    obtain ⟨F, hF⟩ := init_supported hI.lambda
    rw [hF, ok_bind]
    rcases C34_total X fuel I hI F hF pk h.ge bs hl msg with h | h
    · exact .inl h
    · exact .inr ⟨hl, h⟩
  · rw [if_pos hl]
    exact .inl ⟨_, rfl⟩

/-- C85: what the careful signer returns is accepted by the careful verifier, for the same message and public key. -/
theorem C85_accepted (X : Xof) (fuel : Nat) (I : Instance) (hI : Consistent I) (sk pk msg bs : Bytes) (h : Careful.sign X fuel I sk pk msg = .ok bs) :
    Careful.verify X fuel I pk bs msg = .ok true := by
  have hk : KeyPair I sk pk := by
    by_contra hn
    rw [(C85_sign X fuel I hI sk pk msg).1 hn] at h
    exact absurd h (by simp)
  have hp := (careful_pair I hI sk pk).2 hk
  unfold Careful.sign at h
  rw [if_pos hp] at h
  obtain ⟨sig, e, h⟩ := bind_ok.1 h
  obtain ⟨F, hF, h⟩ := bind_ok.1 h
  obtain ⟨bs', e1, e2, sig', e3, _, e4⟩ := C16_encoded X fuel I hI sk pk msg hk sig e F hF
  have : bs' = bs := by rw [e1] at h; exact Except.ok.inj h
  subst this
  unfold Careful.verify
  rw [if_neg (not_not.2 hp.2.1), careful_size I hI, if_neg (not_not.2 e2), hF, ok_bind, e3, ok_bind, e4]

/-- C85: a string that is accepted is the encoding of the signature read from it, and that signature is accepted by `banquet_verify`: there is no second string for the same signature. -/
theorem C85_canonical (X : Xof) (fuel : Nat) (I : Instance) (hI : Consistent I) (F : FieldState) (hF : initExtensionField I.lambda = .ok F) (pk bs msg : Bytes)
    (h : Careful.verify X fuel I pk bs msg = .ok true) :
    pk.length = 2 * I.ctSize ∧ bs.length = sigLength I ∧ ∃ sig, deserialize X fuel F I bs = .ok sig ∧ serialize F I sig = .ok bs ∧ verify X fuel I pk sig msg = .ok true := by
  unfold Careful.verify at h
  split at h
  · exact absurd h (by simp)
  rename_i h1
  rw [careful_size I hI] at h
  split at h
  · exact absurd h (by simp)
  rename_i h2
  rw [not_not] at h1 h2
  rw [hF, ok_bind] at h
  obtain ⟨sig, e, h⟩ := bind_ok.1 h
  refine ⟨h1, h2, sig, e, ?_, h⟩
  have hN : I.numParties < 2 ^ 32 := (parties_bounds hI).2.2.2
  obtain ⟨_, c2, c3⟩ := C35_exact X fuel F I hF hN bs
  have hl : 32 + 2 * I.digestSize ≤ bs.length := by rw [h2]; unfold sigLength; omega
  rcases hp : phase3Expand X fuel I (slice bs (32 + I.digestSize) I.digestSize) with e' | ms
  · rw [(c2 hl e' hp).2] at e
    exact absurd e (by simp)
  · obtain ⟨s, d1, _, d3⟩ := (c3 hl ms hp).2 h2.ge
    rw [d1] at e
    rw [← Except.ok.inj e, d3, ← h2, List.take_length]

/-- C85: a string that is accepted for two pairs of public key and message: the pairs are equal, or the two transcripts of the first hash are different strings with the same hash. -/
theorem C85_binding (X : Xof) (fuel : Nat) (I : Instance) (hI : Consistent I) (F : FieldState) (hF : initExtensionField I.lambda = .ok F) (pk msg pk' msg' bs : Bytes)
    (h : Careful.verify X fuel I pk bs msg = .ok true) (h' : Careful.verify X fuel I pk' bs msg' = .ok true) :
    (pk = pk' ∧ msg = msg') ∨ ∃ sig, deserialize X fuel F I bs = .ok sig ∧ transcript1 X I pk sig msg ≠ transcript1 X I pk' sig msg' ∧
      (X (kindOf I.digestSize) (transcript1 X I pk sig msg)).squeeze 0 I.digestSize = (X (kindOf I.digestSize) (transcript1 X I pk' sig msg')).squeeze 0 I.digestSize := by
  obtain ⟨a1, _, sig, a2, _, a3⟩ := C85_canonical X fuel I hI F hF pk bs msg h
  obtain ⟨b1, _, sig', b2, _, b3⟩ := C85_canonical X fuel I hI F hF pk' bs msg' h'
  rw [a2] at b2
  rw [← Except.ok.inj b2] at b3
  rcases C50_partial X fuel I hI pk msg pk' msg' (a1.trans b1.symm) sig a3 b3 with e | ⟨e1, e2⟩
  · exact .inl e
  · exact .inr ⟨sig, a2, e1, e2⟩

/-- The known answer key signs three bytes, and the string is accepted. -/
example : ∃ bs, bs.length = sigLength smallInstance ∧ Careful.sign onesXof 1 smallInstance katKey katPk [1, 2, 3] = .ok bs ∧
    Careful.verify onesXof 1 smallInstance katPk bs [1, 2, 3] = .ok true := by
  obtain ⟨sig, e, _⟩ := kat_signs [1, 2, 3]
  obtain ⟨F, hF⟩ := init_supported small_consistent.lambda
  obtain ⟨bs, e1, e2, _⟩ := C16_encoded _ _ _ small_consistent _ _ _ (kat_pair _ rfl) sig e F hF
  have hs : Careful.sign onesXof 1 smallInstance katKey katPk [1, 2, 3] = .ok bs := by
    unfold Careful.sign
    rw [if_pos ((careful_pair _ small_consistent _ _).2 (kat_pair _ rfl)), e, ok_bind, hF, ok_bind, e1]
  exact ⟨bs, e2, hs, C85_accepted _ _ _ small_consistent _ _ _ _ hs⟩

/-- A public key that is one byte longer is refused, with a signature that `banquet_verify` accepts for it and a shorter message. -/
example : ∃ sig, verify onesXof 1 smallInstance (katPk ++ [1]) sig [] = .ok true ∧ ∀ bs msg, Careful.verify onesXof 1 smallInstance (katPk ++ [1]) bs msg = .error .thrown := by
  obtain ⟨sig, _, h⟩ := kat_signs [1]
  exact ⟨sig, by rw [C50_shift onesXof 1 smallInstance small_consistent katPk [1] [] (by decide) sig]; exact h,
    fun bs msg => (C85_verify onesXof 1 smallInstance small_consistent _ bs msg).1 (by decide)⟩

/-- The empty string and a string that is one byte too long are not accepted. -/
example : Careful.verify onesXof 1 smallInstance katPk [] [1] = .ok false ∧ Careful.verify onesXof 1 smallInstance katPk (List.replicate 529 0) [1] = .ok false := by decide +kernel

end Banquet.Props
