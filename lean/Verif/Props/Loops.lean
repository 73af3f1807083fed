import Verif.Proofs.LoopsKey
import Verif.Proofs.LoopsVerAll
import Verif.Props.Sign
import Verif.Props.Verify

/-! Property theorems for C68: the loops of `banquet_sign` and `banquet_verify` on shared buffers. -/

namespace Banquet.Props

open Spec Spec.Aes

/-- C68: sign, statement by statement with every access checked, is the function on single repetitions and parties of which the other properties speak: whatever the public key, the message and the key, unless the key is too long. -/
theorem C68_sign (X : Xof) (fuel : Nat) (I : Instance) (hI : Consistent I) (sk pk msg : Bytes) (hsk : sk.length ≤ I.aes.keySize) : Loops.sign X fuel I sk pk msg = sign X fuel I sk pk msg := by
  obtain ⟨F, hF⟩ := init_supported hI.lambda
  obtain ⟨hok, hb, _⟩ := initExtensionField_ok hF
  unfold Loops.sign sign
  rw [hF, ok_bind, ok_bind]
  exact Loops.signWith_loops hI hb X fuel sk pk msg hsk

/-- C68: the same for verify and every signature whose vectors have the sizes of the instance. -/
theorem C68_verify (X : Xof) (fuel : Nat) (I : Instance) (hI : Consistent I) (pk msg : Bytes) (sig : Signature) (hs : sig.shaped I = true) : Loops.verify X fuel I pk sig msg = verify X fuel I pk sig msg := by
  obtain ⟨F, hF⟩ := init_supported hI.lambda
  obtain ⟨hok, hb, _⟩ := initExtensionField_ok hF
  unfold Loops.verify verify
  rw [hF, ok_bind, ok_bind]
  exact Loops.verifyWith_loops hI hb X (by simp) fuel pk msg hs

/-- C68: with a key without zero S-box input, no access of sign leaves its buffer, no span check fires and nothing is thrown. -/
theorem C68_sign_total (X : Xof) (fuel : Nat) (I : Instance) (hI : Consistent I) (sk pk msg : Bytes) (hsk : sk.length = I.aes.keySize) (hpk : 2 * I.ctSize ≤ pk.length)
    (h0 : 0 ∉ sboxInputs (I.aes.keySize / 4) I.aes.numBlocks sk (slice pk 0 I.ctSize)) : (∃ sig, Loops.sign X fuel I sk pk msg = .ok sig) ∨ Loops.sign X fuel I sk pk msg = .error .fuel := by
  rw [C68_sign X fuel I hI sk pk msg hsk.le]
  exact C41_total X fuel I hI sk pk msg hsk hpk h0

/-- C68: with every string of the right length in place of a signature, no access of verify leaves its buffer, no span check fires and nothing is thrown. -/
theorem C68_verify_total (X : Xof) (fuel : Nat) (I : Instance) (hI : Consistent I) (F : FieldState) (hF : initExtensionField I.lambda = .ok F) (pk : Bytes) (hpk : 2 * I.ctSize ≤ pk.length)
    (bs : Bytes) (hl : bs.length = sigLength I) (msg : Bytes) : (∃ b, (deserialize X fuel F I bs).bind (fun s => Loops.verify X fuel I pk s msg) = .ok b) ∨
    (deserialize X fuel F I bs).bind (fun s => Loops.verify X fuel I pk s msg) = .error .fuel := by
  have hN := (parties_bounds hI).2.2.2
  have key : (deserialize X fuel F I bs).bind (fun s => Loops.verify X fuel I pk s msg) = (deserialize X fuel F I bs).bind (fun s => verify X fuel I pk s msg) := by
    cases hd : deserialize X fuel F I bs with
    | error e => rfl
    | ok s =>
      obtain ⟨hok, hb, _⟩ := initExtensionField_ok hF
      unfold deserialize at hd
      obtain ⟨⟨s', r⟩, hd', hr⟩ := bind_ok.1 hd
      cases Except.ok.inj hr
      obtain ⟨ms', hm', wf', _⟩ := (deserializeRest_iff X fuel hb hN).1 hd'
      exact C68_verify X fuel I hI pk msg _ (wf'.shaped hN (phase3Expand_spec X _ fuel I _ ms' hm').1)
  rw [key]
  exact C34_total X fuel I hI F hF pk hpk bs hl msg

/-- C68: the signature that the loops of sign return for a key pair is accepted by the loops of verify. -/
theorem C68_accepted (X : Xof) (fuel : Nat) (I : Instance) (hI : Consistent I) (sk pk msg : Bytes) (hk : KeyPair I sk pk) (sig : Signature) (h : Loops.sign X fuel I sk pk msg = .ok sig)
    (fuel' : Nat) (hf : fuel ≤ fuel') : Loops.verify X fuel' I pk sig msg = .ok true := by
  rw [C68_sign X fuel I hI sk pk msg (KeyPair.facts hI hk).1.le] at h
  have hv := C15_accepted X fuel I hI sk pk msg hk sig h fuel' hf
  rw [C68_verify X fuel' I hI pk msg sig (accepted1 X fuel' I hI pk msg sig hv).2.1, hv]

/-- C68: nothing checks the length of the key. With a longer one, sign never returns a signature whose vectors have the sizes of the instance: the key deltas are as long as the key. -/
theorem C68_key_length (X : Xof) (fuel : Nat) (I : Instance) (hI : Consistent I) (sk pk msg : Bytes) (hsk : I.aes.keySize < sk.length) (sig : Signature) (h : sig.shaped I = true) : Loops.sign X fuel I sk pk msg ≠ .ok sig := by
  intro hs
  unfold Loops.sign at hs
  obtain ⟨F, -, hs⟩ := bind_ok.1 hs
  obtain ⟨h1, h2⟩ := Loops.signWith_keyDelta X fuel F I sk pk msg sig hs
  have := hI.rounds
  have hp := (shaped_facts h).2.2.2.2 0 (by omega)
  have hm : sig.proofs.getD 0 noProof ∈ sig.proofs := by
    rw [getD_of_lt (by omega)]
    exact List.getElem_mem _
  have := h2 _ hm
  rw [(Loops.shaped_lengths hp).2.1] at this
  omega

/-- The loops of sign and verify, with the key of the known answer test. -/
example : ∃ sig, Loops.sign onesXof 1 smallInstance katKey katPk [1, 2, 3] = .ok sig ∧ Loops.verify onesXof 1 smallInstance katPk sig [1, 2, 3] = .ok true := by
  obtain ⟨sig, h, _⟩ := kat_signs [1, 2, 3]
  rw [← C68_sign onesXof 1 smallInstance small_consistent katKey katPk _ (by decide)] at h
  exact ⟨sig, h, C68_accepted _ _ _ small_consistent _ _ _ (kat_pair _ rfl) sig h 1 le_rfl⟩

/-- A key with a zero S-box input, and a signature that is not valid. -/
example : Loops.sign toyXof 5 smallInstance (List.replicate 16 0) (List.replicate 32 1) [] = .error .ub ∧ Loops.verify onesXof 1 smallInstance (List.replicate 32 4) smallSig [5, 6] = .ok false := by
  rw [C68_sign _ _ _ small_consistent _ _ _ (by decide), C68_verify _ _ _ small_consistent _ _ _ (by decide +kernel)]
  exact ⟨C24_ub _ _ _ small_consistent _ _ _ rfl rfl zero_unusable, by decide +kernel⟩

example (sig : Signature) (h : sig.shaped smallInstance = true) : Loops.sign onesXof 1 smallInstance (katKey ++ [0]) katPk [1, 2, 3] ≠ .ok sig :=
  C68_key_length _ _ _ small_consistent _ _ _ (by decide) sig h

end Banquet.Props
