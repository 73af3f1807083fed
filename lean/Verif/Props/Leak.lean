import Verif.Proofs.Leak
import Verif.Props.Sign
import Verif.Props.Verify

/-! Property theorems for C70: the indices of the table lookups of `banquet_sign`. -/

namespace Banquet.Props

open Spec Spec.Aes Spec.Leak

/-- C70: whatever the hash function, whoever sees the indices of the table lookups of one signature knows the secret key. -/
theorem C70_key (X : Xof) (I : Instance) (hI : Consistent I) (sk pk msg : Bytes) (hsk : sk.length = I.aes.keySize) (hpk : 2 * I.ctSize ≤ pk.length)
    (h0 : 0 ∉ sboxInputs (I.aes.keySize / 4) I.aes.numBlocks sk (slice pk 0 I.ctSize)) :
    ∃ l, Loops.signLookups X I sk pk msg = .ok l ∧ keyOf (I.aes.keySize / 4) (slice pk 0 16) (observed I.m1 I.m2 l) = sk := by
  obtain ⟨r, _, e⟩ := signLookups_ok hI X sk pk msg hsk hpk h0
  refine ⟨_, e, ?_⟩
  have hct : 16 ≤ I.ctSize := by
    rcases hI.aes with h | h | h <;> (simp only [Prod.mk.injEq] at h; obtain ⟨h1, h2, h3, h4⟩ := h; have : I.ctSize = I.aes.blockSize * I.aes.numBlocks := rfl; rw [h2, h3] at this; omega)
  have hpt : slice pk 0 16 = slice (slice pk 0 I.ctSize) 0 16 := by
    unfold slice
    rw [List.drop_zero, List.drop_zero, List.take_take, Nat.min_eq_left hct]
  rw [hpt]
  refine Eq.trans ?_ (keyOf_code I.aes.keySize (keySize_cases hI) sk (slice pk 0 I.ctSize) hsk)
  have hs := scheduled_lt hI
  refine keyOf_congr _ _ fun n hn => ?_
  exact observed_products I.m1 I.m2 (fun i => (codeInputs (I.aes.keySize / 4) (nBlocks I.aes.keySize) sk (slice pk 0 I.ctSize)).getD i 0)
    (fun i => (aesSave I.aes.keySize sk (slice pk 0 I.ctSize)).2.2.getD i 0) r (by omega)

/-- C70: who sees only the cache lines (eight entries of eight bytes each) knows the upper five bits of the first 16 bytes of the key. -/
theorem C70_lines (X : Xof) (I : Instance) (hI : Consistent I) (sk pk msg : Bytes) (hsk : sk.length = I.aes.keySize) (hpk : 2 * I.ctSize ≤ pk.length)
    (h0 : 0 ∉ sboxInputs (I.aes.keySize / 4) I.aes.numBlocks sk (slice pk 0 I.ctSize)) :
    ∃ l, Loops.signLookups X I sk pk msg = .ok l ∧ ∀ j < 16,
      sk.getD j 0 >>> 3 = observed I.m1 I.m2 (l.map fun b : Byte => b >>> 3) (scheduled (I.aes.keySize / 4) + 4 * (j % 4) + j / 4) ^^^ (pk.getD j 0 >>> 3) := by
  obtain ⟨l, e, hl⟩ := C70_key X I hI sk pk msg hsk hpk h0
  refine ⟨l, e, fun j hj => ?_⟩
  have hk := keySize_cases hI
  rw [← hl, keyOf_first _ (by omega) _ _ j hj, BitVec.ushiftRight_xor_distrib]
  congr 1
  · unfold observed
    rw [List.getD_eq_getElem?_getD, List.getD_eq_getElem?_getD, List.getElem?_map]
    cases l[2 * (I.m2 * ((scheduled (I.aes.keySize / 4) + 4 * (j % 4) + j / 4) % I.m1) + (scheduled (I.aes.keySize / 4) + 4 * (j % 4) + j / 4) / I.m1)]? <;> rfl
  · unfold slice
    rw [List.drop_zero, List.getD_eq_getElem?_getD, List.getD_eq_getElem?_getD, List.getElem?_take, if_pos hj]

/-- C70: two keys never make the same lookups. -/
theorem C70_distinct (X : Xof) (I : Instance) (hI : Consistent I) (sk sk' pk msg : Bytes) (hsk : sk.length = I.aes.keySize) (hsk' : sk'.length = I.aes.keySize) (hpk : 2 * I.ctSize ≤ pk.length)
    (h0 : 0 ∉ sboxInputs (I.aes.keySize / 4) I.aes.numBlocks sk (slice pk 0 I.ctSize)) (h0' : 0 ∉ sboxInputs (I.aes.keySize / 4) I.aes.numBlocks sk' (slice pk 0 I.ctSize)) (hne : sk ≠ sk') :
    Loops.signLookups X I sk pk msg ≠ Loops.signLookups X I sk' pk msg := by
  intro h
  obtain ⟨l, e, hl⟩ := C70_key X I hI sk pk msg hsk hpk h0
  obtain ⟨l', e', hl'⟩ := C70_key X I hI sk' pk msg hsk' hpk h0'
  rw [e, e'] at h
  injection h with h
  rw [← hl, ← hl', h] at hne
  exact hne rfl

/-- C70, the part that holds: the number of lookups depends on the instance only. Missing: that the indices are independent of the key. -/
theorem C70_partial (X : Xof) (I : Instance) (hI : Consistent I) (sk pk msg : Bytes) (hsk : sk.length = I.aes.keySize) (hpk : 2 * I.ctSize ≤ pk.length)
    (h0 : 0 ∉ sboxInputs (I.aes.keySize / 4) I.aes.numBlocks sk (slice pk 0 I.ctSize)) :
    ∃ l, Loops.signLookups X I sk pk msg = .ok l ∧ l.length = 2 * (I.aes.numSboxes * (1 + I.numRounds * I.numParties)) := by
  obtain ⟨r, hr, e⟩ := signLookups_ok hI X sk pk msg hsk hpk h0
  refine ⟨_, e, ?_⟩
  rw [List.length_append, hr, length_flatMap_range _ _ (2 * I.m2) fun j _ => by rw [length_flatMap_range _ _ 2 fun _ _ => rfl, Nat.mul_comm], Nat.mul_left_comm, hI.sboxes]
  ring

/-- C70: the lookups are not independent of the key. -/
theorem C70_violated : ¬ ∀ (X : Xof) (I : Instance) (sk sk' pk msg : Bytes), Consistent I → sk.length = I.aes.keySize → sk'.length = I.aes.keySize → 2 * I.ctSize ≤ pk.length →
    0 ∉ sboxInputs (I.aes.keySize / 4) I.aes.numBlocks sk (slice pk 0 I.ctSize) → 0 ∉ sboxInputs (I.aes.keySize / 4) I.aes.numBlocks sk' (slice pk 0 I.ctSize) →
    Loops.signLookups X I sk pk msg = Loops.signLookups X I sk' pk msg := by
  intro h
  have h6 : aesPlain 16 (List.replicate 16 6) ([1, 1, 1, 1] ++ List.replicate 12 0) ≠ none := by decide +kernel
  have u6 : 0 ∉ sboxInputs 4 1 (List.replicate 16 6) ([1, 1, 1, 1] ++ List.replicate 12 0) := by
    intro h0
    exact h6 ((aesPlain_fips 16 (.inl rfl) _ _).trans (if_pos h0))
  have e := h onesXof smallInstance katKey (List.replicate 16 6) katPk [1, 2, 3] small_consistent (by decide) (by decide) (by decide) kat_nonzero u6
  exact C70_distinct onesXof smallInstance small_consistent katKey (List.replicate 16 6) katPk [1, 2, 3] (by decide) (by decide) (by decide) kat_nonzero u6 (by decide) e

/-! Concrete cases: the key pair of the known answer test; the repository's instances are covered by `Consistent`. -/

example : ∃ l, Loops.signLookups onesXof smallInstance katKey katPk [1, 2, 3] = .ok l ∧ keyOf 4 ([1, 1, 1, 1] ++ List.replicate 12 0) (observed 10 20 l) = katKey :=
  C70_key onesXof smallInstance small_consistent katKey katPk [1, 2, 3] (by decide) (by decide) kat_nonzero

example : ∃ l, Loops.signLookups onesXof smallInstance katKey katPk [1, 2, 3] = .ok l ∧ observed 10 20 (l.map fun b : Byte => b >>> 3) 41 = 0x1f := by
  obtain ⟨l, e, h⟩ := C70_lines onesXof smallInstance small_consistent katKey katPk [1, 2, 3] (by decide) (by decide) kat_nonzero
  refine ⟨l, e, ?_⟩
  have h4 : (0x1f : Byte) = observed 10 20 (l.map fun b : Byte => b >>> 3) (scheduled 4 + 4 * (4 % 4) + 4 / 4) ^^^ (0 : Byte) := h 4 (by decide)
  rw [show scheduled 4 = 40 by decide +kernel, xor_zero'] at h4
  exact h4.symm

example : ∃ l, Loops.signLookups onesXof smallInstance katKey katPk [1, 2, 3] = .ok l ∧ l.length = 1200 :=
  C70_partial onesXof smallInstance small_consistent katKey katPk [1, 2, 3] (by decide) (by decide) kat_nonzero

end Banquet.Props
