import Verif.Model.Careful
import Verif.Props.Sign

/-! The checks of the careful caller. -/

namespace Banquet.Props

open Spec FieldOk

theorem careful_size (I : Instance) (hI : Consistent I) : Careful.signatureSize I = sigLength I := by
  unfold Careful.signatureSize sigLength proofLength
  rw [ceilLog2_eq _ (parties_bounds hI).2.2.2]
  ring

/-- The check before signing succeeds for the key pairs, and for nothing else. -/
theorem careful_pair (I : Instance) (hI : Consistent I) (sk pk : Bytes) :
    (sk.length = I.aes.keySize ∧ pk.length = 2 * I.ctSize ∧ aesPlain I.aes.keySize sk (pk.take I.ctSize) = some (pk.drop I.ctSize)) ↔ KeyPair I sk pk := by
  have hb : nBlocks I.aes.keySize = I.aes.numBlocks := by
    rcases hI.aes with h | h | h <;> simp only [Prod.mk.injEq] at h <;> rw [h.1, h.2.2.1] <;> rfl
  have hk : I.aes.keySize = 16 ∨ I.aes.keySize = 24 ∨ I.aes.keySize = 32 := by
    rcases hI.aes with h | h | h <;> simp only [Prod.mk.injEq] at h <;> simp [h.1]
  rw [aesPlain_fips _ hk, hb]
  constructor
  · rintro ⟨h1, h2, h3⟩
    split at h3
    · exact absurd h3 (by simp)
    · rename_i h0
      refine ⟨h1, pk.take I.ctSize, ?_, ?_, h0⟩
      · rw [Option.some.inj h3, List.take_append_drop]
      · rw [List.length_take, h2]
        unfold Instance.ctSize
        omega
  · intro h
    obtain ⟨_, k2, _, _⟩ := KeyPair.facts hI h
    obtain ⟨h1, pt, rfl, h3, h4⟩ := h
    have e : pt.length = I.ctSize := h3
    exact ⟨h1, k2, by rw [List.take_left' e, List.drop_left' e, if_neg h4]⟩

end Banquet.Props
