import Verif.Proofs.Shared
import Verif.Props.Aes

/-! C55: the AES evaluation of one party. -/

namespace Banquet.Props

open Spec Spec.Aes

/-- C55: S-box inputs and ciphertext share of one party, for any shares of key and S-box outputs, are those of FIPS 197 with the S-box outputs replaced by the affine map of the shares; only the first party adds the
plaintext and the constants. -/
theorem C55_party (nk blocks n : Nat) (hv : Variant nk blocks n) (first : Bool) (key t pt : Bytes) : aesParty (4 * nk) first key t pt = Shared.evaluate first t nk blocks key pt := by
  obtain ⟨h, e1, e2, _⟩ := hv.spec
  rw [aesParty_sh _ h, e1, e2]

/-- C55: a single party with the right S-box outputs computes AES. -/
theorem C55_encrypt (nk blocks n : Nat) (hv : Variant nk blocks n) (key pt : Bytes) (h0 : 0 ∉ sboxInputs nk blocks key pt) :
    ∃ s t : Bytes, s.length = n ∧ t.length = n ∧ (∀ i < n, mul (s.getD i 0) (t.getD i 0) = 1) ∧ s.Perm (sboxInputs nk blocks key pt) ∧
      Shared.evaluate true t nk blocks key pt = (s, encrypt nk blocks key pt) := by
  obtain ⟨s, t, _, h1, h2, h3, h4, h5⟩ := C33_pairs nk blocks n hv key pt h0
  exact ⟨s, t, h1, h2, h3, h4, by rw [← C55_party nk blocks n hv, h5]⟩

/-- C55: no other S-box outputs fit. -/
theorem C55_conv (nk blocks n : Nat) (hv : Variant nk blocks n) (key t pt s ct : Bytes) (hr : Shared.evaluate true t nk blocks key pt = (s, ct)) (hc : ∀ i < n, mul (s.getD i 0) (t.getD i 0) = 1) :
    ct = encrypt nk blocks key pt ∧ 0 ∉ sboxInputs nk blocks key pt :=
  C49_relation nk blocks n hv key t pt s ct (by rw [C55_party nk blocks n hv, hr]) hc

/-- The ciphertext shares of a party that adds no constants, and of the first one. -/
example : (Shared.evaluate false (List.replicate 200 1) 4 1 (List.replicate 16 0) (List.replicate 16 7)).2 = [31, 31, 31, 31, 0, 0, 0, 0, 31, 31, 31, 31, 0, 0, 0, 0] ∧
    (Shared.evaluate true (List.replicate 200 0) 4 1 (List.replicate 16 3) (List.replicate 16 7)).2 = [178, 96, 96, 96, 159, 3, 3, 3, 125, 99, 99, 99, 20, 0, 0, 0] := by
  decide +kernel

end Banquet.Props
