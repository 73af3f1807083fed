import Verif.Model.Aes
import Verif.Model.Field
import Verif.Model.Sponge
import Verif.Model.Keccak64
import Verif.Spec.Aes
import Mathlib.Tactic.NormNum

/-! Known answers, evaluated by the kernel on the models: the tests of the repository that state expected values, and vectors of FIPS 197 and FIPS 202. They are evidence that the models are the right ones, and are not properties. -/

namespace Banquet.Vectors

def bytesOf (l : List Nat) : Bytes := l.map (BitVec.ofNat 8)

/-- One block of the plaintexts in tests/aes_test.cpp. -/
def block (b : Nat) : List Nat := List.replicate 4 b ++ List.replicate 12 0

/-! ## tests/aes_test.cpp -/

/-- `AES-128 KAT`. -/
theorem aes128 : aesPlain 16 (bytesOf (List.replicate 16 0xff)) (bytesOf (block 1)) = some (bytesOf [0x0b, 0x5a, 0x81, 0x4d, 0x95, 0x60, 0x1c, 0xc7, 0xef, 0xe7, 0x12, 0x28, 0x3e, 0x05, 0xef, 0x8f]) := by decide +kernel

/-- `AES-128 normal is equal to sbox-saving`: the same ciphertext, and 200 pairs are saved. -/
theorem aes128_save :
    let r := aesSave 16 (bytesOf (List.replicate 16 0xff)) (bytesOf (block 1))
    r.1 = some (bytesOf [0x0b, 0x5a, 0x81, 0x4d, 0x95, 0x60, 0x1c, 0xc7, 0xef, 0xe7, 0x12, 0x28, 0x3e, 0x05, 0xef, 0x8f]) ∧ r.2.1.length = 200 ∧ r.2.2.length = 200 := by decide +kernel

/-- `AES-192 KAT`. -/
theorem aes192 : aesPlain 24 (bytesOf (List.replicate 24 0xff)) (bytesOf (block 2 ++ block 2)) = some (bytesOf [0x15, 0xc5, 0x99, 0x50, 0xf7, 0x9f, 0x74, 0x21, 0x4b, 0xc8, 0xfc, 0x50, 0x7c, 0x5f, 0x9b, 0xa6, 0x15, 0xc5, 0x99, 0x50, 0xf7, 0x9f, 0x74, 0x21, 0x4b, 0xc8, 0xfc, 0x50, 0x7c, 0x5f, 0x9b, 0xa6]) := by decide +kernel

/-- `AES-256 KAT`. -/
theorem aes256 : aesPlain 32 (bytesOf (List.replicate 32 0xff)) (bytesOf (block 1 ++ block 1)) = some (bytesOf [0x0b, 0x5c, 0xe5, 0x2a, 0x5c, 0xfc, 0x30, 0x02, 0x19, 0x22, 0x26, 0x92, 0x07, 0xb7, 0xd9, 0x66, 0x0b, 0x5c, 0xe5, 0x2a, 0x5c, 0xfc, 0x30, 0x02, 0x19, 0x22, 0x26, 0x92, 0x07, 0xb7, 0xd9, 0x66]) := by decide +kernel

/-! ## FIPS 197, appendix C, on the specification -/

theorem fips197_128 : Spec.Aes.encrypt 4 1 (bytesOf (List.range 16)) (bytesOf ((List.range 16).map (17 * ·))) = bytesOf [0x69, 0xc4, 0xe0, 0xd8, 0x6a, 0x7b, 0x04, 0x30, 0xd8, 0xcd, 0xb7, 0x80, 0x70, 0xb4, 0xc5, 0x5a] := by decide +kernel

/-! ## tests/field_test.cpp and tests/util_test.cpp -/

/-- `Basic Arithmetic in all fields`, with the field set up for `lambda`. -/
theorem field_basic : ∀ l ∈ [4, 5, 6], (initExtensionField l).map (fun F =>
    [gfAdd 1 0, gfAdd 0 1, gfAdd 0 0, gfAdd 1 1, F.mul 1 1, F.mul 0 1, F.mul 1 0, F.mul 0 0, F.mul 2 1, F.mul 2 2]) = .ok [1, 1, 0, 0, 1, 0, 0, 0, 2, 4] := by decide +kernel

/-- The operands of `Modular Arithmetic GF(2^32)`, given there by their coefficients and as numbers. -/
theorem field_coeffs : ofCoeffs [31, 29, 28, 24, 23, 21, 19, 15, 14, 9, 8, 0] = 2980627201 ∧ ofCoeffs [29, 27, 26, 25, 20, 17, 14, 11, 10, 5, 3, 2] = 772951084 := by decide +kernel

/-- `Modular Arithmetic GF(2^32)`. -/
theorem field32 : (initExtensionField 4).map (fun F => [F.mul 2980627201 772951084, F.mul 2980627201 2980627201, F.mul 772951084 772951084]) = .ok [3895706975, 2846443116, 234130046] := by decide +kernel

/-- `Modular Arithmetic GF(2^40)`. -/
theorem field40 : (initExtensionField 5).map (fun F => [F.mul 683080732428 437065243549, F.mul 683080732428 683080732428, F.mul 437065243549 437065243549]) = .ok [916833885315, 224904587486, 153370336291] := by decide +kernel

/-- `Modular Arithmetic GF(2^48)`. -/
theorem field48 : (initExtensionField 6).map (fun F => [F.mul 94834555057164 119504161027501, F.mul 94834555057164 94834555057164, F.mul 119504161027501 119504161027501]) = .ok [130190305526807, 187414204277907, 119412372920018] := by decide +kernel

/-- `Basic Lifting tests`: the images of 3 and 246 and their product. -/
theorem lifting : (initExtensionField 4).map (fun F => [F.lift 3, F.lift 246, F.mul (F.lift 3) (F.lift 246)]) =
    .ok [ofCoeffs [30, 23, 21, 18, 14, 13, 11, 9, 7, 6, 5, 4, 3, 1, 0], ofCoeffs [30, 29, 27, 26, 25, 19, 18, 17, 14, 13, 12, 10, 8, 7, 4, 2, 1], 1] := by decide +kernel

/-- `NTL inverse == custom`, the last line of each round, at one value per field. -/
theorem field_inverse : ∀ l ∈ [4, 5, 6], (initExtensionField l).map (fun F => F.mul 772951084 (F.inverse 772951084)) = .ok 1 := by decide +kernel

/-! ## SHAKE of the empty message and of 200 bytes 0xa3, as published with FIPS 202, on the sponge over the portable Keccak code (the other Keccak codes and the 192 and 256 bit ciphers are proved equal to the same specifications) -/

/-- Hash a message in one piece. -/
def shakeOf (S : SnP) (k : ShakeKind) (msg : Bytes) (n : Nat) : M Bytes := do
  pure (← hashSqueeze S (← hashFinal S (← hashUpdate S (hashInit S k) msg)) n).2

theorem shake128_opt64 : shakeOf Opt64.snp .shake128 (bytesOf (List.replicate 200 0xa3)) 32 = .ok (bytesOf [0x13, 0x1a, 0xb8, 0xd2, 0xb5, 0x94, 0x94, 0x6b, 0x9c, 0x81, 0x33, 0x3f, 0x9b, 0xb6, 0xe0, 0xce, 0x75, 0xc3, 0xb9, 0x31, 0x04, 0xfa, 0x34, 0x69, 0xd3, 0x91, 0x74, 0x57, 0x38, 0x5d, 0xa0, 0x37]) := by decide +kernel

theorem shake256_opt64 : shakeOf Opt64.snp .shake256 [] 32 = .ok (bytesOf [0x46, 0xb9, 0xdd, 0x2b, 0x0b, 0xa8, 0x8d, 0x13, 0x23, 0x3b, 0x3f, 0xeb, 0x74, 0x3e, 0xeb, 0x24, 0x3f, 0xcd, 0x52, 0xea, 0x62, 0xb8, 0x1b, 0x82, 0xb5, 0x0c, 0x27, 0x64, 0x6e, 0xd5, 0x76, 0x2f]) := by decide +kernel

end Banquet.Vectors
