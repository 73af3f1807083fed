import Verif.Spec.KeccakTables
import Verif.Props.Sponge

/-! Property theorems C56: the portable Keccak code computes the functions of FIPS 202. -/

namespace Banquet.Props

open Spec

/-! ### C56 -/

/-- The round constants of the specification are those of algorithms 5 and 6 of FIPS 202. -/
theorem C56_roundConstants : Spec.roundConstants = (List.range 24).map roundConstant := by decide +kernel

/-- The rotation offsets of the specification are those of algorithm 2 of FIPS 202. -/
theorem C56_rhoOffsets : ∀ x < 5, ∀ y < 5, rhoOffsets.getD (x + 5 * y) 0 = rhoOffset x y := by decide +kernel

/-- C56. The 24 unrolled rounds of keccak/opt64 are Keccak-p[1600, 24]. -/
theorem C56_permutation (A : Opt64.Lanes) : Opt64.permute A = keccakLanes A := Opt64.rounds24_eq A

/-- C56. The same on the 200 bytes of the state, as the sponge uses it. -/
theorem C56_permutation_bytes (s : St) : ofLanes (Opt64.permute (toLanes s)) = keccakF s := congrArg ofLanes (C56_permutation _)

/-- Concrete case: the first lane of the permutation of the zero state, from the Keccak team's test vectors. -/
example : (Opt64.permute (Vector.replicate 25 0))[0] = 0xF1258F7940E1DDE7 := by decide +kernel

/-- C56. Reading, writing, permuting and absorbing in keccak/opt64 does what the 200 bytes of the state require, without access outside of the state. -/
theorem C56_state : Spec.Snp keccakF Opt64.snp ofLanes := Opt64.snp_ok

/-- Concrete case: bytes 7 to 9, across a lane boundary. -/
example : ((do Opt64.extractBytes (← Opt64.addBytes Opt64.init [1, 2, 3] 7) 6 5 : M Bytes)).toOption = some [0, 1, 2, 3, 0] := by decide +kernel

/-- C56. The same for the four states of the 4-way fallback. -/
theorem C56_state4 : Spec.PlSnp keccakF Opt64.plSnp Opt64.view4 := Opt64.plSnp_ok

/-- C56. Hashing with the portable code is SHAKE128 or SHAKE256 of FIPS 202, for pieces below 2^32 bytes minus the rate. -/
theorem C56_shake (k : ShakeKind) (chunks : List Bytes) (lens : List Nat) (hc : ∀ c ∈ chunks, c.length + shakeRate k ≤ 2 ^ 32) (hl : ∀ n ∈ lens, n + shakeRate k ≤ 2 ^ 32) :
    runHash Opt64.snp k chunks lens = .ok ((shakeFips k chunks.flatten).squeeze 0 lens.sum) :=
  C38_incremental_partial keccakF Opt64.snp ofLanes C56_state k chunks lens hc hl

/-- C56. The same for 4-way hashing. -/
theorem C56_shake4 (k : ShakeKind) (chunks : List ((Fin 4 → Bytes) × Nat)) (lens : List Nat) (hd : ∀ c ∈ chunks, ∀ l, (c.1 l).length = c.2) (hc : ∀ c ∈ chunks, c.2 + shakeRate k ≤ 2 ^ 32)
    (hl : ∀ n ∈ lens, n + shakeRate k ≤ 2 ^ 32) :
    runHash4 Opt64.plSnp k chunks lens = .ok fun l => (shakeFips k (chunks.map fun c => c.1 l).flatten).squeeze 0 lens.sum :=
  C39_spec_partial keccakF Opt64.plSnp Opt64.view4 C56_state4 k chunks lens hd hc hl

/-- The hypotheses hold for a message of three bytes cut in two and 48 bytes of output. -/
example : (∀ c ∈ [[0x61, 0x62], [(0x63 : Byte)]], c.length + shakeRate .shake256 ≤ 2 ^ 32) ∧ ∀ n ∈ [32, 16], n + shakeRate .shake256 ≤ 2 ^ 32 := by decide

/-- What happens at the border: reading all 200 bytes at once reads a lane behind the state (the sponge never does so). -/
example (s : Opt64.Lanes) : Opt64.extractBytes s 0 200 = .error .ub := rfl

end Banquet.Props
