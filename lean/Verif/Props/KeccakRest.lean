import Verif.Proofs.KeccakRest

/-! Property theorems C83: the functions of the portable Keccak code that the library does not call. -/

namespace Banquet.Props

open Spec

/-! ### C83 -/

/-- C83: `KeccakP1600_Permute_Nrounds` is Keccak-p[1600, nr] of FIPS 202 for `nr ≤ 24`. -/
theorem C83_rounds (A : Spec.Lanes) (nr : BitVec 32) (h : nr.toNat ≤ 24) : Opt64.permuteN A nr = .ok (keccakRounds nr.toNat A) := Opt64.permuteN_eq A nr h

/-- C83: for `nr > 24` it silently returns the state unchanged if `nr` is even, and reads behind the round constants if `nr` is odd. -/
theorem C83_more (A : Spec.Lanes) (nr : BitVec 32) (h : 24 < nr.toNat) : Opt64.permuteN A nr = if nr.toNat % 2 = 0 then .ok A else .error .ub := Opt64.permuteN_large A nr h

example : (24 : BitVec 32).toNat ≤ 24 ∧ (7 : BitVec 32).toNat ≤ 24 ∧ 24 < (26 : BitVec 32).toNat ∧ 24 < (25 : BitVec 32).toNat := by decide

/-- C83: 24 rounds are all rounds, so that `Permute_Nrounds(state, 24)` and `Permute_24rounds` agree. -/
theorem C83_all (A : Spec.Lanes) : Opt64.permuteN A 24 = .ok (Opt64.permute A) := by
  rw [C83_rounds A 24 (by decide)]
  exact congrArg Except.ok (Opt64.rounds24_eq A).symm

/-- C83: `KeccakP1600_Permute_12rounds` is Keccak-p[1600, 12]. -/
theorem C83_twelve (A : Spec.Lanes) : Opt64.permute12 A = keccakRounds 12 A := Opt64.rounds12_eq A

/-- Twelve rounds of the zero state are neither none nor all. -/
example : Opt64.permute12 (Vector.replicate 25 0) ≠ Vector.replicate 25 0 ∧ Opt64.permute12 (Vector.replicate 25 0) ≠ Opt64.permute (Vector.replicate 25 0) := by decide +kernel

/-- C83: the fast loop with 12 rounds absorbs all whole blocks. -/
theorem C83_absorb (s : Spec.Lanes) (n : Nat) (data : Bytes) (h0 : 0 < n) (h : n ≤ 25) : ∃ s', Opt64.fastLoopAbsorb12 s n data = .ok (s', data.length / (8 * n) * (8 * n)) ∧
    ofLanes s' = absorbFull (fun s => ofLanes (keccakRounds 12 (toLanes s))) (8 * n) (data.length / (8 * n)) (ofLanes s) data := Opt64.fastLoopAbsorb12_eq s n data h0 h

/-- C83: `KeccakP1600_OverwriteBytes` replaces exactly the given bytes if they lie in the state, and leaves it otherwise. -/
theorem C83_overwrite (s : Spec.Lanes) (data : Bytes) (offset : Nat) :
    (offset + data.length ≤ 200 → ∃ s', Opt64.overwriteBytes s data offset = .ok s' ∧ ofLanes s' = replaceBytes (ofLanes s) data offset) ∧
    (200 < offset + data.length → data ≠ [] → Opt64.overwriteBytes s data offset = .error .ub) :=
  ⟨Opt64.overwriteBytes_write s data offset, fun h h0 => Opt64.overwriteBytes_ub s data offset h (List.length_pos_iff.2 h0)⟩

/-- C83: `KeccakP1600_OverwriteWithZeroes` sets the first bytes to zero. -/
theorem C83_zeroes (s : Spec.Lanes) (n : Nat) (h : n ≤ 200) : ∃ s', Opt64.overwriteWithZeroes s n = .ok s' ∧ ofLanes s' = replaceBytes (ofLanes s) (List.replicate n 0) 0 :=
  Opt64.writeBytes_eq s 0 _ (by rw [List.length_replicate]; omega)

/-- Bytes 7 to 9, across a lane boundary; what was there is replaced. -/
example : ((do Opt64.extractBytes (← Opt64.overwriteBytes (← Opt64.overwriteBytes Opt64.init [9, 8, 7, 6] 6) [1, 2, 3] 7) 5 6 : M Bytes)).toOption = some [0, 9, 1, 2, 3, 0] := by decide +kernel

/-- C83: `KeccakP1600_ExtractAndAddBytes` returns the input XOR the bytes of the state. As for `ExtractBytes`, the theorem ends before the last byte of the state: see the example. -/
theorem C83_extractAdd (s : Spec.Lanes) (input : Bytes) (offset : Nat) (h : offset + input.length < 200) :
    Opt64.extractAndAddBytes s input offset = .ok (List.zipWith (· ^^^ ·) input (Spec.extractBytes (ofLanes s) offset input.length)) := Opt64.andAdd_eq s input offset h

example : ((do Opt64.extractAndAddBytes (← Opt64.addBytes Opt64.init [1, 2, 3] 7) [16, 16, 16, 16] 6 : M Bytes)).toOption = some [16, 17, 18, 19] := by decide +kernel

/-- Reading all 200 bytes at once reads a lane behind the state. -/
example (s : Opt64.Lanes) : Opt64.extractAndAddBytes s (List.replicate 200 0) 0 = .error .ub := by
  rw [Opt64.extractAndAddBytes, if_pos rfl, List.length_replicate, show 200 / 8 = 25 from rfl, Opt64.andAdd_lanes s _ 0 25 (by decide) (by rw [List.length_replicate]), Opt64.okThen, Opt64.extractAndAddBytesInLane, dif_neg (by decide)]
  rfl

end Banquet.Props
