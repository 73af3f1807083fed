import Verif.Proofs.KeccakX4Bytes

/-! Property theorems C90: the byte-wise functions of the 4-way AVX2 Keccak code that the library does not call. State `l` consists of the words `l` of the 25 vectors. -/

namespace Banquet.Props

open Spec X4

private theorem bytes_view (s : Regs) (l : Fin 4) : view s l = ofLanes (s.map fun v => v l) := by
  rw [view]
  refine congrArg _ (Vector.ext fun i hi => ?_)
  rw [inst_get, Vector.getElem_map]

/-- **C90.** `OverwriteBytes` replaces exactly the given bytes of the given state, and leaves the other three states, if the bytes lie in the state; otherwise it writes behind the states. -/
theorem C90_overwrite (s : Regs) (l : Fin 4) (data : Bytes) (offset : Nat) :
    (offset + data.length ≤ 200 → ∃ s', X4.overwriteBytes s l data offset = .ok s' ∧
      ∀ k : Fin 4, ofLanes (s'.map fun v => v k) = if k = l then replaceBytes (ofLanes (s.map fun v => v l)) data offset else ofLanes (s.map fun v => v k)) ∧
    (200 < offset + data.length → data ≠ [] → X4.overwriteBytes s l data offset = .error .ub) := by
  simp only [← bytes_view]
  exact ⟨X4.overwriteBytes_eq s l data offset, fun h h0 => X4.overwriteBytes_ub s l data offset h (List.length_pos_iff.2 h0)⟩

/-- Eleven bytes from the end of lane 0 to the beginning of lane 2 of state 1: an incomplete lane, a whole one and an incomplete one. -/
example : ((do
    let s ← X4.overwriteBytes (Vector.replicate 25 fun l => BitVec.ofNat 64 l.val) 1 [1, 2, 3, 4, 5, 6, 7, 8, 9, 10, 11] 6
    let a ← X4.extractBytes s 1 5 13
    let b ← X4.extractBytes s 2 5 13
    .ok (a, b) : M (Bytes × Bytes))).toOption = some ([0, 1, 2, 3, 4, 5, 6, 7, 8, 9, 10, 11, 0], [0, 0, 0, 2, 0, 0, 0, 0, 0, 0, 0, 2, 0]) := by decide +kernel

/-- **C90.** `OverwriteWithZeroes` sets the first bytes of the given state to zero. -/
theorem C90_zeroes (s : Regs) (l : Fin 4) (n : Nat) :
    (n ≤ 200 → ∃ s', X4.overwriteWithZeroes s l n = .ok s' ∧
      ∀ k : Fin 4, ofLanes (s'.map fun v => v k) = if k = l then replaceBytes (ofLanes (s.map fun v => v l)) (List.replicate n 0) 0 else ofLanes (s.map fun v => v k)) ∧
    (200 < n → X4.overwriteWithZeroes s l n = .error .ub) := by
  simp only [← bytes_view]
  exact ⟨X4.overwriteWithZeroes_eq s l n, fun h => X4.zeroLoop_ub l n s 0 n (by omega) (by omega) le_rfl⟩

example : ((do
    let s ← X4.overwriteWithZeroes (Vector.replicate 25 fun _ => 0x0807060504030201) 3 10
    let a ← X4.extractBytes s 3 7 5
    let b ← X4.extractBytes s 2 7 5
    .ok (a, b) : M (Bytes × Bytes))).toOption = some ([0, 0, 0, 3, 4], [8, 1, 2, 3, 4]) := by decide +kernel

/-- **C90.** `ExtractAndAddBytes` returns the input XOR the bytes of the given state, for all bytes up to the last; beyond it, it reads behind the states. -/
theorem C90_extractAdd (s : Regs) (l : Fin 4) (input : Bytes) (offset : Nat) :
    (offset + input.length ≤ 200 → X4.extractAndAddBytes s l input offset = .ok (List.zipWith (· ^^^ ·) input (Spec.extractBytes (ofLanes (s.map fun v => v l)) offset input.length))) ∧
    (200 < offset + input.length → input ≠ [] → X4.extractAndAddBytes s l input offset = .error .ub) := by
  simp only [← bytes_view]
  exact ⟨X4.extractAndAddBytes_eq s l input offset, fun h h0 => X4.extractAndAddBytes_ub s l input offset h (List.length_pos_iff.2 h0)⟩

example : (X4.extractAndAddBytes (Vector.replicate 25 fun l => if l = 2 then 0x0807060504030201 else 0) 2 [16, 16, 16, 16, 16, 16, 16, 16, 16, 16, 32] 7).toOption =
    some [24, 17, 18, 19, 20, 21, 22, 23, 24, 17, 34] := by decide +kernel

/-- The last eight bytes of the state, and one too many. -/
example (s : Regs) : (∃ out, X4.extractAndAddBytes s 0 (List.replicate 8 0) 192 = .ok out) ∧ X4.extractAndAddBytes s 0 (List.replicate 9 0) 192 = .error .ub :=
  ⟨⟨_, (C90_extractAdd s 0 _ 192).1 (by decide)⟩, (C90_extractAdd s 0 _ 192).2 (by decide) (by decide)⟩

end Banquet.Props
