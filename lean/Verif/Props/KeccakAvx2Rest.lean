import Verif.Proofs.KeccakAvx2Rest

/-! Property theorems C92: the functions of the AVX2 assembler code that the library does not call. `Avx2.view m` are the 200 bytes of the state as `ExtractBytes` reads them, see `C92_view`. -/

namespace Banquet.Props

open Spec

/-- The 200 bytes that the theorems below speak of are those that `KeccakP1600_ExtractBytes(state, data, 0, 200)` returns. -/
theorem C92_view (m : Avx2.Mem) : Avx2.extractBytes m 0 200 = .ok (Avx2.view m).toList := by
  rw [Avx2.extractBytes_eq m 0 200 (by omega)]
  refine congrArg Except.ok (List.ext_getElem (by simp [Spec.extractBytes]) fun i h1 h2 => ?_)
  simp [Spec.extractBytes] at h1
  simp [Spec.extractBytes, Vector.getD, h1]

/-- **C92.** `OverwriteBytes` replaces exactly the given bytes if they lie in the state; otherwise it reads behind the table of the lanes to find where to write. -/
theorem C92_overwrite (m : Avx2.Mem) (data : Bytes) (offset : Nat) :
    (offset + data.length ≤ 200 → ∃ m', Avx2.overwriteBytes m data offset = .ok m' ∧ Avx2.view m' = replaceBytes (Avx2.view m) data offset) ∧
    (200 < offset + data.length → data ≠ [] → Avx2.overwriteBytes m data offset = .error .ub) :=
  ⟨Avx2.overwriteBytes_eq m data offset, fun h h0 => Avx2.overwriteBytes_ub m data offset h (List.length_pos_iff.2 h0)⟩

/-- Eleven bytes from the end of lane 4 to the beginning of lane 6 (which are not next to each other in memory): an incomplete lane, a whole one and an incomplete one. -/
example : ((do
    let m ← Avx2.overwriteBytes (Vector.replicate 25 0x0908070605040302) [101, 102, 103, 104, 105, 106, 107, 108, 109, 110, 111] 38
    Avx2.extractBytes m 37 13 : M Bytes)).toOption = some [7, 101, 102, 103, 104, 105, 106, 107, 108, 109, 110, 111, 3] := by decide +kernel

/-- The last eight bytes of the state, and one too many. -/
example (m : Avx2.Mem) : (∃ m', Avx2.overwriteBytes m (List.replicate 8 1) 192 = .ok m') ∧ Avx2.overwriteBytes m (List.replicate 9 1) 192 = .error .ub :=
  ⟨((C92_overwrite m _ 192).1 (by decide)).imp fun _ h => h.1, (C92_overwrite m _ 192).2 (by decide) (by decide)⟩

/-- **C92.** `OverwriteWithZeroes` sets the first bytes to zero. -/
theorem C92_zeroes (m : Avx2.Mem) (n : Nat) :
    (n ≤ 200 → ∃ m', Avx2.overwriteWithZeroes m n = .ok m' ∧ Avx2.view m' = replaceBytes (Avx2.view m) (List.replicate n 0) 0) ∧ (200 < n → Avx2.overwriteWithZeroes m n = .error .ub) := by
  rw [Avx2.zeroes_eq]
  exact ⟨fun h => Avx2.overwriteBytes_eq m _ 0 (by rw [List.length_replicate]; omega),
    fun h => Avx2.overwriteBytes_ub m _ 0 (by rw [List.length_replicate]; omega) (by rw [List.length_replicate]; omega)⟩

example : ((do
    let m ← Avx2.overwriteWithZeroes (Vector.replicate 25 0x0908070605040302) 43
    Avx2.extractBytes m 30 16 : M Bytes)).toOption = some [0, 0, 0, 0, 0, 0, 0, 0, 0, 0, 0, 0, 0, 5, 6, 7] := by decide +kernel

/-- **C92.** `ExtractAndAddBytes` returns the input XOR the bytes of the state, for all bytes up to the last. -/
theorem C92_extractAdd (m : Avx2.Mem) (input : Bytes) (offset : Nat) :
    (offset + input.length ≤ 200 → Avx2.extractAndAddBytes m input offset = .ok (List.zipWith (· ^^^ ·) input (Spec.extractBytes (Avx2.view m) offset input.length))) ∧
    (200 < offset + input.length → input ≠ [] → Avx2.extractAndAddBytes m input offset = .error .ub) :=
  ⟨Avx2.extractAndAddBytes_eq m input offset, fun h h0 => Avx2.extractAndAddBytes_ub m input offset h (List.length_pos_iff.2 h0)⟩

example : ((do
    let m ← Avx2.addBytes Avx2.init [1, 2, 3, 4, 5, 6, 7, 8, 9, 10, 11] 38
    Avx2.extractAndAddBytes m (List.replicate 13 16) 37 : M Bytes)).toOption = some [16, 17, 18, 19, 20, 21, 22, 23, 24, 25, 26, 27, 16] := by decide +kernel

/-- **C92.** `Permute_12rounds` is Keccak-p[1600, 12] of FIPS 202. -/
theorem C92_twelve (m : Avx2.Mem) : ∃ m', Avx2.permute12 m = .ok m' ∧ Avx2.view m' = ofLanes (keccakRounds 12 (toLanes (Avx2.view m))) := Avx2.view_permute12 m

/-- Twelve rounds are not all: on the zero state the portable code, which computes the same (`C92_portable`), gives different states. -/
example : Opt64.permute12 (Vector.replicate 25 0) ≠ Opt64.permute (Vector.replicate 25 0) := by decide +kernel

/-- **C92, partial.** `Permute_Nrounds` is Keccak-p[1600, nr] for `0 < nr ≤ 24`. The full statement is that for `nr ≤ 24`, which C83 shows for the portable code; it fails for `nr = 0`:
see `C92_rounds_violated`. -/
theorem C92_rounds_partial (m : Avx2.Mem) (nr : BitVec 32) (h0 : 0 < nr.toNat) (h : nr.toNat ≤ 24) :
    ∃ m', Avx2.permuteN m nr = .ok m' ∧ Avx2.view m' = ofLanes (keccakRounds nr.toNat (toLanes (Avx2.view m))) := by
  obtain ⟨m', e, g⟩ := Avx2.permuteN_eq m nr h0 h
  refine ⟨m', e, ?_⟩
  rw [Avx2.view, g, Avx2.view, Opt64.toLanes_ofLanes]

/-- **C92, negation.** Without rounds the portable code returns the state, as Keccak-p[1600, 0] does, but the assembler code, which tests its counter behind the first round, runs 2^32 rounds and reads the
constants behind their table. -/
theorem C92_rounds_violated : ¬ ∀ (m : Avx2.Mem) (nr : BitVec 32), nr.toNat ≤ 24 → ∃ m', Avx2.permuteN m nr = .ok m' ∧ Avx2.view m' = ofLanes (keccakRounds nr.toNat (toLanes (Avx2.view m))) := by
  intro h
  obtain ⟨m', e, _⟩ := h Avx2.init 0 (by decide)
  rw [Avx2.permuteN_ub Avx2.init 0 (.inl rfl)] at e
  cases e

/-- **C92.** For more than 24 rounds it reads before the table of the constants. -/
theorem C92_more (m : Avx2.Mem) (nr : BitVec 32) (h : 24 < nr.toNat) : Avx2.permuteN m nr = .error .ub := Avx2.permuteN_ub m nr (.inr h)

example : 0 < (24 : BitVec 32).toNat ∧ (24 : BitVec 32).toNat ≤ 24 ∧ 24 < (25 : BitVec 32).toNat := by decide

/-- One round of the zero state changes the first lane only, to the last round constant. -/
example : (Avx2.permuteN Avx2.init 1).toOption = some (Avx2.init.set 0 0x8000000080008008) := by decide +kernel

/-- **C92.** The fast loop with 12 rounds absorbs all whole blocks, for 21, 17 and any other number of lanes per block. -/
theorem C92_absorb (m : Avx2.Mem) (n : Nat) (data : Bytes) (h0 : 0 < n) (h : n ≤ 25) : ∃ m', Avx2.fastLoopAbsorb12 m n data = .ok (m', data.length / (8 * n) * (8 * n)) ∧
    Avx2.view m' = absorbFull (fun s => ofLanes (keccakRounds 12 (toLanes s))) (8 * n) (data.length / (8 * n)) (Avx2.view m) data := Avx2.fastLoopAbsorb12_eq m n data h0 h

/-- Two blocks of 21 lanes and a rest of 7 bytes. -/
example : ∃ m', Avx2.fastLoopAbsorb12 Avx2.init 21 (List.replicate 343 5) = .ok (m', 336) := by
  obtain ⟨m', e, _⟩ := C92_absorb Avx2.init 21 (List.replicate 343 5) (by decide) (by decide)
  rw [List.length_replicate] at e
  exact ⟨m', e⟩

/-- **C92.** The portable code and the assembler code return the same bytes: they agree on twelve rounds for every state. -/
theorem C92_portable (m : Avx2.Mem) (A : Spec.Lanes) (h : Avx2.view m = ofLanes A) : ∃ m', Avx2.permute12 m = .ok m' ∧ Avx2.view m' = ofLanes (Opt64.permute12 A) := by
  obtain ⟨m', e, g⟩ := C92_twelve m
  refine ⟨m', e, ?_⟩
  rw [g, h, Opt64.toLanes_ofLanes]
  exact congrArg _ (Opt64.rounds12_eq A).symm

example : Avx2.view Avx2.init = ofLanes Opt64.init := by decide +kernel

end Banquet.Props
