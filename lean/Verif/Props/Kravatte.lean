import Verif.Proofs.KravatteExpand

/-! # Kravatte in the 4-way AVX2 Keccak code (never called by the library) -/

namespace Banquet.Props

open Spec X4

/-- **C87.** `KravatteCompress` works on groups of four blocks of 25 words, four states in parallel. The result is that of the compression layer one block after the other: block `j` is XORed with the key rolled `j` times,
goes through six rounds and is added to the accumulator. The key is left rolled once for each block, so that a second call continues where the first one stopped. The return value is the number of bytes consumed. -/
theorem C87_compress (fuel : Nat) (xAccu kRoll input : List W64) (hx : xAccu.length = 25) (hk : kRoll.length = 25) (hi : 100 ≤ input.length) (hl : 8 * input.length < 2 ^ 64) (hf : input.length / 100 ≤ fuel) :
    ∃ x' k', kravatteCompress fuel xAccu kRoll input = .ok (x', k', 800 * (input.length / 100)) ∧ x'.length = 25 ∧ k'.length = 25 ∧
      lanesAt x' 0 = Spec.compress (fun j => lanesAt input (25 * j)) (lanesAt kRoll 0) (lanesAt xAccu 0) (4 * (input.length / 100)) ∧ lanesAt k' 0 = rollC^[4 * (input.length / 100)] (lanesAt kRoll 0) :=
  kravatteCompress_eq fuel xAccu kRoll input hx hk hi hl hf

/-- Nine blocks: two groups of four; the last block is left to the caller. -/
example (k x : Fin 25 → W64) (m : Fin 225 → W64) : ∃ x' k', kravatteCompress 2 (List.ofFn x) (List.ofFn k) (List.ofFn m) = .ok (x', k', 1600) ∧
    lanesAt x' 0 = Spec.compress (fun j => lanesAt (List.ofFn m) (25 * j)) (lanesAt (List.ofFn k) 0) (lanesAt (List.ofFn x) 0) 8 := by
  obtain ⟨x', k', e, _, _, h, _⟩ := C87_compress 2 (List.ofFn x) (List.ofFn k) (List.ofFn m) List.length_ofFn List.length_ofFn (by rw [List.length_ofFn]; omega) (by rw [List.length_ofFn]; omega) (by rw [List.length_ofFn])
  simp only [List.length_ofFn] at e h
  exact ⟨x', k', e, h⟩

/-- **C87.** `KravatteExpand`: block `m` of the output is the accumulator rolled `m` times, after six rounds, XOR the key. The accumulator is left rolled once for each block, and the words behind the last whole group of four
blocks are not touched. -/
theorem C87_expand (fuel : Nat) (yAccu kRoll out : List W64) (hy : yAccu.length = 25) (hk : kRoll.length = 25) (ho : 100 ≤ out.length) (hl : 8 * out.length < 2 ^ 64) (hf : out.length / 100 ≤ fuel) :
    ∃ y' o', kravatteExpand fuel yAccu kRoll out = .ok (y', o', 800 * (out.length / 100)) ∧ y'.length = 25 ∧ o'.length = out.length ∧ lanesAt y' 0 = rollE^[4 * (out.length / 100)] (lanesAt yAccu 0) ∧
      (∀ m, m < 4 * (out.length / 100) → lanesAt o' (25 * m) = expand (lanesAt yAccu 0) (lanesAt kRoll 0) m) ∧ ∀ t, 100 * (out.length / 100) ≤ t → o'.getD t 0 = out.getD t 0 :=
  kravatteExpand_eq fuel yAccu kRoll out hy hk ho hl hf

/-- Nine blocks of room: blocks 0 to 7 are written, block 8 keeps its words. -/
example (k y : Fin 25 → W64) (m : Fin 225 → W64) : ∃ y' o', kravatteExpand 2 (List.ofFn y) (List.ofFn k) (List.ofFn m) = .ok (y', o', 1600) ∧
    lanesAt o' 175 = expand (lanesAt (List.ofFn y) 0) (lanesAt (List.ofFn k) 0) 7 ∧ lanesAt o' 200 = lanesAt (List.ofFn m) 200 := by
  obtain ⟨y', o', e, _, _, _, h, h'⟩ := C87_expand 2 (List.ofFn y) (List.ofFn k) (List.ofFn m) List.length_ofFn List.length_ofFn (by rw [List.length_ofFn]; omega) (by rw [List.length_ofFn]; omega) (by rw [List.length_ofFn])
  simp only [List.length_ofFn] at e h h'
  refine ⟨y', o', e, h 7 (by omega), Vector.ext fun i hi => ?_⟩
  rw [lanesAt_get _ _ _ hi, lanesAt_get _ _ _ hi, h' _ (by omega)]

/-- **C87.** With less than four blocks both functions leave the buffers: `do … while (--nBlocks != 0)` runs once even if there is no whole group. -/
theorem C87_short (fuel : Nat) (accu kRoll buf : List W64) (ha : accu.length = 25) (hk : kRoll.length = 25) (hb : buf.length < 100) (hf : 0 < fuel) :
    kravatteCompress fuel accu kRoll buf = .error .ub ∧ kravatteExpand fuel accu kRoll buf = .error .ub :=
  ⟨kravatteCompress_short fuel accu kRoll buf hk hb hf, kravatteExpand_short fuel accu kRoll buf ha hk hb hf⟩

/-- Three whole blocks. -/
example (k x : Fin 25 → W64) (m : Fin 75 → W64) : kravatteCompress 1 (List.ofFn x) (List.ofFn k) (List.ofFn m) = .error .ub := (C87_short 1 _ _ _ (by simp) (by simp) (by simp) (by simp)).1

/-- The last plane after one roll, for a key with lane `i` equal to `i`: `21, 22, 23, 24, (20 <<< 7) ⊕ 21 ⊕ (21 >> 3)`. -/
example : let k : Spec.Lanes := Vector.ofFn fun i => BitVec.ofNat 64 i.val; (rollC k)[20] = 21 ∧ (rollC k)[24] = 2583 ∧ (rollE k)[15] = 16 ∧ (rollE k)[24] = 4196224 := by decide

end Banquet.Props
