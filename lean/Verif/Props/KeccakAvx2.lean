import Verif.Proofs.KeccakX4
import Verif.Proofs.KeccakAvx2State
import Verif.Props.Keccak

/-! Property theorems C57, C58, C59: the AVX2 code for Keccak, which a default build uses, computes the functions of FIPS 202; all builds hash alike. -/

namespace Banquet.Props

open Spec

/-! ### C57 -/

/-- C57. The 4-way permutation applies Keccak-p[1600, 24] to each of the four interleaved states. -/
theorem C57_permutation (A : X4.Regs) (l : Fin 4) : (X4.permute A).map (fun v => v l) = keccakLanes (A.map fun v => v l) := by
  have e : ∀ B : X4.Regs, (B.map fun v => v l) = X4.inst l B := by
    intro B
    refine Vector.ext fun i hi => ?_
    rw [Vector.getElem_map, X4.inst_get]
  rw [e, e, X4.permute, X4.inst_rounds24]

/-- Concrete case: two of the four states differ; instance 0 is the zero state, with the known answer of the Keccak team. -/
example : let A : X4.Regs := Vector.replicate 25 fun l => if l = 0 then 0 else 1;
    (keccakLanes (A.map fun v => v 0))[0] = 0xF1258F7940E1DDE7 ∧ (keccakLanes (A.map fun v => v 1))[0] ≠ 0xF1258F7940E1DDE7 := by decide +kernel

/-- C57. Access to one of the four states does what the 200 bytes of that state require and leaves the others unchanged. -/
theorem C57_state : Spec.PlSnp keccakF X4.plSnp X4.view := X4.plSnp_ok

/-- Concrete case: bytes 7 to 9 of state 2, across a lane boundary. -/
example : ((do X4.extractBytes (← X4.addBytes X4.init 2 [1, 2, 3] 7) 2 6 5 : M Bytes)).toOption = some [0, 1, 2, 3, 0] := by decide +kernel

/-- C57. 4-way hashing with the AVX2 code is SHAKE128 or SHAKE256 of the four messages. -/
theorem C57_shake4 (k : ShakeKind) (chunks : List ((Fin 4 → Bytes) × Nat)) (lens : List Nat) (hd : ∀ c ∈ chunks, ∀ l, (c.1 l).length = c.2) (hc : ∀ c ∈ chunks, c.2 + shakeRate k ≤ 2 ^ 32)
    (hl : ∀ n ∈ lens, n + shakeRate k ≤ 2 ^ 32) :
    runHash4 X4.plSnp k chunks lens = .ok fun l => (shakeFips k (chunks.map fun c => c.1 l).flatten).squeeze 0 lens.sum :=
  C39_spec_partial keccakF X4.plSnp X4.view C57_state k chunks lens hd hc hl

/-! ### C58 -/

/-- C58. The assembler permutation is Keccak-p[1600, 24] on the 200 bytes of the state. -/
theorem C58_permutation (m : Avx2.Mem) : Avx2.view (Avx2.permute m) = keccakF (Avx2.view m) := Avx2.view_permute m

/-- Concrete case: the first lane of the permutation of the zero state. -/
example : (Avx2.lanesMem (Avx2.permute Avx2.init))[0] = 0xF1258F7940E1DDE7 := by
  rw [Avx2.permute_eq]
  decide +kernel

/-- C58. Reading, writing, permuting and absorbing does what the 200 bytes of the state require, without access outside of the state. -/
theorem C58_state : Spec.Snp keccakF Avx2.snp Avx2.view := Avx2.snp_ok

/-- C58. All 200 bytes can be read at once (keccak/opt64 reads beyond the state then). -/
theorem C58_extract (m : Avx2.Mem) (offset len : Nat) (h : offset + len ≤ 200) : Avx2.extractBytes m offset len = .ok (Spec.extractBytes (Avx2.view m) offset len) :=
  Avx2.extractBytes_eq m offset len h

/-- Concrete case: bytes 38 to 41, across the border of two lanes that are not neighbours in memory. -/
example : ((do Avx2.extractBytes (← Avx2.addBytes Avx2.init [1, 2, 3, 4] 38) 37 6 : M Bytes)).toOption = some [0, 1, 2, 3, 4, 0] := by decide +kernel

/-- … and where those bytes are in memory: the end of word 4 and the beginning of word 7. -/
example : ((do .ok (← Avx2.addBytes Avx2.init [1, 2, 3, 4] 38) : M Avx2.Mem)).toOption.map (fun m => (m[4], m[5], m[7])) = some (0x0201000000000000, 0, 0x0403) := by decide +kernel

/-- C58. Hashing with the assembler code is SHAKE128 or SHAKE256 of FIPS 202. -/
theorem C58_shake (k : ShakeKind) (chunks : List Bytes) (lens : List Nat) (hc : ∀ c ∈ chunks, c.length + shakeRate k ≤ 2 ^ 32) (hl : ∀ n ∈ lens, n + shakeRate k ≤ 2 ^ 32) :
    runHash Avx2.snp k chunks lens = .ok ((shakeFips k chunks.flatten).squeeze 0 lens.sum) :=
  C38_incremental_partial keccakF Avx2.snp Avx2.view C58_state k chunks lens hc hl

/-! ### C59 -/

/-- C59. Builds with and without AVX2 hash alike. -/
theorem C59_same_hash (k : ShakeKind) (chunks : List Bytes) (lens : List Nat) (hc : ∀ c ∈ chunks, c.length + shakeRate k ≤ 2 ^ 32) (hl : ∀ n ∈ lens, n + shakeRate k ≤ 2 ^ 32) :
    runHash Avx2.snp k chunks lens = runHash Opt64.snp k chunks lens := by
  rw [C58_shake k chunks lens hc hl, C56_shake k chunks lens hc hl]

/-- C59. The same for 4-way hashing. -/
theorem C59_same_hash4 (k : ShakeKind) (chunks : List ((Fin 4 → Bytes) × Nat)) (lens : List Nat) (hd : ∀ c ∈ chunks, ∀ l, (c.1 l).length = c.2)
    (hc : ∀ c ∈ chunks, c.2 + shakeRate k ≤ 2 ^ 32) (hl : ∀ n ∈ lens, n + shakeRate k ≤ 2 ^ 32) :
    runHash4 X4.plSnp k chunks lens = runHash4 Opt64.plSnp k chunks lens := by
  rw [C57_shake4 k chunks lens hd hc hl, C56_shake4 k chunks lens hd hc hl]

/-- C59. Instance `l` of 4-way hashing is hashing of message `l` alone, also between different implementations. -/
theorem C59_lane (k : ShakeKind) (chunks : List ((Fin 4 → Bytes) × Nat)) (lens : List Nat) (hd : ∀ c ∈ chunks, ∀ l, (c.1 l).length = c.2) (hc : ∀ c ∈ chunks, c.2 + shakeRate k ≤ 2 ^ 32)
    (hl : ∀ n ∈ lens, n + shakeRate k ≤ 2 ^ 32) (l : Fin 4) :
    (runHash4 X4.plSnp k chunks lens).map (fun f => f l) = runHash Avx2.snp k (chunks.map fun c => c.1 l) lens := by
  have h : ∀ c ∈ chunks.map (fun c => c.1 l), c.length + shakeRate k ≤ 2 ^ 32 := by
    intro c hm
    obtain ⟨c', h1, rfl⟩ := List.mem_map.1 hm
    rw [hd c' h1 l]
    exact hc c' h1
  rw [C57_shake4 k chunks lens hd hc hl, C58_shake k _ lens h hl]
  rfl

/-- The hypotheses hold for four messages of two bytes and 40 bytes of output. -/
example : let chunks : List ((Fin 4 → Bytes) × Nat) := [(fun l => [BitVec.ofNat 8 l.val, 7], 2)];
    (∀ c ∈ chunks, ∀ l, (c.1 l).length = c.2) ∧ (∀ c ∈ chunks, c.2 + shakeRate .shake128 ≤ 2 ^ 32) ∧ ∀ n ∈ [40], n + shakeRate .shake128 ≤ 2 ^ 32 := by decide

end Banquet.Props
