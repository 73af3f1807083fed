import Verif.Model.KeccakX4

/-! The functions of keccak/avx2/KeccakP-1600-times4-SIMD256.c on the bytes of one of the four states that the library does not call: overwriting and reading with XOR. Line numbers refer to this file. Little endian as in Model/KeccakX4. -/

namespace Banquet.X4

open Opt64 (byteOf le64)

/-- `statesAsLanes[laneIndex(instanceIndex, lanePosition)] = w`. -/
def setLane (s : Regs) (l : Fin 4) (pos : Nat) (w : W64) : M Regs :=
  if h : laneIndex l pos / 4 < 25 then .ok (s.set (laneIndex l pos / 4) fun j => if j.val = laneIndex l pos % 4 then w else s[laneIndex l pos / 4] j) else .error .ub

/-- The word `w` after `memcpy((unsigned char *)&w + start, data, data.length)`. -/
def overlay (w : W64) (start : Nat) (data : Bytes) : W64 :=
  le64 ((List.range 8).map fun k => if start ≤ k ∧ k < start + data.length then data.getD (k - start) 0 else byteOf w k)

/-- `memcpy((unsigned char *)&statesAsLanes[laneIndex(instanceIndex, lanePosition)] + start, data, data.length)` with `0 < data.length ≤ 8 - start`. -/
def copyIn (s : Regs) (l : Fin 4) (pos start : Nat) (data : Bytes) : M Regs := do
  let w ← getWord s (laneIndex l pos)
  setLane s l pos (overlay w start data)

/-- The loop of `OverwriteBytes` (lines 216-222) and the incomplete lane after it (lines 224-227). -/
def overwriteLoop (l : Fin 4) : Nat → Regs → Bytes → Nat → M Regs
  | 0, s, _, _ => .ok s
  | fuel + 1, s, data, pos =>
    if data.length ≥ 8 then do
      let s ← setLane s l pos (le64 (data.take 8))
      overwriteLoop l fuel s (data.drop 8) (pos + 1)
    else if data.length > 0 then copyIn s l pos 0 data
    else .ok s

/-- `KeccakP1600times4_OverwriteBytes` (lines 193-228), `length = data.length`. -/
def overwriteBytes (s : Regs) (l : Fin 4) (data : Bytes) (offset : Nat) : M Regs := do
  let pos := offset / 8
  let offsetInLane := offset % 8
  if data.length > 0 ∧ offsetInLane ≠ 0 then do
    let n := if 8 - offsetInLane > data.length then data.length else 8 - offsetInLane
    let s ← copyIn s l pos offsetInLane (data.take n)
    overwriteLoop l data.length s (data.drop n) (pos + 1)
  else overwriteLoop l data.length s data pos

/-- The loop of `OverwriteWithZeroes` (lines 290-294) and the incomplete lane after it (lines 296-298); `n` is `sizeLeft`. -/
def zeroLoop (l : Fin 4) : Nat → Regs → Nat → Nat → M Regs
  | 0, s, _, _ => .ok s
  | fuel + 1, s, pos, n =>
    if n ≥ 8 then do
      let s ← setLane s l pos 0
      zeroLoop l fuel s (pos + 1) (n - 8)
    else if n > 0 then copyIn s l pos 0 (List.replicate n 0)
    else .ok s

/-- `KeccakP1600times4_OverwriteWithZeroes` (lines 283-299). -/
def overwriteWithZeroes (s : Regs) (l : Fin 4) (byteCount : Nat) : M Regs := zeroLoop l byteCount s 0 byteCount

/-- `do { *(curOutput++) = *(curInput++) ^ (unsigned char)lane; lane >>= 8; } while (…)` (lines 411-414 and 430-433), once per byte of the given input, which is not empty. -/
def addOut : W64 → Bytes → Bytes
  | _, [] => []
  | lane, b :: input => (b ^^^ lane.setWidth 8) :: addOut (lane >>> 8) input

/-- The loop of `ExtractAndAddBytes` (lines 418-426) and the incomplete lane after it (lines 428-434); the output. -/
def andAddLoop (s : Regs) (l : Fin 4) : Nat → Bytes → Nat → M Bytes
  | 0, _, _ => .ok []
  | fuel + 1, input, pos =>
    if input.length ≥ 8 then do
      let w ← getWord s (laneIndex l pos)
      let rest ← andAddLoop s l fuel (input.drop 8) (pos + 1)
      .ok ((List.range 8).map (byteOf (le64 (input.take 8) ^^^ w)) ++ rest)
    else if input.length ≠ 0 then do
      let w ← getWord s (laneIndex l pos)
      .ok (addOut w input)
    else .ok []

/-- `KeccakP1600times4_ExtractAndAddBytes` (lines 394-435), `length = input.length`; the output, of the same length. -/
def extractAndAddBytes (s : Regs) (l : Fin 4) (input : Bytes) (offset : Nat) : M Bytes := do
  let pos := offset / 8
  let offsetInLane := offset % 8
  if input.length > 0 ∧ offsetInLane ≠ 0 then do
    let w ← getWord s (laneIndex l pos)
    let n := if 8 - offsetInLane > input.length then input.length else 8 - offsetInLane
    let rest ← andAddLoop s l input.length (input.drop n) (pos + 1)
    .ok (addOut (w >>> (8 * offsetInLane)) (input.take n) ++ rest)
  else andAddLoop s l input.length input pos

end Banquet.X4
