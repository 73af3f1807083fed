import Verif.Model.Keccak64

/-! Model of the functions of keccak/opt64 that the sponge does not call: fewer rounds, overwriting, and reading with XOR. As in `Model/Keccak64`, the little endian branches are modelled (`PLATFORM_BYTE_ORDER == IS_LITTLE_ENDIAN`,
both undefined) and `KeccakP1600_useLaneComplementing` is not defined. -/

namespace Banquet.Opt64

/-! ## Other numbers of rounds -/

/-- `thetaRhoPiChiIotaPrepareTheta(i, A, E)` with `i` a variable: reading `KeccakF1600RoundConstants[i]` is out of bounds for `i ≥ 24`. -/
def roundAt (s : Lanes × Vector W64 5) (i : BitVec 32) : M (Lanes × Vector W64 5) :=
  if h : i.toNat < 24 then .ok (roundPrepare roundConstants[i.toNat] s.1 s.2) else .error .ub

/-- `for (; i < 24; i += 2)` in `roundsN` (KeccakP-1600-unrolling.macros:302-305). `i` grows by 2; `fuel = 12` suffices. -/
def roundsLoop : Nat → Lanes × Vector W64 5 → BitVec 32 → M (Lanes × Vector W64 5)
  | 0, s, i => if i < 24 then .error .fuel else .ok s
  | fuel + 1, s, i =>
    if i < 24 then do
      let s ← roundAt s i
      let s ← roundAt s (i + 1)
      roundsLoop fuel s (i + 2)
    else .ok s

/-- `roundsN(nr)` (KeccakP-1600-unrolling.macros:294-305); `i` and `nr` are `unsigned int`. `copyStateVariables` only renames. -/
def roundsN (A : Lanes) (nr : BitVec 32) : M Lanes := do
  let s := (A, prepareTheta A)
  let i := 24 - nr
  if i &&& 1 ≠ 0 then do
    let s ← roundAt s i
    let s ← roundsLoop 12 s (i + 1)
    .ok s.1
  else do
    let s ← roundsLoop 12 s i
    .ok s.1

/-- `KeccakP1600_Permute_Nrounds` (KeccakP-1600-opt64.c:322-327). -/
def permuteN (s : Lanes) (nr : BitVec 32) : M Lanes := roundsN s nr

/-- `rounds12` (KeccakP-1600-unrolling.macros:45-58, `KeccakP1600_fullUnrolling`): rounds 12 … 22 with `PrepareTheta`, round 23 without. -/
def rounds12 (A : Lanes) : Lanes :=
  let r := (List.finRange 11).foldl (fun (s : Lanes × Vector W64 5) i => roundPrepare roundConstants[12 + i.val] s.1 s.2) (A, prepareTheta A)
  roundLast roundConstants[23] r.1 r.2

/-- `KeccakP1600_Permute_12rounds` (KeccakP-1600-opt64.c:343-351). -/
def permute12 (s : Lanes) : Lanes := rounds12 s

/-- The loop of `KeccakP1600_12rounds_FastLoop_Absorb` (KeccakP-1600-opt64.c:549-552); see `fastLoop`. -/
def fastLoop12 (laneCount : Nat) : Nat → Lanes → Bytes → M (Lanes × Bytes)
  | 0, A, data => if data.length ≥ laneCount * 8 then .error .fuel else .ok (A, data)
  | fuel + 1, A, data =>
    if data.length ≥ laneCount * 8 then fastLoop12 laneCount fuel (rounds12 (addInput A data laneCount)) (data.drop (laneCount * 8))
    else .ok (A, data)

/-- `KeccakP1600_12rounds_FastLoop_Absorb` (KeccakP-1600-opt64.c:538-554): the state and the number of bytes absorbed. -/
def fastLoopAbsorb12 (s : Lanes) (laneCount : Nat) (data : Bytes) : M (Lanes × Nat) := do
  let (s, rest) ← fastLoop12 laneCount data.length s data
  .ok (s, data.length - rest.length)

/-! ## Overwriting -/

/-- `((unsigned char *)state)[k] = b` on a little endian machine. -/
def writeByte (s : Lanes) (k : Nat) (b : Byte) : M Lanes :=
  if h : k / 8 < 25 then .ok (s.set (k / 8) ((s[k / 8] &&& ~~~(0xFF#64 <<< (8 * (k % 8)))) ||| (b.setWidth 64 <<< (8 * (k % 8))))) else .error .ub

/-- `memcpy((unsigned char *)state + k, data, data.length)`. -/
def writeBytes (s : Lanes) (k : Nat) : Bytes → M Lanes
  | [] => .ok s
  | b :: data => do
    let s ← writeByte s k b
    writeBytes s (k + 1) data

/-- `KeccakP1600_OverwriteBytesInLane` (KeccakP-1600-opt64.c:185-216), `length = data.length`. -/
def overwriteBytesInLane (s : Lanes) (pos : Nat) (data : Bytes) (offset : Nat) : M Lanes := writeBytes s (pos * 8 + offset) data

/-- `KeccakP1600_OverwriteLanes` (KeccakP-1600-opt64.c:220-256): `memcpy(state, data, laneCount * 8)`; the callers have that many bytes of data. -/
def overwriteLanes (s : Lanes) (data : Bytes) (laneCount : Nat) : M Lanes := writeBytes s 0 (data.take (laneCount * 8))

/-- The loop of `SnP_OverwriteBytes` (SnP-Relaned.h:69-78); see `addBytesLoop`. -/
def overwriteLoop : Nat → Lanes → Bytes → Nat → Nat → M Lanes
  | 0, s, _, _, _ => .ok s
  | fuel + 1, s, data, pos, off =>
    if data.length = 0 then .ok s
    else do
      let n := if 8 - off > data.length then data.length else 8 - off
      let s ← overwriteBytesInLane s pos (data.take n) off
      overwriteLoop fuel s (data.drop n) (pos + 1) 0

/-- `KeccakP1600_OverwriteBytes` (KeccakP-1600-opt64.c:260-264, SnP-Relaned.h:54-80), `length = data.length`. -/
def overwriteBytes (s : Lanes) (data : Bytes) (offset : Nat) : M Lanes :=
  if offset = 0 then do
    let s ← overwriteLanes s data (data.length / 8)
    overwriteBytesInLane s (data.length / 8) (data.drop (data.length / 8 * 8)) 0
  else overwriteLoop data.length s data (offset / 8) (offset % 8)

/-- `KeccakP1600_OverwriteWithZeroes` (KeccakP-1600-opt64.c:268-318): `memset(state, 0, byteCount)`. -/
def overwriteWithZeroes (s : Lanes) (byteCount : Nat) : M Lanes := writeBytes s 0 (List.replicate byteCount 0)

/-! ## Reading with XOR -/

/-- `KeccakP1600_ExtractAndAddBytesInLane` (KeccakP-1600-opt64.c:434-459), `length = input.length`; the output. The lane is read first, also for `length = 0`. -/
def extractAndAddBytesInLane (s : Lanes) (pos : Nat) (input : Bytes) (offset : Nat) : M Bytes :=
  if h : pos < 25 then .ok ((List.range input.length).map fun i => input.getD i 0 ^^^ byteOf s[pos] (offset + i)) else .error .ub

/-- `KeccakP1600_ExtractAndAddLanes` (KeccakP-1600-opt64.c:463-503): words `i, …, i + n - 1` of the output. -/
def extractAndAddLanes (s : Lanes) (input : Bytes) (i : Nat) : Nat → M Bytes
  | 0 => .ok []
  | n + 1 =>
    if h : i < 25 then do
      let w := le64 ((input.drop (i * 8)).take 8) ^^^ s[i]
      let rest ← extractAndAddLanes s input (i + 1) n
      .ok ((List.range 8).map (byteOf w) ++ rest)
    else .error .ub

/-- The loop of `SnP_ExtractAndAddBytes` (SnP-Relaned.h:126-136). -/
def extractAndAddLoop : Nat → Lanes → Bytes → Nat → Nat → M Bytes
  | 0, _, _, _, _ => .ok []
  | fuel + 1, s, input, pos, off =>
    if input.length = 0 then .ok []
    else do
      let n := if 8 - off > input.length then input.length else 8 - off
      let out ← extractAndAddBytesInLane s pos (input.take n) off
      let rest ← extractAndAddLoop fuel s (input.drop n) (pos + 1) 0
      .ok (out ++ rest)

/-- `KeccakP1600_ExtractAndAddBytes` (KeccakP-1600-opt64.c:507-514, SnP-Relaned.h:110-138), `length = input.length`; the output. -/
def extractAndAddBytes (s : Lanes) (input : Bytes) (offset : Nat) : M Bytes :=
  if offset = 0 then do
    let out ← extractAndAddLanes s input 0 (input.length / 8)
    let rest ← extractAndAddBytesInLane s (input.length / 8) (input.drop (input.length / 8 * 8)) 0
    .ok (out ++ rest)
  else extractAndAddLoop input.length s input (offset / 8) (offset % 8)

end Banquet.Opt64
