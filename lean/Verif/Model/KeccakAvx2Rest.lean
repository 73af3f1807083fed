import Verif.Model.KeccakAvx2

/-! The functions of the AVX2 assembler code keccak/avx2/KeccakP-1600-AVX2.s that the library does not call: replacing bytes, reading with XOR, fewer rounds. Line numbers refer to this file. Reading
outside a table and writing outside the 200 bytes of the state is not defined. -/

namespace Banquet.Avx2

open Opt64 (byteOf le64)

/-! ## Overwriting -/

/-- `mov %r8b, p(%rdi)`. -/
def setb (m : Mem) (b : Byte) (p : Nat) : M Mem :=
  if h : p / 8 < 25 then .ok (m.set (p / 8) ((m[p / 8] &&& ~~~(0xFF#64 <<< (8 * (p % 8)))) ||| (b.setWidth 64 <<< (8 * (p % 8))))) else .error .ub

/-- `mov x, p(%rdi)` for a quad word at a multiple of 8, which all values of `mapState` are. -/
def setq (m : Mem) (x : W64) (p : Nat) : M Mem := if h : p / 8 < 25 then .ok (m.set (p / 8) x) else .error .ub

/-- The loops `NotAlignedLoop` and `LastIncompleteLaneLoop` of `KeccakP1600_OverwriteBytes` (lines 180-186, 203-208): one byte after the other. -/
def setBytes (m : Mem) : Bytes → Nat → M Mem
  | [], _ => .ok m
  | b :: bs, p => do
    let m ← setb m b p
    setBytes m bs (p + 1)

/-- `LaneAlignedLoop` and `LastIncompleteLane` (lines 188-209); `i` is the index into `mapState`. Every iteration consumes data; `fuel = length` suffices. -/
def overwriteLanes : Nat → Mem → Bytes → Nat → M Mem
  | 0, m, _, _ => .ok m
  | fuel + 1, m, data, i =>
    if data.length ≥ 8 then do
      let p ← mapAt i
      let m ← setq m (le64 (data.take 8)) p
      overwriteLanes fuel m (data.drop 8) (i + 1)
    else if data.length = 0 then .ok m
    else do
      let p ← mapAt i
      setBytes m data p

/-- `KeccakP1600_OverwriteBytes` (lines 164-211), `length = data.length`. -/
def overwriteBytes (m : Mem) (data : Bytes) (offset : Nat) : M Mem :=
  if data.length = 0 then .ok m
  else if offset % 8 = 0 then overwriteLanes data.length m data (offset / 8)
  else do
    let n := if 8 - offset % 8 ≥ data.length then data.length else 8 - offset % 8
    let p ← mapAt (offset / 8)
    let m ← setBytes m (data.take n) (offset % 8 + p)
    overwriteLanes data.length m (data.drop n) (offset / 8 + 1)

/-- `LastIncompleteLaneLoop` of `KeccakP1600_OverwriteWithZeroes` (lines 250-254). -/
def zeroBytes (m : Mem) : Nat → Nat → M Mem
  | 0, _ => .ok m
  | n + 1, p => do
    let m ← setb m 0 p
    zeroBytes m n (p + 1)

/-- `LaneAlignedLoop` and `LastIncompleteLane` of `KeccakP1600_OverwriteWithZeroes` (lines 237-254); `rsi` counts the bytes that remain. -/
def zeroLanes : Nat → Mem → Nat → Nat → M Mem
  | 0, m, _, _ => .ok m
  | fuel + 1, m, i, rsi =>
    if rsi ≥ 8 then do
      let p ← mapAt i
      let m ← setq m 0 p
      zeroLanes fuel m (i + 1) (rsi - 8)
    else if rsi = 0 then .ok m
    else do
      let p ← mapAt i
      zeroBytes m rsi p

/-- `KeccakP1600_OverwriteWithZeroes` (lines 233-256). -/
def overwriteWithZeroes (m : Mem) (byteCount : Nat) : M Mem := if byteCount = 0 then .ok m else zeroLanes byteCount m 0 byteCount

/-! ## Reading with XOR -/

/-- `NotAlignedLoop` of `KeccakP1600_ExtractAndAddBytes` (lines 369-377). -/
def addMovBytes (m : Mem) : Bytes → Nat → M Bytes
  | [], _ => .ok []
  | b :: input, p => do
    let r10b ← movb m p
    let rest ← addMovBytes m input (p + 1)
    .ok ((r10b ^^^ b) :: rest)

/-- `LastIncompleteLaneLoop` of `KeccakP1600_ExtractAndAddBytes` (lines 397-404): the low byte of `%r10` XOR the input, then `shr $8, %r10` (which drops this byte). -/
def addLowBytes : Bytes → W64 → Bytes
  | [], _ => []
  | b :: input, r10 => (r10.setWidth 8 ^^^ b) :: addLowBytes input (r10 >>> 8)

/-- `LaneAlignedLoop` and `LastIncompleteLane` of `KeccakP1600_ExtractAndAddBytes` (lines 379-404). A quad word is stored as its bytes, the lowest first. -/
def addExtractLanes (m : Mem) : Nat → Bytes → Nat → M Bytes
  | 0, _, _ => .ok []
  | fuel + 1, input, i =>
    if input.length ≥ 8 then do
      let p ← mapAt i
      let r10 ← movq m p
      let rest ← addExtractLanes m fuel (input.drop 8) (i + 1)
      .ok (lowBytes 8 (r10 ^^^ le64 (input.take 8)) ++ rest)
    else if input.length = 0 then .ok []
    else do
      let p ← mapAt i
      let r10 ← movq m p
      .ok (addLowBytes input r10)

/-- `KeccakP1600_ExtractAndAddBytes` (lines 350-408): the output, `length = input.length`. Input and output are separate. -/
def extractAndAddBytes (m : Mem) (input : Bytes) (offset : Nat) : M Bytes :=
  if input.length = 0 then .ok []
  else if offset % 8 = 0 then addExtractLanes m input.length input (offset / 8)
  else do
    let n := if 8 - offset % 8 ≥ input.length then input.length else 8 - offset % 8
    let p ← mapAt (offset / 8)
    let out ← addMovBytes m (input.take n) (p + offset % 8)
    let rest ← addExtractLanes m input.length (input.drop n) (offset / 8 + 1)
    .ok (out ++ rest)

/-! ## Fewer rounds -/

/-- The row of `iotas` at `%r10 = iotas + 32 * k`; the row before the table is `k = -1`. -/
def iotaAt (k : Int) : M Y := if h : 0 ≤ k ∧ k.toNat < 24 then .ok (iotas[k.toNat]'h.2) else .error .ub

/-- `__KeccakF1600` (lines 424-561) with `%r10 = iotas + 32 * k` and `%eax = n + 1`: the rounds are counted with `dec %eax` (line 559) behind the first one. -/
def keccakLoop : Nat → Int → Regs → M Regs
  | n, k, s => do
    let iota ← iotaAt k
    let s := round iota s
    match n with
      | 0 => .ok s
      | n + 1 => keccakLoop n (k + 1) s

/-- `KeccakP1600_Permute_12rounds` (lines 619-641): `%r10 = iotas+12*4*8`, `%eax = 12`. -/
def permute12 (m : Mem) : M Mem := do
  let s ← keccakLoop 11 12 (loadState m)
  .ok (storeState s)

/-- `KeccakP1600_Permute_Nrounds` (lines 658-682): `%r10 = iotas + 24*4*8 - 32 * nr`, `%eax = nr`. `%eax` is counted down before it is compared with zero, so `nr = 0` means 2^32 rounds. (The upper half of
`%rsi` is taken to be zero.) -/
def permuteN (m : Mem) (nr : BitVec 32) : M Mem := do
  let s ← keccakLoop (nr - 1).toNat (24 - (nr.toNat : Int)) (loadState m)
  .ok (storeState s)

/-! ## `KeccakP1600_12rounds_FastLoop_Absorb` -/

/-- `Loop21Lanes` (lines 907-947) and `Loop17Lanes` (lines 977-1018) of the fast loop with 12 rounds; see `blockLoop`. -/
def blockLoop12 (add : Regs → Bytes → M Regs) (rate : Nat) : Nat → Regs → Bytes → Nat → M (Regs × Bytes)
  | fuel, s, data, rcx => do
    let s ← add s data
    let s ← keccakLoop 11 12 s
    let data := data.drop (rate * 8)
    if rcx < rate then .ok (s, data)
    else match fuel with
      | 0 => .error .fuel
      | fuel + 1 => blockLoop12 add rate fuel s data (rcx - rate)

/-- `Not17Lanes` (lines 1020-1048), entered with `rcx ≥ rsi` lanes of data; see `lanesLoop`. -/
def lanesLoop12 (rsi : Nat) : Nat → Mem → Bytes → Nat → M (Mem × Bytes)
  | fuel, m, data, rcx =>
    if rsi = 0 then .error .ub
    else do
      let m ← lanesAddLoop m data 0 rsi
      let m ← permute12 m
      let data := data.drop (rsi * 8)
      if rcx - rsi < rsi then .ok (m, data)
      else match fuel with
        | 0 => .error .fuel
        | fuel + 1 => lanesLoop12 rsi fuel m data (rcx - rsi)

/-- `KeccakP1600_12rounds_FastLoop_Absorb(state, laneCount, data, dataByteLen)` (lines 885-1048): the state and the number of bytes absorbed. -/
def fastLoopAbsorb12 (m : Mem) (laneCount : Nat) (data : Bytes) : M (Mem × Nat) := do
  let rcx := data.length / 8
  if rcx < laneCount then .ok (m, 0)
  else if laneCount = 21 then do
    let r ← blockLoop12 (absorbBlock ones mask3_21 mask4_21 mask5_21 mask6_21) 21 rcx (loadState m) data (rcx - 21)
    .ok (storeState r.1, data.length - r.2.length)
  else if laneCount = 17 then do
    let r ← blockLoop12 (absorbBlock mask2_17 mask3_17 mask4_17 mask5_17 mask6_17) 17 rcx (loadState m) data (rcx - 17)
    .ok (storeState r.1, data.length - r.2.length)
  else do
    let r ← lanesLoop12 laneCount rcx m data rcx
    .ok (r.1, data.length - r.2.length)

end Banquet.Avx2
