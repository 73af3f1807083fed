import Verif.Model.KeccakX4

/-! Functions of avx2/KeccakP-1600-times4-SIMD256.c that the library does not call: fewer rounds, access to all four states at once, the fast loops, and Kravatte.
Line numbers are those of that file.

Buffers behind `const unsigned char *data` are only accessed as `uint64_t` at multiples of 8 bytes; they are modelled as the list of their 64 bit words (little endian). Alignment is not modelled. -/

namespace Banquet.X4

/-! ## Instructions -/

/-- `_mm256_set_epi64x(a, b, c, d)`, `LOAD4_64` (lines 56-57): `d` is word 0. -/
def load4 (a b c d : W64) : V256 := fun l => #v[d, c, b, a][l]

/-- `_mm256_unpacklo_epi64`, `UNPACKL` (line 71): the even words, alternating. -/
def unpackLo (a b : V256) : V256 := fun l => #v[a 0, b 0, a 2, b 2][l]

/-- `_mm256_unpackhi_epi64`, `UNPACKH` (line 72): the odd words, alternating. -/
def unpackHi (a b : V256) : V256 := fun l => #v[a 1, b 1, a 3, b 3][l]

/-- `_mm256_permute2f128_si256(a, b, c)` and `_mm256_permute2x128_si256`, `PERM128` (line 73): bits 0 and 1 of `c` select the low half, bits 4 and 5 the high half, out of the halves
of `a` (0, 1) and `b` (2, 3). The zeroing bits 3 and 7 are not set in the code. -/
def perm128 (a b : V256) (c : Nat) : V256 := fun l =>
  let sel := if l.val < 2 then c % 4 else c / 16 % 4
  (if sel < 2 then a else b) (Fin.ofNat 4 (2 * (sel % 2) + l.val % 2))

/-- `_mm256_shuffle_pd(a, b, c)`, `SHUFFLE64` (lines 74-76): bit `l` of `c` selects a word out of the same half of `a` (`l` even) or `b` (`l` odd). -/
def shuffle64 (a b : V256) (c : Nat) : V256 := fun l => (if l.val % 2 = 0 then a else b) (Fin.ofNat 4 (2 * (l.val / 2) + c / 2 ^ l.val % 2))

/-- `_mm256_permute4x64_epi64(a, c)`: bits `2l` and `2l + 1` of `c` select word `l`. -/
def permute4x64 (a : V256) (c : Nat) : V256 := fun l => a (Fin.ofNat 4 (c / 4 ^ l.val % 4))

/-- `_mm256_blend_epi32(a, b, c)`: bit `k` of `c` selects the 32 bit word `k` of `b`, otherwise of `a`. -/
def blend32 (a b : V256) (c : Nat) : V256 := fun l =>
  let lo := if c / 2 ^ (2 * l.val) % 2 = 1 then b l else a l
  let hi := if c / 2 ^ (2 * l.val + 1) % 2 = 1 then b l else a l
  (hi.extractLsb' 32 32 ++ lo.extractLsb' 0 32)

/-- `_mm256_insert_epi64(a, x, i)`. -/
def insert64 (a : V256) (x : W64) (i : Fin 4) : V256 := fun l => if l = i then x else a l

/-- `_mm256_and_si256`. -/
def and256 (a b : V256) : V256 := fun l => a l &&& b l

/-- `UNINTLEAVE()` (lines 78-84) and `UNINTLEAVEa` (lines 1116-1122). -/
def unintleave (v : Vector V256 4) : Vector V256 4 :=
  let lanesL01 := unpackLo v[0] v[1]
  let lanesH01 := unpackHi v[0] v[1]
  let lanesL23 := unpackLo v[2] v[3]
  let lanesH23 := unpackHi v[2] v[3]
  #v[perm128 lanesL01 lanesL23 0x20, perm128 lanesH01 lanesH23 0x20, perm128 lanesL01 lanesL23 0x31, perm128 lanesH01 lanesH23 0x31]

/-- `INTLEAVE()` (lines 86-94) and `INTLEAVEa` (lines 1124-1132). -/
def intleave (v : Vector V256 4) : Vector V256 4 :=
  let lanesL01 := perm128 v[0] v[2] 0x20
  let lanesH01 := perm128 v[1] v[3] 0x20
  let lanesL23 := perm128 v[0] v[2] 0x31
  let lanesH23 := perm128 v[1] v[3] 0x31
  #v[shuffle64 lanesL01 lanesH01 0x00, shuffle64 lanesL01 lanesH01 0x0F, shuffle64 lanesL23 lanesH23 0x00, shuffle64 lanesL23 lanesH23 0x0F]

/-! ## Buffers -/

/-- `p[i]`, read. -/
def readWord (data : List W64) (i : Nat) : M W64 := if h : i < data.length then .ok data[i] else .error .ub

/-- `p[i] = w`. -/
def writeWord (data : List W64) (i : Nat) (w : W64) : M (List W64) := if i < data.length then .ok (data.set i w) else .error .ub

/-- `LOAD256u(p[i])` (line 55). -/
def load256 (data : List W64) (i : Nat) : M V256 := do
  let w0 ← readWord data i
  let w1 ← readWord data (i + 1)
  let w2 ← readWord data (i + 2)
  let w3 ← readWord data (i + 3)
  .ok (load4 w3 w2 w1 w0)

/-- `STORE256u(p[i], v)` (line 67). -/
def store256 (data : List W64) (i : Nat) (v : V256) : M (List W64) := do
  let data ← writeWord data i (v 0)
  let data ← writeWord data (i + 1) (v 1)
  let data ← writeWord data (i + 2) (v 2)
  writeWord data (i + 3) (v 3)

/-- `curData0`, …, `curData3` (lines 147-153) as index of a word: `laneOffset * k * SnP_laneLengthInBytes` is computed in 32 bits. -/
def ptr (laneOffset k : Nat) : Nat := laneOffset * k * 8 % 2 ^ 32 / 8

/-- `stateAsLanes[i]`, read. -/
def getReg (s : Regs) (i : Nat) : M V256 := if h : i < 25 then .ok s[i] else .error .ub

/-- `stateAsLanes[i] = v`. -/
def setReg (s : Regs) (i : Nat) (v : V256) : M Regs := if h : i < 25 then .ok (s.set i v) else .error .ub

/-- The words `curData3[i]`, …, `curData0[i]` as in `LOAD4_64(curData3[i], curData2[i], curData1[i], curData0[i])`. -/
def loadCol (data : List W64) (laneOffset i : Nat) : M V256 := do
  let w3 ← readWord data (ptr laneOffset 3 + i)
  let w2 ← readWord data (ptr laneOffset 2 + i)
  let w1 ← readWord data (ptr laneOffset 1 + i)
  let w0 ← readWord data (ptr laneOffset 0 + i)
  .ok (load4 w3 w2 w1 w0)

/-- `LOAD256u` of the four buffers at `i`, as in `Xor_In4` (lines 161-165). -/
def loadRows (data : List W64) (laneOffset i : Nat) : M (Vector V256 4) := do
  let lanes0 ← load256 data (ptr laneOffset 0 + i)
  let lanes1 ← load256 data (ptr laneOffset 1 + i)
  let lanes2 ← load256 data (ptr laneOffset 2 + i)
  let lanes3 ← load256 data (ptr laneOffset 3 + i)
  .ok #v[lanes0, lanes1, lanes2, lanes3]

/-- `for (i = from; i < laneCount; i++) f(i);`. -/
def forLanes {S : Type} (f : S → Nat → M S) (start laneCount : Nat) (s : S) : M S := (List.range' start (laneCount - start)).foldlM f s

/-- The control flow of `AddLanesAll` (lines 172-189), the same in the other functions with `LanesAll`: groups of four lanes for the first 16 or 20. -/
def lanesAll {S : Type} (f4 f1 : S → Nat → M S) (laneCount : Nat) (s : S) : M S :=
  if laneCount ≥ 16 then do
    let s ← f4 s 0
    let s ← f4 s 4
    let s ← f4 s 8
    let s ← f4 s 12
    if laneCount ≥ 20 then do
      let s ← f4 s 16
      forLanes f1 20 laneCount s
    else forLanes f1 16 laneCount s
  else forLanes f1 0 laneCount s

/-- `Xor_In` (lines 156-159). -/
def xorIn (data : List W64) (laneOffset : Nat) (s : Regs) (i : Nat) : M Regs := do
  let v ← loadCol data laneOffset i
  let a ← getReg s i
  setReg s i (xor256 a v)

/-- `Xor_In4` (lines 161-170). -/
def xorIn4 (data : List W64) (laneOffset : Nat) (s : Regs) (i : Nat) : M Regs := do
  let r ← loadRows data laneOffset i
  let v := intleave r
  let a ← getReg s i
  let s ← setReg s i (xor256 a v[0])
  let a ← getReg s (i + 1)
  let s ← setReg s (i + 1) (xor256 a v[1])
  let a ← getReg s (i + 2)
  let s ← setReg s (i + 2) (xor256 a v[2])
  let a ← getReg s (i + 3)
  setReg s (i + 3) (xor256 a v[3])

/-- `KeccakP1600times4_AddLanesAll` (lines 141-190). -/
def addLanesAll (s : Regs) (data : List W64) (laneCount laneOffset : Nat) : M Regs := lanesAll (xorIn4 data laneOffset) (xorIn data laneOffset) laneCount s

/-- `OverWr` (lines 246-249). -/
def overWr (data : List W64) (laneOffset : Nat) (s : Regs) (i : Nat) : M Regs := do
  let v ← loadCol data laneOffset i
  setReg s i v

/-- `OverWr4` (lines 251-260). -/
def overWr4 (data : List W64) (laneOffset : Nat) (s : Regs) (i : Nat) : M Regs := do
  let r ← loadRows data laneOffset i
  let v := intleave r
  let s ← setReg s i v[0]
  let s ← setReg s (i + 1) v[1]
  let s ← setReg s (i + 2) v[2]
  setReg s (i + 3) v[3]

/-- `KeccakP1600times4_OverwriteLanesAll` (lines 230-280). -/
def overwriteLanesAll (s : Regs) (data : List W64) (laneCount laneOffset : Nat) : M Regs := lanesAll (overWr4 data laneOffset) (overWr data laneOffset) laneCount s

/-- `Extr` (lines 357-361); `stateAsLanes64[4 * i + k]` is word `k` of `stateAsLanes[i]`. -/
def extr (s : Regs) (laneOffset : Nat) (out : List W64) (i : Nat) : M (List W64) := do
  let out ← writeWord out (ptr laneOffset 0 + i) (← getWord s (4 * i))
  let out ← writeWord out (ptr laneOffset 1 + i) (← getWord s (4 * i + 1))
  let out ← writeWord out (ptr laneOffset 2 + i) (← getWord s (4 * i + 2))
  writeWord out (ptr laneOffset 3 + i) (← getWord s (4 * i + 3))

/-- The loads of `Extr4` (lines 364-367). -/
def loadRegs (s : Regs) (i : Nat) : M (Vector V256 4) := do
  let lanes0 ← getReg s i
  let lanes1 ← getReg s (i + 1)
  let lanes2 ← getReg s (i + 2)
  let lanes3 ← getReg s (i + 3)
  .ok #v[lanes0, lanes1, lanes2, lanes3]

/-- The stores of `Extr4` (lines 368-371). -/
def storeRows (out : List W64) (laneOffset i : Nat) (v : Vector V256 4) : M (List W64) := do
  let out ← store256 out (ptr laneOffset 0 + i) v[0]
  let out ← store256 out (ptr laneOffset 1 + i) v[1]
  let out ← store256 out (ptr laneOffset 2 + i) v[2]
  store256 out (ptr laneOffset 3 + i) v[3]

/-- `Extr4` (lines 363-371). -/
def extr4 (s : Regs) (laneOffset : Nat) (out : List W64) (i : Nat) : M (List W64) := do
  let v ← loadRegs s i
  storeRows out laneOffset i (unintleave v)

/-- `KeccakP1600times4_ExtractLanesAll` (lines 340-391): the buffer afterwards. -/
def extractLanesAll (s : Regs) (out : List W64) (laneCount laneOffset : Nat) : M (List W64) := lanesAll (extr4 s laneOffset) (extr s laneOffset) laneCount out

/-- `ExtrXor` (lines 463-470). -/
def extrXor (s : Regs) (input : List W64) (laneOffset : Nat) (out : List W64) (i : Nat) : M (List W64) := do
  let out ← writeWord out (ptr laneOffset 0 + i) ((← readWord input (ptr laneOffset 0 + i)) ^^^ (← getWord s (4 * i)))
  let out ← writeWord out (ptr laneOffset 1 + i) ((← readWord input (ptr laneOffset 1 + i)) ^^^ (← getWord s (4 * i + 1)))
  let out ← writeWord out (ptr laneOffset 2 + i) ((← readWord input (ptr laneOffset 2 + i)) ^^^ (← getWord s (4 * i + 2)))
  writeWord out (ptr laneOffset 3 + i) ((← readWord input (ptr laneOffset 3 + i)) ^^^ (← getWord s (4 * i + 3)))

/-- `ExtrXor4` (lines 472-486). -/
def extrXor4 (s : Regs) (input : List W64) (laneOffset : Nat) (out : List W64) (i : Nat) : M (List W64) := do
  let v ← loadRegs s i
  let v := unintleave v
  let r ← loadRows input laneOffset i
  storeRows out laneOffset i #v[xor256 v[0] r[0], xor256 v[1] r[1], xor256 v[2] r[2], xor256 v[3] r[3]]

/-- `KeccakP1600times4_ExtractAndAddLanesAll` (lines 437-508): the output buffer afterwards. Input and output do not overlap in the model. -/
def extractAndAddLanesAll (s : Regs) (input out : List W64) (laneCount laneOffset : Nat) : M (List W64) :=
  lanesAll (extrXor4 s input laneOffset) (extrXor s input laneOffset) laneCount out

/-! ## Fewer rounds -/

/-- `rounds12` (avx2/KeccakP-1600-unrolling.macros:45-58). -/
def rounds12 (A : Regs) : Regs :=
  let r := (List.finRange 11).foldl (fun (s : Regs × Vector V256 5) i => roundPrepare roundConstants[12 + i.val] s.1 s.2) (A, prepareTheta A)
  roundLast roundConstants[23] r.1 r.2

/-- `rounds6` (avx2/KeccakP-1600-unrolling.macros:60-67). -/
def rounds6 (A : Regs) : Regs :=
  let r := (List.finRange 5).foldl (fun (s : Regs × Vector V256 5) i => roundPrepare roundConstants[18 + i.val] s.1 s.2) (A, prepareTheta A)
  roundLast roundConstants[23] r.1 r.2

/-- `rounds4` (avx2/KeccakP-1600-unrolling.macros:69-74). -/
def rounds4 (A : Regs) : Regs :=
  let r := (List.finRange 3).foldl (fun (s : Regs × Vector V256 5) i => roundPrepare roundConstants[20 + i.val] s.1 s.2) (A, prepareTheta A)
  roundLast roundConstants[23] r.1 r.2

/-- `KeccakP1600times4_PermuteAll_12rounds` (lines 860-869). -/
def permute12 (s : Regs) : Regs := rounds12 s

/-- `KeccakP1600times4_PermuteAll_6rounds` (lines 871-880). -/
def permute6 (s : Regs) : Regs := rounds6 s

/-- `KeccakP1600times4_PermuteAll_4rounds` (lines 882-891). -/
def permute4 (s : Regs) : Regs := rounds4 s

/-! ## Fast loops -/

/-- The condition `dataByteLen >= (laneOffsetParallel * 3 + laneCount) * 8` (line 946), the right side in 32 bits. -/
def need (laneCount par : Nat) : Nat := (par * 3 + laneCount) * 8 % 2 ^ 32

/-- The loop for `laneCount == 21` (lines 945-983, 1055-1093): `Aba`, …, `Asa` are XORed with the words at `pos`, the number of words consumed so far. `dataByteLen` wraps around in 64 bits. -/
def fastLoop21 (rounds : Regs → Regs) (data : List W64) (par ser : Nat) : Nat → Regs → Nat → W64 → M (Regs × Nat)
  | 0, s, pos, len => if len.toNat ≥ need 21 par then .error .fuel else .ok (s, pos)
  | fuel + 1, s, pos, len =>
    if len.toNat ≥ need 21 par then do
      let s ← forLanes (xorIn (data.drop pos) par) 0 21 s
      fastLoop21 rounds data par ser fuel (rounds s) (pos + ser) (len - BitVec.ofNat 64 (ser * 8 % 2 ^ 32))
    else .ok (s, pos)

/-- The loop for other values of `laneCount` (lines 993-999, 1103-1109). -/
def fastLoopOther (permute : Regs → Regs) (data : List W64) (laneCount par ser : Nat) : Nat → Regs → Nat → W64 → M (Regs × Nat)
  | 0, s, pos, len => if len.toNat ≥ need laneCount par then .error .fuel else .ok (s, pos)
  | fuel + 1, s, pos, len =>
    if len.toNat ≥ need laneCount par then do
      let s ← addLanesAll s (data.drop pos) laneCount par
      fastLoopOther permute data laneCount par ser fuel (permute s) (pos + ser * 8 % 2 ^ 32 / 8) (len - BitVec.ofNat 64 (ser * 8 % 2 ^ 32))
    else .ok (s, pos)

/-- `KeccakF1600times4_FastLoop_Absorb` (lines 893-1002) with `rounds24`, `KeccakP1600times4_12rounds_FastLoop_Absorb` (lines 1004-1112) with `rounds12`: the states and the number of bytes consumed.
`dataByteLen` is `8 * data.length`. A pointer moved beyond the end of the data is only noticed if it is read (or never, in the result). `fuel` bounds the number of iterations. -/
def fastLoopAbsorb (rounds : Regs → Regs) (fuel : Nat) (s : Regs) (laneCount par ser : Nat) (data : List W64) : M (Regs × Nat) := do
  let (s, pos) ← if laneCount = 21 then fastLoop21 rounds data par ser fuel s 0 (BitVec.ofNat 64 (8 * data.length))
    else fastLoopOther rounds data laneCount par ser fuel s 0 (BitVec.ofNat 64 (8 * data.length))
  .ok (s, 8 * pos)

/-! ## Kravatte -/

/-- `AddOverWr4` (lines 1158-1167): `lanes0`, …, `lanes3` of the words of `inp` (from word `base` on) and the key. -/
def addOverWr4 (key inp : List W64) (base argIndex : Nat) : M (Vector V256 4) := do
  let lanes0 ← load256 inp (base + argIndex + 0 * 25)
  let lanes1 ← load256 inp (base + argIndex + 1 * 25)
  let lanes2 ← load256 inp (base + argIndex + 2 * 25)
  let lanes3 ← load256 inp (base + argIndex + 3 * 25)
  let v := intleave #v[lanes0, lanes1, lanes2, lanes3]
  let k0 ← readWord key (argIndex + 0)
  let k1 ← readWord key (argIndex + 1)
  let k2 ← readWord key (argIndex + 2)
  let k3 ← readWord key (argIndex + 3)
  .ok #v[xor256 v[0] (set1 k0), xor256 v[1] (set1 k1), xor256 v[2] (set1 k2), xor256 v[3] (set1 k3)]

/-- `LoadXOReq256` (lines 1134-1136). -/
def loadXorEq (lanes : V256) (inp : List W64) (base argIndex : Nat) : M V256 := do
  let w3 ← readWord inp (base + (3 * 25 + argIndex))
  let w2 ← readWord inp (base + (2 * 25 + argIndex))
  let w1 ← readWord inp (base + (1 * 25 + argIndex))
  let w0 ← readWord inp (base + (0 * 25 + argIndex))
  .ok (xor256 lanes (load4 w3 w2 w1 w0))

/-- `ExtrAccu` (lines 1171-1174). -/
def extrAccu (lanes : V256) (p : List W64) (argIndex : Nat) : M (List W64) := do
  let w ← readWord p argIndex
  writeWord p argIndex (w ^^^ (lanes 0 ^^^ lanes 1 ^^^ lanes 2 ^^^ lanes 3))

/-- `ExtrAccu4` (lines 1176-1180). -/
def extrAccu4 (lanes : Vector V256 4) (p : List W64) (argIndex : Nat) : M (List W64) := do
  let v := unintleave lanes
  let lanes0 := xor256 v[0] v[1]
  let lanes2 := xor256 v[2] v[3]
  let lanes1 ← load256 p argIndex
  store256 p argIndex (xor256 (xor256 lanes0 lanes2) lanes1)

/-- `Kravatte_Rollc()` (lines 1182-1190): `Asa`, …, `Asu`, and the new `x0x1x2x3` and `x1x2x3x4`. -/
def rollc (x0 x1 : V256) : Vector V256 5 × V256 × V256 :=
  let asa := x0
  let ase := x1
  let x1 := rol64in256 x0 7
  let x1 := xor256 x1 ase
  let x1 := xor256 x1 (srli ase 3)
  let asi := blend32 (permute4x64 ase 0x39) (permute4x64 x1 0x39) 0xC0
  let aso := perm128 ase x1 0x21
  let asu := blend32 (permute4x64 ase 0xFF) (permute4x64 x1 0x90) 0xFC
  (#v[asa, ase, asi, aso, asu], asu, x1)

/-- The body of the loop of `KravatteCompress` (lines 1211-1229). -/
def compressBlock (kRoll inp : List W64) (base : Nat) (x0 x1 : V256) (xAccu : List W64) : M (List W64 × V256 × V256) := do
  let a ← addOverWr4 kRoll inp base 0
  let b ← addOverWr4 kRoll inp base 4
  let c ← addOverWr4 kRoll inp base 8
  let d ← addOverWr4 kRoll inp base 12
  let e ← addOverWr4 kRoll inp base 16
  let (r, x0, x1) := rollc x0 x1
  let sa ← loadXorEq r[0] inp base 20
  let se ← loadXorEq r[1] inp base 21
  let si ← loadXorEq r[2] inp base 22
  let so ← loadXorEq r[3] inp base 23
  let su ← loadXorEq r[4] inp base 24
  let s := rounds6 #v[a[0], a[1], a[2], a[3], b[0], b[1], b[2], b[3], c[0], c[1], c[2], c[3], d[0], d[1], d[2], d[3], e[0], e[1], e[2], e[3], sa, se, si, so, su]
  let xAccu ← extrAccu4 #v[s[0], s[1], s[2], s[3]] xAccu 0
  let xAccu ← extrAccu4 #v[s[4], s[5], s[6], s[7]] xAccu 4
  let xAccu ← extrAccu4 #v[s[8], s[9], s[10], s[11]] xAccu 8
  let xAccu ← extrAccu4 #v[s[12], s[13], s[14], s[15]] xAccu 12
  let xAccu ← extrAccu4 #v[s[16], s[17], s[18], s[19]] xAccu 16
  let xAccu ← extrAccu4 #v[s[20], s[21], s[22], s[23]] xAccu 20
  let xAccu ← extrAccu s[24] xAccu 24
  .ok (xAccu, x0, x1)

/-- `do … while (--nBlocks != 0);` (lines 1210-1230); `nBlocks` is a `size_t` and wraps around. -/
def compressLoop (kRoll inp : List W64) : Nat → Nat → W64 → V256 → V256 → List W64 → M (List W64 × V256 × V256 × Nat)
  | 0, _, _, _, _, _ => .error .fuel
  | fuel + 1, base, nBlocks, x0, x1, xAccu => do
    let (xAccu, x0, x1) ← compressBlock kRoll inp base x0 x1 xAccu
    let nBlocks := nBlocks - 1
    if nBlocks ≠ 0 then compressLoop kRoll inp fuel (base + 4 * 25) nBlocks x0 x1 xAccu else .ok (xAccu, x0, x1, base + 4 * 25)

/-- `KeccakP1600times4_KravatteCompress` (lines 1192-1239): `xAccu`, `kRoll` and the number of bytes consumed. `inputByteLen` is `8 * input.length`. -/
def kravatteCompress (fuel : Nat) (xAccu kRoll input : List W64) : M (List W64 × List W64 × Nat) := do
  let nBlocks := BitVec.ofNat 64 (8 * input.length / (4 * 200))
  let x0 ← load256 kRoll 20
  let x1 ← load256 kRoll 21
  let (xAccu, x0, x1, pos) ← compressLoop kRoll input fuel 0 nBlocks x0 x1 xAccu
  let kRoll ← store256 kRoll 20 x0
  let kRoll ← writeWord kRoll 24 (x1 3)
  .ok (xAccu, kRoll, 8 * pos)

/-- `ExtrAddKey` (lines 1244-1249). -/
def extrAddKey (kRoll : List W64) (lanes : V256) (p : List W64) (base argIndex : Nat) : M (List W64) := do
  let k ← readWord kRoll argIndex
  let v := xor256 lanes (set1 k)
  let p ← writeWord p (base + (argIndex + 0 * 25)) (v 0)
  let p ← writeWord p (base + (argIndex + 1 * 25)) (v 1)
  let p ← writeWord p (base + (argIndex + 2 * 25)) (v 2)
  writeWord p (base + (argIndex + 3 * 25)) (v 3)

/-- `ExtrAddKey4` (lines 1269-1278). -/
def extrAddKey4 (kRoll : List W64) (lanes : Vector V256 4) (p : List W64) (base argIndex : Nat) : M (List W64) := do
  let k0 ← readWord kRoll (argIndex + 0)
  let k1 ← readWord kRoll (argIndex + 1)
  let k2 ← readWord kRoll (argIndex + 2)
  let k3 ← readWord kRoll (argIndex + 3)
  let v := unintleave #v[xor256 lanes[0] (set1 k0), xor256 lanes[1] (set1 k1), xor256 lanes[2] (set1 k2), xor256 lanes[3] (set1 k3)]
  let p ← store256 p (base + (argIndex + 0 * 25)) v[0]
  let p ← store256 p (base + (argIndex + 1 * 25)) v[1]
  let p ← store256 p (base + (argIndex + 2 * 25)) v[2]
  store256 p (base + (argIndex + 3 * 25)) v[3]

/-- The five vectors `Ama`, …, `Amu`, the five vectors `Asa`, …, `Asu` and `lanesL01` of `KravatteExpand` (lines 1316-1334) from the loads at 15, …, 21. -/
def rolle (ama ame ami ase : V256) : V256 × V256 × V256 × V256 :=
  let lanesL01 := rol64in256 ama 7
  let lanesH01 := rol64in256 ame 18
  let lanesL01 := xor256 lanesL01 lanesH01
  let lanesH01 := and256 ami (srli ame 1)
  let lanesL01 := xor256 lanesL01 lanesH01
  let asi := insert64 (permute4x64 ase 0x39) (lanesL01 0) 3
  let aso := perm128 ase lanesL01 0x21
  let asu := insert64 (permute4x64 lanesL01 0x93) (ase 3) 0
  (asi, aso, asu, lanesL01)

/-- The body of the loop of `KravatteExpand` (lines 1298-1348). -/
def expandBlock (kRoll : List W64) (base : Nat) (yAccu out : List W64) : M (List W64 × List W64) := do
  let y ← (List.range 15).mapM (readWord yAccu)
  let ama ← load256 yAccu 15
  let ame ← load256 yAccu 16
  let ami ← load256 yAccu 17
  let amo ← load256 yAccu 18
  let amu ← load256 yAccu 19
  let asa ← load256 yAccu 20
  let ase ← load256 yAccu 21
  let (asi, aso, asu, lanesL01) := rolle ama ame ami ase
  let yAccu ← store256 yAccu 15 amu
  let yAccu ← writeWord yAccu 19 (aso 0)
  let yAccu ← writeWord yAccu 20 (aso 1)
  let yAccu ← store256 yAccu 21 lanesL01
  let c := fun i => set1 (y.getD i 0)
  let s := rounds6 #v[c 0, c 1, c 2, c 3, c 4, c 5, c 6, c 7, c 8, c 9, c 10, c 11, c 12, c 13, c 14, ama, ame, ami, amo, amu, asa, ase, asi, aso, asu]
  let out ← extrAddKey4 kRoll #v[s[0], s[1], s[2], s[3]] out base 0
  let out ← extrAddKey4 kRoll #v[s[4], s[5], s[6], s[7]] out base 4
  let out ← extrAddKey4 kRoll #v[s[8], s[9], s[10], s[11]] out base 8
  let out ← extrAddKey4 kRoll #v[s[12], s[13], s[14], s[15]] out base 12
  let out ← extrAddKey4 kRoll #v[s[16], s[17], s[18], s[19]] out base 16
  let out ← extrAddKey4 kRoll #v[s[20], s[21], s[22], s[23]] out base 20
  let out ← extrAddKey kRoll s[24] out base 24
  .ok (yAccu, out)

/-- `do … while (--nBlocks != 0);` (lines 1297-1349). -/
def expandLoop (kRoll : List W64) : Nat → Nat → W64 → List W64 → List W64 → M (List W64 × List W64 × Nat)
  | 0, _, _, _, _ => .error .fuel
  | fuel + 1, base, nBlocks, yAccu, out => do
    let (yAccu, out) ← expandBlock kRoll base yAccu out
    let nBlocks := nBlocks - 1
    if nBlocks ≠ 0 then expandLoop kRoll fuel (base + 4 * 25) nBlocks yAccu out else .ok (yAccu, out, base + 4 * 25)

/-- `KeccakP1600times4_KravatteExpand` (lines 1282-1354): `yAccu`, the output buffer and the number of bytes written. `outputByteLen` is `8 * out.length`. -/
def kravatteExpand (fuel : Nat) (yAccu kRoll out : List W64) : M (List W64 × List W64 × Nat) := do
  let nBlocks := BitVec.ofNat 64 (8 * out.length / (4 * 200))
  let (yAccu, out, pos) ← expandLoop kRoll fuel 0 nBlocks yAccu out
  .ok (yAccu, out, 8 * pos)

end Banquet.X4
