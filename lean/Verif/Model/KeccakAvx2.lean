import Verif.Model.Keccak64

/-! Model of keccak/avx2/KeccakP-1600-AVX2.s, the assembler code that a build with `USE_AVX2=ON` (the default except for MSVC) uses for hashing. The code of one round is transcribed instruction by
instruction: one `let` per instruction, the operands in the order of the source (AT&T syntax, the destination is the variable). The instructions are modelled by functions on four 64-bit words, after
the Intel manual. The loops around them are written as recursive functions, with the registers that matter as arguments.

Arguments of type `unsigned int` are used by the code as 64-bit registers (`cmp $0, %rcx`); the model takes their upper halves to be zero, which the calling convention does not promise.
Saving registers, `vzeroupper` and alignment are not modelled. -/

namespace Banquet.Avx2

open Opt64 (byteOf le64)

/-- A `ymm` register: four 64-bit words, the lowest first. -/
abbrev Y := Fin 4 → W64

/-- 32-bit word `d` of a register. -/
def dword (a : Y) (d : Nat) : BitVec 32 := (a (Fin.ofNat 4 (d / 2)) >>> (32 * (d % 2))).setWidth 32

/-- A register from its eight 32-bit words. -/
def ofDwords (f : Nat → BitVec 32) : Y := fun l => f (2 * l.val + 1) ++ f (2 * l.val)

/-- `vpxor`. -/
def vpxor (b a : Y) : Y := fun l => a l ^^^ b l

/-- `vpor`. -/
def vpor (b a : Y) : Y := fun l => a l ||| b l

/-- `vpandn`: the second source in this order, the first operand of the manual, is complemented. -/
def vpandn (b a : Y) : Y := fun l => ~~~ a l &&& b l

/-- `vpaddq`. -/
def vpaddq (b a : Y) : Y := fun l => a l + b l

/-- `vpsrlq $n`. -/
def vpsrlq (n : Nat) (a : Y) : Y := fun l => a l >>> n

/-- `vpsllvq`: each word is shifted by its own count. -/
def vpsllvq (cnt a : Y) : Y := fun l => a l <<< (cnt l).toNat

/-- `vpsrlvq`. -/
def vpsrlvq (cnt a : Y) : Y := fun l => a l >>> (cnt l).toNat

/-- `vpermq $imm`: word `l` of the result is the one that the bits `2 l` and `2 l + 1` of `imm` select. -/
def vpermq (imm : Nat) (a : Y) : Y := fun l => a (Fin.ofNat 4 (imm >>> (2 * l.val) % 4))

/-- `vpshufd $imm`: in each half of four 32-bit words, word `d` of the result is the one that the bits `2 d` and `2 d + 1` of `imm` select. -/
def vpshufd (imm : Nat) (a : Y) : Y := ofDwords fun d => dword a (d / 4 * 4 + imm >>> (2 * (d % 4)) % 4)

/-- `vpblendd $imm`: 32-bit word `d` comes from `b` if bit `d` of `imm` is set, else from `a`. -/
def vpblendd (imm : Nat) (b a : Y) : Y := ofDwords fun d => if imm.testBit d then dword b d else dword a d

/-- `vpsrldq $n`: each half is shifted right by `n` bytes. -/
def vpsrldq (n : Nat) (a : Y) : Y := fun l => le64 ((List.range 8).map fun k =>
  let j := 8 * (l.val % 2) + k + n
  if j < 16 then byteOf (a (Fin.ofNat 4 (2 * (l.val / 2) + j / 8))) (j % 8) else 0)

/-- Four `.quad` values in memory. -/
def quads (v : Vector W64 4) : Y := fun l => v[l]

/-- `rhotates_left` (KeccakP-1600-AVX2.s:1061-1067). -/
def rhotatesLeft : Vector Y 6 := #v[
  quads #v[3, 18, 36, 41],
  quads #v[1, 62, 28, 27],
  quads #v[45, 6, 56, 39],
  quads #v[10, 61, 55, 8],
  quads #v[2, 15, 25, 20],
  quads #v[44, 43, 21, 14]]

/-- `rhotates_right` (KeccakP-1600-AVX2.s:1068-1074). -/
def rhotatesRight : Vector Y 6 := #v[
  quads #v[64-3, 64-18, 64-36, 64-41],
  quads #v[64-1, 64-62, 64-28, 64-27],
  quads #v[64-45, 64-6, 64-56, 64-39],
  quads #v[64-10, 64-61, 64-55, 64-8],
  quads #v[64-2, 64-15, 64-25, 64-20],
  quads #v[64-44, 64-43, 64-21, 64-14]]

/-- Theta (KeccakP-1600-AVX2.s:427-457): the new `ymm0`, `ymm2`, and `ymm15`, the words to be added to the columns 1 to 4. -/
def theta (ymm0 ymm1 ymm2 ymm3 ymm4 ymm5 ymm6 : Y) : Y × Y × Y :=
  let ymm13 := vpshufd 0b01001110 ymm2
  let ymm12 := vpxor ymm3 ymm5
  let ymm9 := vpxor ymm6 ymm4
  let ymm12 := vpxor ymm1 ymm12
  let ymm12 := vpxor ymm9 ymm12
  let ymm11 := vpermq 0b10010011 ymm12
  let ymm13 := vpxor ymm2 ymm13
  let ymm7 := vpermq 0b01001110 ymm13
  let ymm8 := vpsrlq 63 ymm12
  let ymm9 := vpaddq ymm12 ymm12
  let ymm8 := vpor ymm9 ymm8
  let ymm15 := vpermq 0b00111001 ymm8
  let ymm14 := vpxor ymm11 ymm8
  let ymm14 := vpermq 0b00000000 ymm14
  let ymm13 := vpxor ymm0 ymm13
  let ymm13 := vpxor ymm7 ymm13
  let ymm7 := vpsrlq 63 ymm13
  let ymm8 := vpaddq ymm13 ymm13
  let ymm8 := vpor ymm7 ymm8
  let ymm2 := vpxor ymm14 ymm2
  let ymm0 := vpxor ymm14 ymm0
  let ymm15 := vpblendd 0b11000000 ymm8 ymm15
  let ymm11 := vpblendd 0b00000011 ymm13 ymm11
  let ymm15 := vpxor ymm11 ymm15
  (ymm0, ymm2, ymm15)

/-- Rho, Pi and the shuffle before Chi (KeccakP-1600-AVX2.s:460-491): `ymm8`, …, `ymm13`. The memory operands are the rows of the tables: `%r8`, `%r9` point 96 bytes into them. -/
def rhoPi (ymm1 ymm2 ymm3 ymm4 ymm5 ymm6 ymm15 : Y) : Vector Y 6 :=
  let ymm10 := vpsllvq rhotatesLeft[0] ymm2
  let ymm2 := vpsrlvq rhotatesRight[0] ymm2
  let ymm2 := vpor ymm10 ymm2
  let ymm3 := vpxor ymm15 ymm3
  let ymm11 := vpsllvq rhotatesLeft[2] ymm3
  let ymm3 := vpsrlvq rhotatesRight[2] ymm3
  let ymm3 := vpor ymm11 ymm3
  let ymm4 := vpxor ymm15 ymm4
  let ymm12 := vpsllvq rhotatesLeft[3] ymm4
  let ymm4 := vpsrlvq rhotatesRight[3] ymm4
  let ymm4 := vpor ymm12 ymm4
  let ymm5 := vpxor ymm15 ymm5
  let ymm13 := vpsllvq rhotatesLeft[4] ymm5
  let ymm5 := vpsrlvq rhotatesRight[4] ymm5
  let ymm5 := vpor ymm13 ymm5
  let ymm6 := vpxor ymm15 ymm6
  let ymm10 := vpermq 0b10001101 ymm2
  let ymm11 := vpermq 0b10001101 ymm3
  let ymm14 := vpsllvq rhotatesLeft[5] ymm6
  let ymm8 := vpsrlvq rhotatesRight[5] ymm6
  let ymm8 := vpor ymm14 ymm8
  let ymm1 := vpxor ymm15 ymm1
  let ymm12 := vpermq 0b00011011 ymm4
  let ymm13 := vpermq 0b01110010 ymm5
  let ymm15 := vpsllvq rhotatesLeft[1] ymm1
  let ymm9 := vpsrlvq rhotatesRight[1] ymm1
  let ymm9 := vpor ymm15 ymm9
  #v[ymm8, ymm9, ymm10, ymm11, ymm12, ymm13]

/-- Chi (KeccakP-1600-AVX2.s:494-553): the new `ymm0`, …, `ymm6`. -/
def chi (ymm0 ymm8 ymm9 ymm10 ymm11 ymm12 ymm13 : Y) : Vector Y 7 :=
  let ymm14 := vpsrldq 8 ymm8
  let ymm7 := vpandn ymm14 ymm8
  let ymm3 := vpblendd 0b00001100 ymm13 ymm9
  let ymm15 := vpblendd 0b00001100 ymm9 ymm11
  let ymm5 := vpblendd 0b00001100 ymm11 ymm10
  let ymm14 := vpblendd 0b00001100 ymm10 ymm9
  let ymm3 := vpblendd 0b00110000 ymm11 ymm3
  let ymm15 := vpblendd 0b00110000 ymm12 ymm15
  let ymm5 := vpblendd 0b00110000 ymm9 ymm5
  let ymm14 := vpblendd 0b00110000 ymm13 ymm14
  let ymm3 := vpblendd 0b11000000 ymm12 ymm3
  let ymm15 := vpblendd 0b11000000 ymm13 ymm15
  let ymm5 := vpblendd 0b11000000 ymm13 ymm5
  let ymm14 := vpblendd 0b11000000 ymm11 ymm14
  let ymm3 := vpandn ymm15 ymm3
  let ymm5 := vpandn ymm14 ymm5
  let ymm6 := vpblendd 0b00001100 ymm9 ymm12
  let ymm15 := vpblendd 0b00001100 ymm12 ymm10
  let ymm3 := vpxor ymm10 ymm3
  let ymm6 := vpblendd 0b00110000 ymm10 ymm6
  let ymm15 := vpblendd 0b00110000 ymm11 ymm15
  let ymm5 := vpxor ymm12 ymm5
  let ymm6 := vpblendd 0b11000000 ymm11 ymm6
  let ymm15 := vpblendd 0b11000000 ymm9 ymm15
  let ymm6 := vpandn ymm15 ymm6
  let ymm6 := vpxor ymm13 ymm6
  let ymm4 := vpermq 0b00011110 ymm8
  let ymm15 := vpblendd 0b00110000 ymm0 ymm4
  let ymm1 := vpermq 0b00111001 ymm8
  let ymm1 := vpblendd 0b11000000 ymm0 ymm1
  let ymm1 := vpandn ymm15 ymm1
  let ymm2 := vpblendd 0b00001100 ymm12 ymm11
  let ymm14 := vpblendd 0b00001100 ymm11 ymm13
  let ymm2 := vpblendd 0b00110000 ymm13 ymm2
  let ymm14 := vpblendd 0b00110000 ymm10 ymm14
  let ymm2 := vpblendd 0b11000000 ymm10 ymm2
  let ymm14 := vpblendd 0b11000000 ymm12 ymm14
  let ymm2 := vpandn ymm14 ymm2
  let ymm2 := vpxor ymm9 ymm2
  let ymm7 := vpermq 0b00000000 ymm7
  let ymm3 := vpermq 0b00011011 ymm3
  let ymm5 := vpermq 0b10001101 ymm5
  let ymm6 := vpermq 0b01110010 ymm6
  let ymm4 := vpblendd 0b00001100 ymm10 ymm13
  let ymm14 := vpblendd 0b00001100 ymm13 ymm12
  let ymm4 := vpblendd 0b00110000 ymm12 ymm4
  let ymm14 := vpblendd 0b00110000 ymm9 ymm14
  let ymm4 := vpblendd 0b11000000 ymm9 ymm4
  let ymm14 := vpblendd 0b11000000 ymm10 ymm14
  let ymm4 := vpandn ymm14 ymm4
  let ymm0 := vpxor ymm7 ymm0
  let ymm1 := vpxor ymm8 ymm1
  let ymm4 := vpxor ymm11 ymm4
  #v[ymm0, ymm1, ymm2, ymm3, ymm4, ymm5, ymm6]

/-- `iotas` (KeccakP-1600-AVX2.s:1075-1099). -/
def iotas : Vector Y 24 := (#v[
    #v[0x0000000000000001, 0x0000000000000001, 0x0000000000000001, 0x0000000000000001],
    #v[0x0000000000008082, 0x0000000000008082, 0x0000000000008082, 0x0000000000008082],
    #v[0x800000000000808a, 0x800000000000808a, 0x800000000000808a, 0x800000000000808a],
    #v[0x8000000080008000, 0x8000000080008000, 0x8000000080008000, 0x8000000080008000],
    #v[0x000000000000808b, 0x000000000000808b, 0x000000000000808b, 0x000000000000808b],
    #v[0x0000000080000001, 0x0000000080000001, 0x0000000080000001, 0x0000000080000001],
    #v[0x8000000080008081, 0x8000000080008081, 0x8000000080008081, 0x8000000080008081],
    #v[0x8000000000008009, 0x8000000000008009, 0x8000000000008009, 0x8000000000008009],
    #v[0x000000000000008a, 0x000000000000008a, 0x000000000000008a, 0x000000000000008a],
    #v[0x0000000000000088, 0x0000000000000088, 0x0000000000000088, 0x0000000000000088],
    #v[0x0000000080008009, 0x0000000080008009, 0x0000000080008009, 0x0000000080008009],
    #v[0x000000008000000a, 0x000000008000000a, 0x000000008000000a, 0x000000008000000a],
    #v[0x000000008000808b, 0x000000008000808b, 0x000000008000808b, 0x000000008000808b],
    #v[0x800000000000008b, 0x800000000000008b, 0x800000000000008b, 0x800000000000008b],
    #v[0x8000000000008089, 0x8000000000008089, 0x8000000000008089, 0x8000000000008089],
    #v[0x8000000000008003, 0x8000000000008003, 0x8000000000008003, 0x8000000000008003],
    #v[0x8000000000008002, 0x8000000000008002, 0x8000000000008002, 0x8000000000008002],
    #v[0x8000000000000080, 0x8000000000000080, 0x8000000000000080, 0x8000000000000080],
    #v[0x000000000000800a, 0x000000000000800a, 0x000000000000800a, 0x000000000000800a],
    #v[0x800000008000000a, 0x800000008000000a, 0x800000008000000a, 0x800000008000000a],
    #v[0x8000000080008081, 0x8000000080008081, 0x8000000080008081, 0x8000000080008081],
    #v[0x8000000000008080, 0x8000000000008080, 0x8000000000008080, 0x8000000000008080],
    #v[0x0000000080000001, 0x0000000080000001, 0x0000000080000001, 0x0000000080000001],
    #v[0x8000000080008008, 0x8000000080008008, 0x8000000080008008, 0x8000000080008008]] : Vector (Vector W64 4) 24).map quads

/-- The registers `ymm0`, …, `ymm6` that hold the state. -/
abbrev Regs := Vector Y 7

/-- One iteration of `.Loop_avx2` (KeccakP-1600-AVX2.s:425-560); `iota` is the row at `%r10`. -/
def round (iota : Y) (s : Regs) : Regs :=
  let t := theta s[0] s[1] s[2] s[3] s[4] s[5] s[6]
  let b := rhoPi s[1] t.2.1 s[3] s[4] s[5] s[6] t.2.2
  let c := chi t.1 b[0] b[1] b[2] b[3] b[4] b[5]
  c.set 0 (vpxor iota c[0])

/-- `__KeccakF1600` (KeccakP-1600-AVX2.s:424-561) with `%r10 = iotas`, `%eax = 24`. -/
def keccakF1600 (s : Regs) : Regs := iotas.toList.foldl (fun s iota => round iota s) s

/-! ## The state in memory -/

/-- The 200 bytes at `%rdi`, as 64-bit words. -/
abbrev Mem := Vector W64 25

/-- `vpbroadcastq -96(%rdi), %ymm0`, `vmovdqu 8+32*0-96(%rdi), %ymm1`, … (lines 586-592; `%rdi` points 96 bytes into the state). -/
def loadState (m : Mem) : Regs := #v[
  fun _ => m[0],
  fun l => m[1 + 4 * 0 + l.val],
  fun l => m[1 + 4 * 1 + l.val],
  fun l => m[1 + 4 * 2 + l.val],
  fun l => m[1 + 4 * 3 + l.val],
  fun l => m[1 + 4 * 4 + l.val],
  fun l => m[1 + 4 * 5 + l.val]]

/-- `vmovq %xmm0, -96(%rdi)`, `vmovdqu %ymm1, 8+32*0-96(%rdi)`, … (lines 594-600). -/
def storeState (s : Regs) : Mem := #v[
  s[0] 0,
  s[1] 0, s[1] 1, s[1] 2, s[1] 3,
  s[2] 0, s[2] 1, s[2] 2, s[2] 3,
  s[3] 0, s[3] 1, s[3] 2, s[3] 3,
  s[4] 0, s[4] 1, s[4] 2, s[4] 3,
  s[5] 0, s[5] 1, s[5] 2, s[5] 3,
  s[6] 0, s[6] 1, s[6] 2, s[6] 3]

/-- `KeccakP1600_Permute_24rounds` (KeccakP-1600-AVX2.s:580-602). -/
def permute (m : Mem) : Mem := storeState (keccakF1600 (loadState m))

/-- `KeccakP1600_Initialize` (lines 35-43): six stores of 32 bytes and one of 8. -/
def init : Mem := Vector.replicate 25 0

/-- `mapState` (lines 1101-1106): where in memory lane `x + 5 y` is, in bytes. -/
def mapState : Vector Nat 25 := #v[
  0*8, 1*8, 2*8, 3*8, 4*8,
  7*8, 21*8, 10*8, 15*8, 20*8,
  5*8, 13*8, 22*8, 19*8, 12*8,
  8*8, 9*8, 18*8, 23*8, 16*8,
  6*8, 17*8, 14*8, 11*8, 24*8]

/-- The quad word `i` of `mapState`; reading behind the table is not defined. -/
def mapAt (i : Nat) : M Nat := if h : i < 25 then .ok mapState[i] else .error .ub

/-- `xorb b, p(%rdi)`. -/
def xorb (m : Mem) (b : Byte) (p : Nat) : M Mem :=
  if h : p / 8 < 25 then .ok (m.set (p / 8) (m[p / 8] ^^^ (b.setWidth 64 <<< (8 * (p % 8))))) else .error .ub

/-- `xor x, p(%rdi)` for a multiple `p` of 8, which all values of `mapState` are. -/
def xorq (m : Mem) (x : W64) (p : Nat) : M Mem := if h : p / 8 < 25 then .ok (m.set (p / 8) (m[p / 8] ^^^ x)) else .error .ub

/-- `mov p(%rdi), r` for one byte. -/
def movb (m : Mem) (p : Nat) : M Byte := if h : p / 8 < 25 then .ok (byteOf m[p / 8] (p % 8)) else .error .ub

/-- `mov p(%rdi), r` for a quad word at a multiple of 8. -/
def movq (m : Mem) (p : Nat) : M W64 := if h : p / 8 < 25 then .ok m[p / 8] else .error .ub

/-- `KeccakP1600_AddByte` (lines 65-73). -/
def addByte (m : Mem) (b : Byte) (offset : Nat) : M Mem := do
  let p ← mapAt (offset / 8)
  xorb m b (p + offset % 8)

/-- The loops `NotAlignedLoop` and `LastIncompleteLaneLoop` of `KeccakP1600_AddBytes` (lines 111-117, 134-140): one byte after the other. -/
def xorBytes (m : Mem) : Bytes → Nat → M Mem
  | [], _ => .ok m
  | b :: bs, p => do
    let m ← xorb m b p
    xorBytes m bs (p + 1)

/-- `LaneAlignedLoop` and `LastIncompleteLane` (lines 119-140); `i` is the index into `mapState`. Every iteration consumes data; `fuel = length` suffices. -/
def addLanes : Nat → Mem → Bytes → Nat → M Mem
  | 0, m, _, _ => .ok m
  | fuel + 1, m, data, i =>
    if data.length ≥ 8 then do
      let p ← mapAt i
      let m ← xorq m (le64 (data.take 8)) p
      addLanes fuel m (data.drop 8) (i + 1)
    else if data.length = 0 then .ok m
    else do
      let p ← mapAt i
      xorBytes m data p

/-- `KeccakP1600_AddBytes` (lines 95-142), `length = data.length`. -/
def addBytes (m : Mem) (data : Bytes) (offset : Nat) : M Mem :=
  if data.length = 0 then .ok m
  else if offset % 8 = 0 then addLanes data.length m data (offset / 8)
  else do
    let n := if 8 - offset % 8 ≥ data.length then data.length else 8 - offset % 8
    let p ← mapAt (offset / 8)
    let m ← xorBytes m (data.take n) (offset % 8 + p)
    addLanes data.length m (data.drop n) (offset / 8 + 1)

/-- `NotAlignedLoop` of `KeccakP1600_ExtractBytes` (lines 296-302). -/
def movBytes (m : Mem) : Nat → Nat → M Bytes
  | 0, _ => .ok []
  | n + 1, p => do
    let b ← movb m p
    let rest ← movBytes m n (p + 1)
    .ok (b :: rest)

/-- `LastIncompleteLaneLoop` of `KeccakP1600_ExtractBytes` (lines 320-325): the low byte of `%r8`, then `shr $8, %r8`. -/
def lowBytes : Nat → W64 → Bytes
  | 0, _ => []
  | n + 1, r8 => r8.setWidth 8 :: lowBytes n (r8 >>> 8)

/-- `LaneAlignedLoop` and `LastIncompleteLane` of `KeccakP1600_ExtractBytes` (lines 304-325); `len` is `%rcx`. -/
def extractLanes (m : Mem) : Nat → Nat → Nat → M Bytes
  | 0, _, _ => .ok []
  | fuel + 1, i, len =>
    if len ≥ 8 then do
      let p ← mapAt i
      let r8 ← movq m p
      let rest ← extractLanes m fuel (i + 1) (len - 8)
      .ok (lowBytes 8 r8 ++ rest)
    else if len = 0 then .ok []
    else do
      let p ← mapAt i
      let r8 ← movq m p
      .ok (lowBytes len r8)

/-- `KeccakP1600_ExtractBytes` (lines 278-328). -/
def extractBytes (m : Mem) (offset len : Nat) : M Bytes :=
  if len = 0 then .ok []
  else if offset % 8 = 0 then extractLanes m len (offset / 8) len
  else do
    let n := if 8 - offset % 8 ≥ len then len else 8 - offset % 8
    let p ← mapAt (offset / 8)
    let out ← movBytes m n (p + offset % 8)
    let rest ← extractLanes m len (offset / 8 + 1) (len - n)
    .ok (out ++ rest)

/-! ## `KeccakF1600_FastLoop_Absorb` -/

/-- A quad word of the data at byte `k`; a read behind the data is not defined. -/
def load (data : Bytes) (k : Nat) : M W64 := if k + 8 ≤ data.length then .ok (le64 ((data.drop k).take 8)) else .error .ub

/-- `vmovdqu k(%rdx), ymm`. -/
def loadY (data : Bytes) (k : Nat) : M Y := do
  let a ← load data k
  let b ← load data (k + 8)
  let c ← load data (k + 16)
  let d ← load data (k + 24)
  .ok fun l => #v[a, b, c, d][l]

/-- One word of `vpgatherdq`: loaded if the top bit of the mask is set, otherwise that of the destination. -/
def gather1 (data : Bytes) (mask : W64) (k : Nat) (dst : W64) : M W64 := if mask.msb then load data k else .ok dst

/-- `vpgatherdq mask, (%rdx, map, 1), dst`. -/
def gather (data : Bytes) (mask : Y) (map : Vector Nat 4) (dst : Y) : M Y := do
  let a ← gather1 data (mask 0) map[0] (dst 0)
  let b ← gather1 data (mask 1) map[1] (dst 1)
  let c ← gather1 data (mask 2) map[2] (dst 2)
  let d ← gather1 data (mask 3) map[3] (dst 3)
  .ok fun l => #v[a, b, c, d][l]

/-- `ALLON` (line 1054). -/
abbrev ALLON : W64 := 0xFFFFFFFFFFFFFFFF

/-- `map2`, …, `map6` (lines 1113-1122). -/
def map2 : Vector Nat 4 := #v[10*8, 20*8, 5*8, 15*8]
@[inherit_doc map2] def map3 : Vector Nat 4 := #v[16*8, 7*8, 23*8, 14*8]
@[inherit_doc map2] def map4 : Vector Nat 4 := #v[11*8, 22*8, 8*8, 19*8]
@[inherit_doc map2] def map5 : Vector Nat 4 := #v[21*8, 17*8, 13*8, 9*8]
@[inherit_doc map2] def map6 : Vector Nat 4 := #v[6*8, 12*8, 18*8, 24*8]

/-- `mask3_21`, …, `mask6_21` (lines 1129-1136). -/
def mask3_21 : Y := quads #v[ALLON, ALLON, 0, ALLON]
@[inherit_doc mask3_21] def mask4_21 : Y := quads #v[ALLON, 0, ALLON, ALLON]
@[inherit_doc mask3_21] def mask5_21 : Y := quads #v[0, ALLON, ALLON, ALLON]
@[inherit_doc mask3_21] def mask6_21 : Y := quads #v[ALLON, ALLON, ALLON, 0]

/-- `mask2_17`, …, `mask6_17` (lines 1138-1147). -/
def mask2_17 : Y := quads #v[ALLON, 0, ALLON, ALLON]
@[inherit_doc mask2_17] def mask3_17 : Y := quads #v[ALLON, ALLON, 0, ALLON]
@[inherit_doc mask2_17] def mask4_17 : Y := quads #v[ALLON, 0, ALLON, 0]
@[inherit_doc mask2_17] def mask5_17 : Y := quads #v[0, 0, ALLON, ALLON]
@[inherit_doc mask2_17] def mask6_17 : Y := quads #v[ALLON, ALLON, 0, 0]

/-- All bits set, `vpcmpeqd %ymm14, %ymm14, %ymm14`. -/
def ones : Y := fun _ => ALLON

/-- `vpxor a, a, a`. -/
def zero : Y := fun _ => 0

/-- One block of 21 or 17 lanes in the registers: lines 725-758 with the masks `ones, mask3_21, …`, lines 795-829 with `mask2_17, mask3_17, …`. (With the mask `ones` the destination of the gather is
overwritten completely.) -/
def absorbBlock (mask2 mask3 mask4 mask5 mask6 : Y) (s : Regs) (data : Bytes) : M Regs := do
  let d0 ← load data 0
  let ymm7 : Y := fun _ => d0
  let ymm8 ← loadY data 8
  let ymm9 ← gather data mask2 map2 zero
  let ymm10 ← gather data mask3 map3 zero
  let ymm11 ← gather data mask4 map4 zero
  let ymm12 ← gather data mask5 map5 zero
  let ymm13 ← gather data mask6 map6 zero
  .ok #v[vpxor ymm7 s[0], vpxor ymm8 s[1], vpxor ymm9 s[2], vpxor ymm10 s[3], vpxor ymm11 s[4], vpxor ymm12 s[5], vpxor ymm13 s[6]]

/-- `Loop21Lanes` (lines 724-764; `rate = 21`) and `Loop17Lanes` (lines 794-835; `rate = 17`), entered with at least `rate` lanes of data; `rcx` is the number of lanes that remain after this block.
Returns the registers and the rest of the data. Every iteration consumes lanes; `fuel = rcx` suffices. -/
def blockLoop (add : Regs → Bytes → M Regs) (rate : Nat) : Nat → Regs → Bytes → Nat → M (Regs × Bytes)
  | fuel, s, data, rcx => do
    let s ← add s data
    let s := keccakF1600 s
    let data := data.drop (rate * 8)
    if rcx < rate then .ok (s, data)
    else match fuel with
      | 0 => .error .fuel
      | fuel + 1 => blockLoop add rate fuel s data (rcx - rate)

/-- `LanesAddLoop` (lines 840-848): `i` is the index into `mapState`, `k` counts `%rax` down. -/
def lanesAddLoop (m : Mem) (data : Bytes) (i : Nat) : Nat → M Mem
  | 0 => .ok m
  | k + 1 => do
    let r8 ← load data (8 * i)
    let p ← mapAt i
    let m ← xorq m r8 p
    lanesAddLoop m data (i + 1) k

/-- `Not17Lanes` (lines 837-865), entered with `rcx ≥ rsi` lanes of data. For `rsi = 0` the loop counts `%rax` down from 2^64 and leaves all memory. -/
def lanesLoop (rsi : Nat) : Nat → Mem → Bytes → Nat → M (Mem × Bytes)
  | fuel, m, data, rcx =>
    if rsi = 0 then .error .ub
    else do
      let m ← lanesAddLoop m data 0 rsi
      let m := permute m
      let data := data.drop (rsi * 8)
      if rcx - rsi < rsi then .ok (m, data)
      else match fuel with
        | 0 => .error .fuel
        | fuel + 1 => lanesLoop rsi fuel m data (rcx - rsi)

/-- `KeccakF1600_FastLoop_Absorb(state, laneCount, data, dataByteLen)` (KeccakP-1600-AVX2.s:704-865): the state and the number of bytes absorbed. -/
def fastLoopAbsorb (m : Mem) (laneCount : Nat) (data : Bytes) : M (Mem × Nat) := do
  let rcx := data.length / 8
  if rcx < laneCount then .ok (m, 0)
  else if laneCount = 21 then do
    let r ← blockLoop (absorbBlock ones mask3_21 mask4_21 mask5_21 mask6_21) 21 rcx (loadState m) data (rcx - 21)
    .ok (storeState r.1, data.length - r.2.length)
  else if laneCount = 17 then do
    let r ← blockLoop (absorbBlock mask2_17 mask3_17 mask4_17 mask5_17 mask6_17) 17 rcx (loadState m) data (rcx - 17)
    .ok (storeState r.1, data.length - r.2.length)
  else do
    let r ← lanesLoop laneCount rcx m data rcx
    .ok (r.1, data.length - r.2.length)

/-- What KeccakSponge.c:20-28 selects in a build with `USE_AVX2=ON` (keccak/CMakeLists.txt:21-25). -/
def snp : SnP where
  State := Mem
  init := init
  addByte := addByte
  addBytes := addBytes
  extractBytes := extractBytes
  permute := permute
  fastLoop := fastLoopAbsorb

end Banquet.Avx2
