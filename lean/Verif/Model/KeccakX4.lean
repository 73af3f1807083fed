import Verif.Model.Keccak64

/-! Model of keccak/avx2/KeccakP-1600-times4-SIMD256.c: four Keccak-p[1600] states side by side in 256-bit vectors (with SIMD256-config.h, KeccakP-1600-times4-SnP.h and
KeccakP-1600-unrolling.macros; `KeccakP1600times4_fullUnrolling` and `KeccakP1600times4_useAVX2` are defined). This is what a build with `USE_AVX2=ON`, the default except for MSVC, uses for 4-way hashing.
The bodies of the round macros are transcribed statement by statement; an intrinsic is modelled by the function that the Intel intrinsics guide gives for it. -/

namespace Banquet.X4

open Opt64 (byteOf le64)

/-- `__m256i` as four 64-bit words, the lowest first. -/
abbrev V256 := Fin 4 → W64

/-- The local variables `Aba … Asu`, or `V256 states[25]` in memory: word `l` of vector `i` is `((uint64_t *)states)[4 * i + l]`. -/
abbrev Regs := Vector V256 25

/-- `_mm256_xor_si256` (KeccakP-1600-times4-SIMD256.c:69). -/
def xor256 (a b : V256) : V256 := fun l => a l ^^^ b l

/-- `_mm256_andnot_si256` (line 51): the first operand is complemented. -/
def andnot256 (a b : V256) : V256 := fun l => ~~~ a l &&& b l

/-- `_mm256_or_si256`. -/
def or256 (a b : V256) : V256 := fun l => a l ||| b l

/-- `_mm256_slli_epi64`. -/
def slli (a : V256) (n : Nat) : V256 := fun l => a l <<< n

/-- `_mm256_srli_epi64`. -/
def srli (a : V256) (n : Nat) : V256 := fun l => a l >>> n

/-- `_mm256_set1_epi64x` (line 53). -/
def set1 (a : W64) : V256 := fun _ => a

/-- Byte `j` of a vector. -/
def byteAt (a : V256) (j : Nat) : Byte := byteOf (a (Fin.ofNat 4 (j / 8))) (j % 8)

/-- `_mm256_shuffle_epi8`: byte `j` of the result is 0 if the top bit of byte `j` of the control is set, otherwise it is the byte of the same 128-bit half that its low 4 bits select. -/
def shuffleEpi8 (a ctl : V256) : V256 := fun l => le64 ((List.range 8).map fun k =>
  let j := 8 * l.val + k
  let c := byteAt ctl j
  if c.msb then 0 else byteAt a (16 * (j / 16) + c.toNat % 16))

/-- `ROL64in256` (lines 58-59). -/
def rol64in256 (a : V256) (o : Nat) : V256 := or256 (slli a o) (srli a (64 - o))

/-- `rho8` (lines 62-63). -/
def rho8 : V256 := fun l => #v[0x0605040302010007, 0x0E0D0C0B0A09080F, 0x1615141312111017, 0x1E1D1C1B1A19181F][l]

/-- `rho56` (lines 64-65). -/
def rho56 : V256 := fun l => #v[0x0007060504030201, 0x080F0E0D0C0B0A09, 0x1017161514131211, 0x181F1E1D1C1B1A19][l]

/-- `ROL64in256_8` (line 60). -/
def rol64in256_8 (a : V256) : V256 := shuffleEpi8 a rho8

/-- `ROL64in256_56` (line 61). -/
def rol64in256_56 (a : V256) : V256 := shuffleEpi8 a rho56

/-- `KeccakF1600RoundConstants` (lines 750-759). -/
def roundConstants : Vector W64 24 := #v[
  0x0000000000000001, 0x0000000000008082, 0x800000000000808a,
  0x8000000080008000, 0x000000000000808b, 0x0000000080000001,
  0x8000000080008081, 0x8000000000008009, 0x000000000000008a,
  0x0000000000000088, 0x0000000080008009, 0x000000008000000a,
  0x000000008000808b, 0x800000000000008b, 0x8000000000008089,
  0x8000000000008003, 0x8000000000008002, 0x8000000000000080,
  0x000000000000800a, 0x800000008000000a, 0x8000000080008081,
  0x8000000000008080, 0x0000000080000001, 0x8000000080008008]

/-- `prepareTheta` (KeccakP-1600-times4-SIMD256.c:528-533): `Ca, Ce, Ci, Co, Cu`. The variables `Aba … Asu` are the entries 0 … 24 of `A`, as in `copyFromState` (lines 761-786). -/
def prepareTheta (A : Regs) : Vector V256 5 :=
  let Aba := A[0]
  let Abe := A[1]
  let Abi := A[2]
  let Abo := A[3]
  let Abu := A[4]
  let Aga := A[5]
  let Age := A[6]
  let Agi := A[7]
  let Ago := A[8]
  let Agu := A[9]
  let Aka := A[10]
  let Ake := A[11]
  let Aki := A[12]
  let Ako := A[13]
  let Aku := A[14]
  let Ama := A[15]
  let Ame := A[16]
  let Ami := A[17]
  let Amo := A[18]
  let Amu := A[19]
  let Asa := A[20]
  let Ase := A[21]
  let Asi := A[22]
  let Aso := A[23]
  let Asu := A[24]
  let Ca := xor256 Aba (xor256 Aga (xor256 Aka (xor256 Ama Asa)))
  let Ce := xor256 Abe (xor256 Age (xor256 Ake (xor256 Ame Ase)))
  let Ci := xor256 Abi (xor256 Agi (xor256 Aki (xor256 Ami Asi)))
  let Co := xor256 Abo (xor256 Ago (xor256 Ako (xor256 Amo Aso)))
  let Cu := xor256 Abu (xor256 Agu (xor256 Aku (xor256 Amu Asu)))
  #v[Ca, Ce, Ci, Co, Cu]

/-- `thetaRhoPiChiIotaPrepareTheta(i, A, E)` (KeccakP-1600-times4-SIMD256.c:537-653) with `rc = KeccakF1600RoundConstants[i]`: the lanes `E` and the new `C`. -/
def roundPrepare (rc : W64) (A : Regs) (C : Vector V256 5) : Regs × Vector V256 5 :=
  let Aba := A[0]
  let Abe := A[1]
  let Abi := A[2]
  let Abo := A[3]
  let Abu := A[4]
  let Aga := A[5]
  let Age := A[6]
  let Agi := A[7]
  let Ago := A[8]
  let Agu := A[9]
  let Aka := A[10]
  let Ake := A[11]
  let Aki := A[12]
  let Ako := A[13]
  let Aku := A[14]
  let Ama := A[15]
  let Ame := A[16]
  let Ami := A[17]
  let Amo := A[18]
  let Amu := A[19]
  let Asa := A[20]
  let Ase := A[21]
  let Asi := A[22]
  let Aso := A[23]
  let Asu := A[24]
  let Ca := C[0]
  let Ce := C[1]
  let Ci := C[2]
  let Co := C[3]
  let Cu := C[4]
  let Ce1 := rol64in256 Ce 1
  let Da := xor256 Cu Ce1
  let Ci1 := rol64in256 Ci 1
  let De := xor256 Ca Ci1
  let Co1 := rol64in256 Co 1
  let Di := xor256 Ce Co1
  let Cu1 := rol64in256 Cu 1
  let Do := xor256 Ci Cu1
  let Ca1 := rol64in256 Ca 1
  let Du := xor256 Co Ca1
  let Aba := xor256 Aba Da
  let Bba := Aba
  let Age := xor256 Age De
  let Bbe := rol64in256 Age 44
  let Aki := xor256 Aki Di
  let Bbi := rol64in256 Aki 43
  let Eba := xor256 Bba (andnot256 Bbe Bbi)
  let Eba := xor256 Eba (set1 rc)
  let Ca := Eba
  let Amo := xor256 Amo Do
  let Bbo := rol64in256 Amo 21
  let Ebe := xor256 Bbe (andnot256 Bbi Bbo)
  let Ce := Ebe
  let Asu := xor256 Asu Du
  let Bbu := rol64in256 Asu 14
  let Ebi := xor256 Bbi (andnot256 Bbo Bbu)
  let Ci := Ebi
  let Ebo := xor256 Bbo (andnot256 Bbu Bba)
  let Co := Ebo
  let Ebu := xor256 Bbu (andnot256 Bba Bbe)
  let Cu := Ebu
  let Abo := xor256 Abo Do
  let Bga := rol64in256 Abo 28
  let Agu := xor256 Agu Du
  let Bge := rol64in256 Agu 20
  let Aka := xor256 Aka Da
  let Bgi := rol64in256 Aka 3
  let Ega := xor256 Bga (andnot256 Bge Bgi)
  let Ca := xor256 Ca Ega
  let Ame := xor256 Ame De
  let Bgo := rol64in256 Ame 45
  let Ege := xor256 Bge (andnot256 Bgi Bgo)
  let Ce := xor256 Ce Ege
  let Asi := xor256 Asi Di
  let Bgu := rol64in256 Asi 61
  let Egi := xor256 Bgi (andnot256 Bgo Bgu)
  let Ci := xor256 Ci Egi
  let Ego := xor256 Bgo (andnot256 Bgu Bga)
  let Co := xor256 Co Ego
  let Egu := xor256 Bgu (andnot256 Bga Bge)
  let Cu := xor256 Cu Egu
  let Abe := xor256 Abe De
  let Bka := rol64in256 Abe 1
  let Agi := xor256 Agi Di
  let Bke := rol64in256 Agi 6
  let Ako := xor256 Ako Do
  let Bki := rol64in256 Ako 25
  let Eka := xor256 Bka (andnot256 Bke Bki)
  let Ca := xor256 Ca Eka
  let Amu := xor256 Amu Du
  let Bko := rol64in256_8 Amu
  let Eke := xor256 Bke (andnot256 Bki Bko)
  let Ce := xor256 Ce Eke
  let Asa := xor256 Asa Da
  let Bku := rol64in256 Asa 18
  let Eki := xor256 Bki (andnot256 Bko Bku)
  let Ci := xor256 Ci Eki
  let Eko := xor256 Bko (andnot256 Bku Bka)
  let Co := xor256 Co Eko
  let Eku := xor256 Bku (andnot256 Bka Bke)
  let Cu := xor256 Cu Eku
  let Abu := xor256 Abu Du
  let Bma := rol64in256 Abu 27
  let Aga := xor256 Aga Da
  let Bme := rol64in256 Aga 36
  let Ake := xor256 Ake De
  let Bmi := rol64in256 Ake 10
  let Ema := xor256 Bma (andnot256 Bme Bmi)
  let Ca := xor256 Ca Ema
  let Ami := xor256 Ami Di
  let Bmo := rol64in256 Ami 15
  let Eme := xor256 Bme (andnot256 Bmi Bmo)
  let Ce := xor256 Ce Eme
  let Aso := xor256 Aso Do
  let Bmu := rol64in256_56 Aso
  let Emi := xor256 Bmi (andnot256 Bmo Bmu)
  let Ci := xor256 Ci Emi
  let Emo := xor256 Bmo (andnot256 Bmu Bma)
  let Co := xor256 Co Emo
  let Emu := xor256 Bmu (andnot256 Bma Bme)
  let Cu := xor256 Cu Emu
  let Abi := xor256 Abi Di
  let Bsa := rol64in256 Abi 62
  let Ago := xor256 Ago Do
  let Bse := rol64in256 Ago 55
  let Aku := xor256 Aku Du
  let Bsi := rol64in256 Aku 39
  let Esa := xor256 Bsa (andnot256 Bse Bsi)
  let Ca := xor256 Ca Esa
  let Ama := xor256 Ama Da
  let Bso := rol64in256 Ama 41
  let Ese := xor256 Bse (andnot256 Bsi Bso)
  let Ce := xor256 Ce Ese
  let Ase := xor256 Ase De
  let Bsu := rol64in256 Ase 2
  let Esi := xor256 Bsi (andnot256 Bso Bsu)
  let Ci := xor256 Ci Esi
  let Eso := xor256 Bso (andnot256 Bsu Bsa)
  let Co := xor256 Co Eso
  let Esu := xor256 Bsu (andnot256 Bsa Bse)
  let Cu := xor256 Cu Esu
  (#v[Eba, Ebe, Ebi, Ebo, Ebu,
    Ega, Ege, Egi, Ego, Egu,
    Eka, Eke, Eki, Eko, Eku,
    Ema, Eme, Emi, Emo, Emu,
    Esa, Ese, Esi, Eso, Esu],
   #v[Ca, Ce, Ci, Co, Cu])

/-- `thetaRhoPiChiIota(i, A, E)` (KeccakP-1600-times4-SIMD256.c:657-748). -/
def roundLast (rc : W64) (A : Regs) (C : Vector V256 5) : Regs :=
  let Aba := A[0]
  let Abe := A[1]
  let Abi := A[2]
  let Abo := A[3]
  let Abu := A[4]
  let Aga := A[5]
  let Age := A[6]
  let Agi := A[7]
  let Ago := A[8]
  let Agu := A[9]
  let Aka := A[10]
  let Ake := A[11]
  let Aki := A[12]
  let Ako := A[13]
  let Aku := A[14]
  let Ama := A[15]
  let Ame := A[16]
  let Ami := A[17]
  let Amo := A[18]
  let Amu := A[19]
  let Asa := A[20]
  let Ase := A[21]
  let Asi := A[22]
  let Aso := A[23]
  let Asu := A[24]
  let Ca := C[0]
  let Ce := C[1]
  let Ci := C[2]
  let Co := C[3]
  let Cu := C[4]
  let Ce1 := rol64in256 Ce 1
  let Da := xor256 Cu Ce1
  let Ci1 := rol64in256 Ci 1
  let De := xor256 Ca Ci1
  let Co1 := rol64in256 Co 1
  let Di := xor256 Ce Co1
  let Cu1 := rol64in256 Cu 1
  let Do := xor256 Ci Cu1
  let Ca1 := rol64in256 Ca 1
  let Du := xor256 Co Ca1
  let Aba := xor256 Aba Da
  let Bba := Aba
  let Age := xor256 Age De
  let Bbe := rol64in256 Age 44
  let Aki := xor256 Aki Di
  let Bbi := rol64in256 Aki 43
  let Eba := xor256 Bba (andnot256 Bbe Bbi)
  let Eba := xor256 Eba (set1 rc)
  let Amo := xor256 Amo Do
  let Bbo := rol64in256 Amo 21
  let Ebe := xor256 Bbe (andnot256 Bbi Bbo)
  let Asu := xor256 Asu Du
  let Bbu := rol64in256 Asu 14
  let Ebi := xor256 Bbi (andnot256 Bbo Bbu)
  let Ebo := xor256 Bbo (andnot256 Bbu Bba)
  let Ebu := xor256 Bbu (andnot256 Bba Bbe)
  let Abo := xor256 Abo Do
  let Bga := rol64in256 Abo 28
  let Agu := xor256 Agu Du
  let Bge := rol64in256 Agu 20
  let Aka := xor256 Aka Da
  let Bgi := rol64in256 Aka 3
  let Ega := xor256 Bga (andnot256 Bge Bgi)
  let Ame := xor256 Ame De
  let Bgo := rol64in256 Ame 45
  let Ege := xor256 Bge (andnot256 Bgi Bgo)
  let Asi := xor256 Asi Di
  let Bgu := rol64in256 Asi 61
  let Egi := xor256 Bgi (andnot256 Bgo Bgu)
  let Ego := xor256 Bgo (andnot256 Bgu Bga)
  let Egu := xor256 Bgu (andnot256 Bga Bge)
  let Abe := xor256 Abe De
  let Bka := rol64in256 Abe 1
  let Agi := xor256 Agi Di
  let Bke := rol64in256 Agi 6
  let Ako := xor256 Ako Do
  let Bki := rol64in256 Ako 25
  let Eka := xor256 Bka (andnot256 Bke Bki)
  let Amu := xor256 Amu Du
  let Bko := rol64in256_8 Amu
  let Eke := xor256 Bke (andnot256 Bki Bko)
  let Asa := xor256 Asa Da
  let Bku := rol64in256 Asa 18
  let Eki := xor256 Bki (andnot256 Bko Bku)
  let Eko := xor256 Bko (andnot256 Bku Bka)
  let Eku := xor256 Bku (andnot256 Bka Bke)
  let Abu := xor256 Abu Du
  let Bma := rol64in256 Abu 27
  let Aga := xor256 Aga Da
  let Bme := rol64in256 Aga 36
  let Ake := xor256 Ake De
  let Bmi := rol64in256 Ake 10
  let Ema := xor256 Bma (andnot256 Bme Bmi)
  let Ami := xor256 Ami Di
  let Bmo := rol64in256 Ami 15
  let Eme := xor256 Bme (andnot256 Bmi Bmo)
  let Aso := xor256 Aso Do
  let Bmu := rol64in256_56 Aso
  let Emi := xor256 Bmi (andnot256 Bmo Bmu)
  let Emo := xor256 Bmo (andnot256 Bmu Bma)
  let Emu := xor256 Bmu (andnot256 Bma Bme)
  let Abi := xor256 Abi Di
  let Bsa := rol64in256 Abi 62
  let Ago := xor256 Ago Do
  let Bse := rol64in256 Ago 55
  let Aku := xor256 Aku Du
  let Bsi := rol64in256 Aku 39
  let Esa := xor256 Bsa (andnot256 Bse Bsi)
  let Ama := xor256 Ama Da
  let Bso := rol64in256 Ama 41
  let Ese := xor256 Bse (andnot256 Bsi Bso)
  let Ase := xor256 Ase De
  let Bsu := rol64in256 Ase 2
  let Esi := xor256 Bsi (andnot256 Bso Bsu)
  let Eso := xor256 Bso (andnot256 Bsu Bsa)
  let Esu := xor256 Bsu (andnot256 Bsa Bse)
  #v[Eba, Ebe, Ebi, Ebo, Ebu,
    Ega, Ege, Egi, Ego, Egu,
    Eka, Eke, Eki, Eko, Eku,
    Ema, Eme, Emi, Emo, Emu,
    Esa, Ese, Esi, Eso, Esu]

/-- `rounds24` (avx2/KeccakP-1600-unrolling.macros:18-43): `prepareTheta`, the rounds 0 … 22 with `PrepareTheta`, round 23 without. The code alternates between the variables `A…` and `E…`. -/
def rounds24 (A : Regs) : Regs :=
  let r := (List.finRange 23).foldl (fun (s : Regs × Vector V256 5) i => roundPrepare roundConstants[i.val] s.1 s.2) (A, prepareTheta A)
  roundLast roundConstants[23] r.1 r.2

/-- `KeccakP1600times4_PermuteAll_24rounds` (KeccakP-1600-times4-SIMD256.c:849-858); `copyFromState` and `copyToState` (lines 761-813) load and store the vectors in order. -/
def permute (s : Regs) : Regs := rounds24 s

/-! ## Access to the states -/

/-- `laneIndex(instanceIndex, lanePosition)` (lines 47-48). -/
def laneIndex (l : Fin 4) (pos : Nat) : Nat := pos * 4 + l.val

/-- `((uint64_t *)states)[i]`, read. -/
def getWord (s : Regs) (i : Nat) : M W64 := if h : i / 4 < 25 then .ok (s[i / 4] (Fin.ofNat 4 (i % 4))) else .error .ub

/-- `((uint64_t *)states)[i] ^= x`. -/
def xorWord (s : Regs) (i : Nat) (x : W64) : M Regs :=
  if h : i / 4 < 25 then .ok (s.set (i / 4) fun j => if j.val = i % 4 then s[i / 4] j ^^^ x else s[i / 4] j) else .error .ub

/-- `statesAsLanes[laneIndex(instanceIndex, lanePosition)] ^= lane`. -/
def xorLane (s : Regs) (l : Fin 4) (pos : Nat) (lane : W64) : M Regs := xorWord s (laneIndex l pos) lane

/-- `KeccakP1600times4_InitializeAll` (lines 99-102). -/
def init : Regs := Vector.replicate 25 fun _ => 0

/-- `KeccakP1600times4_AddByte` (KeccakP-1600-times4-SnP.h:37-38): `((unsigned char *)states)[instanceIndex * 8 + (offset / 8) * 4 * 8 + offset % 8] ^= byte`. -/
def addByte (s : Regs) (l : Fin 4) (b : Byte) (offset : Nat) : M Regs :=
  let i := l.val * 8 + offset / 8 * 4 * 8 + offset % 8
  xorWord s (i / 8) (b.setWidth 64 <<< (8 * (i % 8)))

/-- `while (sizeLeft >= SnP_laneLengthInBytes)` of `AddBytes` (lines 126-132) and the incomplete lane after it (lines 134-138). Every iteration consumes data; `fuel = length` suffices. -/
def addBytesLoop (l : Fin 4) : Nat → Regs → Bytes → Nat → M Regs
  | 0, s, _, _ => .ok s
  | fuel + 1, s, data, pos =>
    if data.length ≥ 8 then do
      let s ← xorLane s l pos (le64 (data.take 8))
      addBytesLoop l fuel s (data.drop 8) (pos + 1)
    else if data.length > 0 then xorLane s l pos (le64 data)
    else .ok s

/-- `KeccakP1600times4_AddBytes` (lines 104-139), `length = data.length`. The copy to `(unsigned char *)&lane + offsetInLane` puts the bytes `8 * offsetInLane` bits higher. -/
def addBytes (s : Regs) (l : Fin 4) (data : Bytes) (offset : Nat) : M Regs := do
  let pos := offset / 8
  let offsetInLane := offset % 8
  if data.length > 0 ∧ offsetInLane ≠ 0 then do
    let n := if 8 - offsetInLane > data.length then data.length else 8 - offsetInLane
    let s ← xorLane s l pos (le64 (data.take n) <<< (8 * offsetInLane))
    addBytesLoop l data.length s (data.drop n) (pos + 1)
  else addBytesLoop l data.length s data pos

/-- `memcpy(curData, (unsigned char *)&statesAsLanes[…] + from, n)` with `from + n ≤ 8`. -/
def copyLane (s : Regs) (l : Fin 4) (pos start n : Nat) : M Bytes := do
  let w ← getWord s (laneIndex l pos)
  .ok ((List.range n).map fun i => byteOf w (start + i))

/-- The loop of `ExtractBytes` (lines 326-332) and the incomplete lane after it (lines 334-337); `len` is `sizeLeft`. -/
def extractLoop (s : Regs) (l : Fin 4) : Nat → Nat → Nat → M Bytes
  | 0, _, _ => .ok []
  | fuel + 1, pos, len =>
    if len ≥ 8 then do
      let out ← copyLane s l pos 0 8
      let rest ← extractLoop s l fuel (pos + 1) (len - 8)
      .ok (out ++ rest)
    else if len > 0 then copyLane s l pos 0 len
    else .ok []

/-- `KeccakP1600times4_ExtractBytes` (lines 301-338). -/
def extractBytes (s : Regs) (l : Fin 4) (offset len : Nat) : M Bytes := do
  let pos := offset / 8
  let offsetInLane := offset % 8
  if len > 0 ∧ offsetInLane ≠ 0 then do
    let n := if 8 - offsetInLane > len then len else 8 - offsetInLane
    let out ← copyLane s l pos offsetInLane n
    let rest ← extractLoop s l len (pos + 1) (len - n)
    .ok (out ++ rest)
  else extractLoop s l len pos len

/-- What KeccakSpongetimes4.c:18-26 selects in a build with `USE_AVX2=ON` (keccak/CMakeLists.txt:21-25). -/
def plSnp : PlSnP where
  State := Regs
  init := init
  addByte := addByte
  addBytes := addBytes
  extractBytes := extractBytes
  permute := permute

end Banquet.X4
