import Verif.Model.Sponge

/-! Model of keccak/opt64: Keccak-p[1600] on 64-bit words (KeccakP-1600-opt64.c with KeccakP-1600-64.macros, KeccakP-1600-unrolling.macros and SnP-Relaned.h), as it is
compiled with `USE_AVX2=OFF`: `KeccakP1600_fullUnrolling` is defined (KeccakP-1600-opt64-config.h:6), lane complementing is not. The bodies of the round macros are transcribed statement by statement.

Memory is modelled for a little endian machine: the 200 bytes of the state are 25 words; byte `i` is bits `8 (i mod 8) ..` of word `i / 8`. (`PLATFORM_BYTE_ORDER` and
`IS_LITTLE_ENDIAN` are defined nowhere in the repository, so the comparison `#if (PLATFORM_BYTE_ORDER == IS_LITTLE_ENDIAN)` is `0 == 0` and the little endian branches are compiled on every machine.) -/

namespace Banquet.Opt64

/-- `uint64_t state[25]`. -/
abbrev Lanes := Vector W64 25

/-- `ROL64` (KeccakP-1600-opt64.c:49-50). -/
def rol64 (a : W64) (n : Nat) : W64 := (a <<< n) ^^^ (a >>> (64 - n))

/-- `KeccakF1600RoundConstants` (KeccakP-1600-opt64.c:62-70). -/
def roundConstants : Vector W64 24 := #v[
  0x0000000000000001, 0x0000000000008082, 0x800000000000808a,
  0x8000000080008000, 0x000000000000808b, 0x0000000080000001,
  0x8000000080008081, 0x8000000000008009, 0x000000000000008a,
  0x0000000000000088, 0x0000000080008009, 0x000000008000000a,
  0x000000008000808b, 0x800000000000008b, 0x8000000000008089,
  0x8000000000008003, 0x8000000000008002, 0x8000000000000080,
  0x000000000000800a, 0x800000008000000a, 0x8000000080008081,
  0x8000000000008080, 0x0000000080000001, 0x8000000080008008]

/-- `prepareTheta` (KeccakP-1600-64.macros:40-45): `Ca, Ce, Ci, Co, Cu`. The variables `Aba … Asu` are the entries 0 … 24 of `A`, as in `copyFromState` (lines 462-487). -/
def prepareTheta (A : Lanes) : Vector W64 5 :=
  let Ca := A[0] ^^^ A[5] ^^^ A[10] ^^^ A[15] ^^^ A[20]
  let Ce := A[1] ^^^ A[6] ^^^ A[11] ^^^ A[16] ^^^ A[21]
  let Ci := A[2] ^^^ A[7] ^^^ A[12] ^^^ A[17] ^^^ A[22]
  let Co := A[3] ^^^ A[8] ^^^ A[13] ^^^ A[18] ^^^ A[23]
  let Cu := A[4] ^^^ A[9] ^^^ A[14] ^^^ A[19] ^^^ A[24]
  #v[Ca, Ce, Ci, Co, Cu]

/-- `thetaRhoPiChiIotaPrepareTheta(i, A, E)` (KeccakP-1600-64.macros:257-368) with `rc = KeccakF1600RoundConstants[i]`: the lanes `E` and the new `C`. -/
def roundPrepare (rc : W64) (A : Lanes) (C : Vector W64 5) : Lanes × Vector W64 5 :=
  let Aba := A[0]
  let Abe := A[1]
  let Abi := A[2]
  let Abo := A[3]
  let Abu := A[4]
  let Aga := A[5]
  let Age := A[6]
  let Agi := A[7]
  let Ago := A[8]
  let Agu := A[9]
  let Aka := A[10]
  let Ake := A[11]
  let Aki := A[12]
  let Ako := A[13]
  let Aku := A[14]
  let Ama := A[15]
  let Ame := A[16]
  let Ami := A[17]
  let Amo := A[18]
  let Amu := A[19]
  let Asa := A[20]
  let Ase := A[21]
  let Asi := A[22]
  let Aso := A[23]
  let Asu := A[24]
  let Ca := C[0]
  let Ce := C[1]
  let Ci := C[2]
  let Co := C[3]
  let Cu := C[4]
  let Da := Cu ^^^ rol64 Ce 1
  let De := Ca ^^^ rol64 Ci 1
  let Di := Ce ^^^ rol64 Co 1
  let Do := Ci ^^^ rol64 Cu 1
  let Du := Co ^^^ rol64 Ca 1
  let Aba := Aba ^^^ Da
  let Bba := Aba
  let Age := Age ^^^ De
  let Bbe := rol64 Age 44
  let Aki := Aki ^^^ Di
  let Bbi := rol64 Aki 43
  let Amo := Amo ^^^ Do
  let Bbo := rol64 Amo 21
  let Asu := Asu ^^^ Du
  let Bbu := rol64 Asu 14
  let Eba := Bba ^^^ ((~~~Bbe) &&& Bbi)
  let Eba := Eba ^^^ rc
  let Ca := Eba
  let Ebe := Bbe ^^^ ((~~~Bbi) &&& Bbo)
  let Ce := Ebe
  let Ebi := Bbi ^^^ ((~~~Bbo) &&& Bbu)
  let Ci := Ebi
  let Ebo := Bbo ^^^ ((~~~Bbu) &&& Bba)
  let Co := Ebo
  let Ebu := Bbu ^^^ ((~~~Bba) &&& Bbe)
  let Cu := Ebu
  let Abo := Abo ^^^ Do
  let Bga := rol64 Abo 28
  let Agu := Agu ^^^ Du
  let Bge := rol64 Agu 20
  let Aka := Aka ^^^ Da
  let Bgi := rol64 Aka 3
  let Ame := Ame ^^^ De
  let Bgo := rol64 Ame 45
  let Asi := Asi ^^^ Di
  let Bgu := rol64 Asi 61
  let Ega := Bga ^^^ ((~~~Bge) &&& Bgi)
  let Ca := Ca ^^^ Ega
  let Ege := Bge ^^^ ((~~~Bgi) &&& Bgo)
  let Ce := Ce ^^^ Ege
  let Egi := Bgi ^^^ ((~~~Bgo) &&& Bgu)
  let Ci := Ci ^^^ Egi
  let Ego := Bgo ^^^ ((~~~Bgu) &&& Bga)
  let Co := Co ^^^ Ego
  let Egu := Bgu ^^^ ((~~~Bga) &&& Bge)
  let Cu := Cu ^^^ Egu
  let Abe := Abe ^^^ De
  let Bka := rol64 Abe 1
  let Agi := Agi ^^^ Di
  let Bke := rol64 Agi 6
  let Ako := Ako ^^^ Do
  let Bki := rol64 Ako 25
  let Amu := Amu ^^^ Du
  let Bko := rol64 Amu 8
  let Asa := Asa ^^^ Da
  let Bku := rol64 Asa 18
  let Eka := Bka ^^^ ((~~~Bke) &&& Bki)
  let Ca := Ca ^^^ Eka
  let Eke := Bke ^^^ ((~~~Bki) &&& Bko)
  let Ce := Ce ^^^ Eke
  let Eki := Bki ^^^ ((~~~Bko) &&& Bku)
  let Ci := Ci ^^^ Eki
  let Eko := Bko ^^^ ((~~~Bku) &&& Bka)
  let Co := Co ^^^ Eko
  let Eku := Bku ^^^ ((~~~Bka) &&& Bke)
  let Cu := Cu ^^^ Eku
  let Abu := Abu ^^^ Du
  let Bma := rol64 Abu 27
  let Aga := Aga ^^^ Da
  let Bme := rol64 Aga 36
  let Ake := Ake ^^^ De
  let Bmi := rol64 Ake 10
  let Ami := Ami ^^^ Di
  let Bmo := rol64 Ami 15
  let Aso := Aso ^^^ Do
  let Bmu := rol64 Aso 56
  let Ema := Bma ^^^ ((~~~Bme) &&& Bmi)
  let Ca := Ca ^^^ Ema
  let Eme := Bme ^^^ ((~~~Bmi) &&& Bmo)
  let Ce := Ce ^^^ Eme
  let Emi := Bmi ^^^ ((~~~Bmo) &&& Bmu)
  let Ci := Ci ^^^ Emi
  let Emo := Bmo ^^^ ((~~~Bmu) &&& Bma)
  let Co := Co ^^^ Emo
  let Emu := Bmu ^^^ ((~~~Bma) &&& Bme)
  let Cu := Cu ^^^ Emu
  let Abi := Abi ^^^ Di
  let Bsa := rol64 Abi 62
  let Ago := Ago ^^^ Do
  let Bse := rol64 Ago 55
  let Aku := Aku ^^^ Du
  let Bsi := rol64 Aku 39
  let Ama := Ama ^^^ Da
  let Bso := rol64 Ama 41
  let Ase := Ase ^^^ De
  let Bsu := rol64 Ase 2
  let Esa := Bsa ^^^ ((~~~Bse) &&& Bsi)
  let Ca := Ca ^^^ Esa
  let Ese := Bse ^^^ ((~~~Bsi) &&& Bso)
  let Ce := Ce ^^^ Ese
  let Esi := Bsi ^^^ ((~~~Bso) &&& Bsu)
  let Ci := Ci ^^^ Esi
  let Eso := Bso ^^^ ((~~~Bsu) &&& Bsa)
  let Co := Co ^^^ Eso
  let Esu := Bsu ^^^ ((~~~Bsa) &&& Bse)
  let Cu := Cu ^^^ Esu
  (#v[Eba, Ebe, Ebi, Ebo, Ebu,
    Ega, Ege, Egi, Ego, Egu,
    Eka, Eke, Eki, Eko, Eku,
    Ema, Eme, Emi, Emo, Emu,
    Esa, Ese, Esi, Eso, Esu],
   #v[Ca, Ce, Ci, Co, Cu])

/-- `thetaRhoPiChiIota(i, A, E)` (KeccakP-1600-64.macros:372-458). -/
def roundLast (rc : W64) (A : Lanes) (C : Vector W64 5) : Lanes :=
  let Aba := A[0]
  let Abe := A[1]
  let Abi := A[2]
  let Abo := A[3]
  let Abu := A[4]
  let Aga := A[5]
  let Age := A[6]
  let Agi := A[7]
  let Ago := A[8]
  let Agu := A[9]
  let Aka := A[10]
  let Ake := A[11]
  let Aki := A[12]
  let Ako := A[13]
  let Aku := A[14]
  let Ama := A[15]
  let Ame := A[16]
  let Ami := A[17]
  let Amo := A[18]
  let Amu := A[19]
  let Asa := A[20]
  let Ase := A[21]
  let Asi := A[22]
  let Aso := A[23]
  let Asu := A[24]
  let Ca := C[0]
  let Ce := C[1]
  let Ci := C[2]
  let Co := C[3]
  let Cu := C[4]
  let Da := Cu ^^^ rol64 Ce 1
  let De := Ca ^^^ rol64 Ci 1
  let Di := Ce ^^^ rol64 Co 1
  let Do := Ci ^^^ rol64 Cu 1
  let Du := Co ^^^ rol64 Ca 1
  let Aba := Aba ^^^ Da
  let Bba := Aba
  let Age := Age ^^^ De
  let Bbe := rol64 Age 44
  let Aki := Aki ^^^ Di
  let Bbi := rol64 Aki 43
  let Amo := Amo ^^^ Do
  let Bbo := rol64 Amo 21
  let Asu := Asu ^^^ Du
  let Bbu := rol64 Asu 14
  let Eba := Bba ^^^ ((~~~Bbe) &&& Bbi)
  let Eba := Eba ^^^ rc
  let Ebe := Bbe ^^^ ((~~~Bbi) &&& Bbo)
  let Ebi := Bbi ^^^ ((~~~Bbo) &&& Bbu)
  let Ebo := Bbo ^^^ ((~~~Bbu) &&& Bba)
  let Ebu := Bbu ^^^ ((~~~Bba) &&& Bbe)
  let Abo := Abo ^^^ Do
  let Bga := rol64 Abo 28
  let Agu := Agu ^^^ Du
  let Bge := rol64 Agu 20
  let Aka := Aka ^^^ Da
  let Bgi := rol64 Aka 3
  let Ame := Ame ^^^ De
  let Bgo := rol64 Ame 45
  let Asi := Asi ^^^ Di
  let Bgu := rol64 Asi 61
  let Ega := Bga ^^^ ((~~~Bge) &&& Bgi)
  let Ege := Bge ^^^ ((~~~Bgi) &&& Bgo)
  let Egi := Bgi ^^^ ((~~~Bgo) &&& Bgu)
  let Ego := Bgo ^^^ ((~~~Bgu) &&& Bga)
  let Egu := Bgu ^^^ ((~~~Bga) &&& Bge)
  let Abe := Abe ^^^ De
  let Bka := rol64 Abe 1
  let Agi := Agi ^^^ Di
  let Bke := rol64 Agi 6
  let Ako := Ako ^^^ Do
  let Bki := rol64 Ako 25
  let Amu := Amu ^^^ Du
  let Bko := rol64 Amu 8
  let Asa := Asa ^^^ Da
  let Bku := rol64 Asa 18
  let Eka := Bka ^^^ ((~~~Bke) &&& Bki)
  let Eke := Bke ^^^ ((~~~Bki) &&& Bko)
  let Eki := Bki ^^^ ((~~~Bko) &&& Bku)
  let Eko := Bko ^^^ ((~~~Bku) &&& Bka)
  let Eku := Bku ^^^ ((~~~Bka) &&& Bke)
  let Abu := Abu ^^^ Du
  let Bma := rol64 Abu 27
  let Aga := Aga ^^^ Da
  let Bme := rol64 Aga 36
  let Ake := Ake ^^^ De
  let Bmi := rol64 Ake 10
  let Ami := Ami ^^^ Di
  let Bmo := rol64 Ami 15
  let Aso := Aso ^^^ Do
  let Bmu := rol64 Aso 56
  let Ema := Bma ^^^ ((~~~Bme) &&& Bmi)
  let Eme := Bme ^^^ ((~~~Bmi) &&& Bmo)
  let Emi := Bmi ^^^ ((~~~Bmo) &&& Bmu)
  let Emo := Bmo ^^^ ((~~~Bmu) &&& Bma)
  let Emu := Bmu ^^^ ((~~~Bma) &&& Bme)
  let Abi := Abi ^^^ Di
  let Bsa := rol64 Abi 62
  let Ago := Ago ^^^ Do
  let Bse := rol64 Ago 55
  let Aku := Aku ^^^ Du
  let Bsi := rol64 Aku 39
  let Ama := Ama ^^^ Da
  let Bso := rol64 Ama 41
  let Ase := Ase ^^^ De
  let Bsu := rol64 Ase 2
  let Esa := Bsa ^^^ ((~~~Bse) &&& Bsi)
  let Ese := Bse ^^^ ((~~~Bsi) &&& Bso)
  let Esi := Bsi ^^^ ((~~~Bso) &&& Bsu)
  let Eso := Bso ^^^ ((~~~Bsu) &&& Bsa)
  let Esu := Bsu ^^^ ((~~~Bsa) &&& Bse)
  #v[Eba, Ebe, Ebi, Ebo, Ebu,
    Ega, Ege, Egi, Ego, Egu,
    Eka, Eke, Eki, Eko, Eku,
    Ema, Eme, Emi, Emo, Emu,
    Esa, Ese, Esi, Eso, Esu]

/-- `rounds24` (KeccakP-1600-unrolling.macros:18-43): `prepareTheta`, the rounds 0 … 22 with `PrepareTheta`, round 23 without. The code alternates between the variables `A…` and `E…`. -/
def rounds24 (A : Lanes) : Lanes :=
  let r := (List.finRange 23).foldl (fun (s : Lanes × Vector W64 5) i => roundPrepare roundConstants[i.val] s.1 s.2) (A, prepareTheta A)
  roundLast roundConstants[23] r.1 r.2

/-- `KeccakP1600_Permute_24rounds` (KeccakP-1600-opt64.c:331-339). -/
def permute (s : Lanes) : Lanes := rounds24 s

/-! ## Access to the state -/

/-- A word read from memory, little endian: `*(uint64_t *)p`, or `memcpy` of up to 8 bytes into a zeroed `uint64_t`. -/
def le64 : Bytes → W64
  | [] => 0
  | b :: bs => b.setWidth 64 ||| (le64 bs <<< 8)

/-- `KeccakP1600_Initialize` (KeccakP-1600-opt64.c:74-84). -/
def init : Lanes := Vector.replicate 25 0

/-- `KeccakP1600_AddByte` (opt64/KeccakP-1600-SnP.h:42-43): `((unsigned char *)state)[offset] ^= byte`. -/
def addByte (s : Lanes) (b : Byte) (offset : Nat) : M Lanes :=
  if h : offset / 8 < 25 then .ok (s.set (offset / 8) (s[offset / 8] ^^^ (b.setWidth 64 <<< (8 * (offset % 8))))) else .error .ub

/-- `KeccakP1600_AddBytesInLane(state, lanePosition, data, offset, length)` (KeccakP-1600-opt64.c:88-109), `length = data.length`. -/
def addBytesInLane (s : Lanes) (pos : Nat) (data : Bytes) (offset : Nat) : M Lanes :=
  if data.length = 0 then .ok s
  else if h : pos < 25 then
    let lane := if data.length = 1 then (data.headD 0).setWidth 64 else le64 data
    let lane := lane <<< (offset * 8)
    .ok (s.set pos (s[pos] ^^^ lane))
  else .error .ub

/-- `((uint64_t *)state)[i] ^= ((uint64_t *)data)[i]`. -/
def xorLane (s : Lanes) (data : Bytes) (i : Nat) : M Lanes :=
  if h : i < 25 then .ok (s.set i (s[i] ^^^ le64 ((data.drop (8 * i)).take 8))) else .error .ub

/-- The statements `xorLane` for `i, …, i + n - 1`. -/
def xorLanes (s : Lanes) (data : Bytes) (i : Nat) : Nat → M Lanes
  | 0 => .ok s
  | n + 1 => do
    let s ← xorLane s data i
    xorLanes s data (i + 1) n

/-- `for (; (i + step) <= laneCount; i += step)`: returns the state and `i`. Every iteration increases `i`; `fuel = laneCount` suffices. -/
def addLanesLoop (data : Bytes) (laneCount step : Nat) : Nat → Lanes → Nat → M (Lanes × Nat)
  | 0, s, i => .ok (s, i)
  | fuel + 1, s, i =>
    if i + step ≤ laneCount then do
      let s ← xorLanes s data i step
      addLanesLoop data laneCount step fuel s (i + step)
    else .ok (s, i)

/-- `KeccakP1600_AddLanes` (KeccakP-1600-opt64.c:113-163; `NO_MISALIGNED_ACCESSES` is not defined). -/
def addLanes (s : Lanes) (data : Bytes) (laneCount : Nat) : M Lanes := do
  let (s, i) ← addLanesLoop data laneCount 8 laneCount s 0
  let (s, i) ← addLanesLoop data laneCount 4 laneCount s i
  let (s, i) ← addLanesLoop data laneCount 2 laneCount s i
  if i < laneCount then xorLane s data i else .ok s

/-- The loop `while(_sizeLeft > 0)` of `SnP_AddBytes` (SnP-Relaned.h:41-50). Every iteration consumes data; `fuel = length` suffices. -/
def addBytesLoop : Nat → Lanes → Bytes → Nat → Nat → M Lanes
  | 0, s, _, _, _ => .ok s
  | fuel + 1, s, data, pos, off =>
    if data.length = 0 then .ok s
    else do
      let n := if 8 - off > data.length then data.length else 8 - off
      let s ← addBytesInLane s pos (data.take n) off
      addBytesLoop fuel s (data.drop n) (pos + 1) 0

/-- `KeccakP1600_AddBytes` (KeccakP-1600-opt64.c:177-181, SnP-Relaned.h:26-52), `length = data.length`. -/
def addBytes (s : Lanes) (data : Bytes) (offset : Nat) : M Lanes :=
  if offset = 0 then do
    let s ← addLanes s data (data.length / 8)
    addBytesInLane s (data.length / 8) (data.drop (data.length / 8 * 8)) 0
  else addBytesLoop data.length s data (offset / 8) (offset % 8)

/-- Byte `i` of a word in memory. -/
def byteOf (w : W64) (i : Nat) : Byte := (w >>> (8 * i)).setWidth 8

/-- `KeccakP1600_ExtractBytesInLane(state, lanePosition, data, offset, length)` (KeccakP-1600-opt64.c:355-379). -/
def extractBytesInLane (s : Lanes) (pos offset length : Nat) : M Bytes :=
  if h : pos < 25 then .ok ((List.range length).map fun i => byteOf s[pos] (offset + i)) else .error .ub

/-- `KeccakP1600_ExtractLanes` (KeccakP-1600-opt64.c:392-422): `memcpy(data, state, laneCount * 8)`. -/
def extractLanes (s : Lanes) (laneCount : Nat) : M Bytes :=
  if laneCount ≤ 25 then .ok ((List.range (8 * laneCount)).map fun i => byteOf (s.getD (i / 8) 0) (i % 8)) else .error .ub

/-- The loop of `SnP_ExtractBytes` (SnP-Relaned.h:97-106); `len` is `_sizeLeft`. -/
def extractLoop : Nat → Lanes → Nat → Nat → Nat → M Bytes
  | 0, _, _, _, _ => .ok []
  | fuel + 1, s, pos, off, len =>
    if len = 0 then .ok []
    else do
      let n := if 8 - off > len then len else 8 - off
      let out ← extractBytesInLane s pos off n
      let rest ← extractLoop fuel s (pos + 1) 0 (len - n)
      .ok (out ++ rest)

/-- `KeccakP1600_ExtractBytes` (KeccakP-1600-opt64.c:426-430, SnP-Relaned.h:82-108). -/
def extractBytes (s : Lanes) (offset length : Nat) : M Bytes :=
  if offset = 0 then do
    let out ← extractLanes s (length / 8)
    let rest ← extractBytesInLane s (length / 8) 0 (length % 8)
    .ok (out ++ rest)
  else extractLoop length s (offset / 8) (offset % 8) length

/-! ## Absorbing whole blocks -/

/-- The statements `X## ^= HTOLE64(input[i])` for `i = lo, …, hi - 1`, where the variables `X##ba, X##be, …` are the entries 0, 1, … (`HTOLE64` is the identity on a little endian machine). -/
def addRange (X : Lanes) (input : Bytes) (lo hi : Nat) : Lanes :=
  Vector.ofFn fun i => if lo ≤ i.val ∧ i.val < hi then X[i] ^^^ le64 ((input.drop (8 * i.val)).take 8) else X[i]

/-- `addInput(X, input, laneCount)` (KeccakP-1600-64.macros:543-709); runs of XOR statements with consecutive indices are written as `addRange`. -/
def addInput (X : Lanes) (input : Bytes) (laneCount : Nat) : Lanes :=
  if laneCount = 21 then
    addRange X input 0 21
  else
    if laneCount < 16 then
      if laneCount < 8 then
        if laneCount < 4 then
          if laneCount < 2 then
            if laneCount < 1 then
              X
            else
              addRange X input 0 1
          else
            let X := addRange X input 0 2
            if laneCount < 3 then
              X
            else
              addRange X input 2 3
        else
          let X := addRange X input 0 4
          if laneCount < 6 then
            if laneCount < 5 then
              X
            else
              addRange X input 4 5
          else
            let X := addRange X input 4 6
            if laneCount < 7 then
              X
            else
              addRange X input 6 7
      else
        let X := addRange X input 0 8
        if laneCount < 12 then
          if laneCount < 10 then
            if laneCount < 9 then
              X
            else
              addRange X input 8 9
          else
            let X := addRange X input 8 10
            if laneCount < 11 then
              X
            else
              addRange X input 10 11
        else
          let X := addRange X input 8 12
          if laneCount < 14 then
            if laneCount < 13 then
              X
            else
              addRange X input 12 13
          else
            let X := addRange X input 12 14
            if laneCount < 15 then
              X
            else
              addRange X input 14 15
    else
      let X := addRange X input 0 16
      if laneCount < 24 then
        if laneCount < 20 then
          if laneCount < 18 then
            if laneCount < 17 then
              X
            else
              addRange X input 16 17
          else
            let X := addRange X input 16 18
            if laneCount < 19 then
              X
            else
              addRange X input 18 19
        else
          let X := addRange X input 16 20
          if laneCount < 22 then
            if laneCount < 21 then
              X
            else
              addRange X input 20 21
          else
            let X := addRange X input 20 22
            if laneCount < 23 then
              X
            else
              addRange X input 22 23
      else
        let X := addRange X input 16 24
        if laneCount < 25 then
          X
        else
          addRange X input 24 25

/-- The loop of `KeccakF1600_FastLoop_Absorb` (KeccakP-1600-opt64.c:529-532) on the remaining data; returns the lanes and what remains of the data. For `laneCount > 0` every iteration consumes
data and `fuel = dataByteLen` suffices; for `laneCount = 0` the C loop does not end. -/
def fastLoop (laneCount : Nat) : Nat → Lanes → Bytes → M (Lanes × Bytes)
  | 0, A, data => if data.length ≥ laneCount * 8 then .error .fuel else .ok (A, data)
  | fuel + 1, A, data =>
    if data.length ≥ laneCount * 8 then fastLoop laneCount fuel (rounds24 (addInput A data laneCount)) (data.drop (laneCount * 8))
    else .ok (A, data)

/-- `KeccakF1600_FastLoop_Absorb(state, laneCount, data, dataByteLen)` (KeccakP-1600-opt64.c:518-534): the state and the number of bytes absorbed. -/
def fastLoopAbsorb (s : Lanes) (laneCount : Nat) (data : Bytes) : M (Lanes × Nat) := do
  let (s, rest) ← fastLoop laneCount data.length s data
  .ok (s, data.length - rest.length)

/-! ## Plugging into the sponge -/

/-- What KeccakSponge.c:20-28 selects in a build with `USE_AVX2=OFF` (keccak/CMakeLists.txt:21-33). -/
def snp : SnP where
  State := Lanes
  init := init
  addByte := addByte
  addBytes := addBytes
  extractBytes := extractBytes
  permute := permute
  fastLoop := fastLoopAbsorb

/-- What KeccakSpongetimes4.c selects then: opt64/KeccakP-1600-times4-on1.c and PlSnP-Fallback.inc (`InitializeAll` lines 71-81, `AddByte` 83-90, `AddBytes` 92-99, `PermuteAll` 147-158, `ExtractBytes` 205-212).
Four states one after the other; `stateWithIndex(i)` (line 50) is entry `i`. -/
def plSnp : PlSnP where
  State := Vector Lanes 4
  init := Vector.replicate 4 init
  addByte s l b offset := do
    let t ← addByte s[l] b offset
    .ok (s.set l t)
  addBytes s l data offset := do
    let t ← addBytes s[l] data offset
    .ok (s.set l t)
  extractBytes s l offset length := extractBytes s[l] offset length
  permute s := s.map permute

end Banquet.Opt64
