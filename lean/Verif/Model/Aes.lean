import Verif.Model.Basic

/-! Model of aes.cpp: byte field arithmetic, the AES-NI instructions used, key schedules, plain AES with zero checks, AES with recorded S-box pairs, and the
shared (MPC) evaluation. -/

namespace Banquet

/-! ## Byte field -/

/-- Body of the loop of `multiply` (aes.cpp:16-23). State: `(result, a, b)`; `a`, `b` are `unsigned int`. -/
def aesMulStep (st : Byte × BitVec 32 × BitVec 32) : Byte × BitVec 32 × BitVec 32 :=
  let (result, a, b) := st
  let mask : Byte := -((b &&& 1).setWidth 8)
  let result := result ^^^ (a.setWidth 8 &&& mask)
  let mask2 : BitVec 16 := -(((a >>> 7).setWidth 16) &&& 1)
  let a := a <<< 1
  let a := a ^^^ (0x11b &&& mask2.setWidth 32)
  let b := b >>> 1
  (result, a, b)

/-- `multiply` (aes.cpp:13-25). All callers pass bytes. -/
def aesMul (a b : Byte) : Byte :=
  ((List.range 8).foldl (fun st _ => aesMulStep st) ((0 : Byte), a.setWidth 32, b.setWidth 32)).1

/-- `square` (aes.cpp:27). -/
def aesSquare (c : Byte) : Byte := aesMul c c

/-- `inverse` (aes.cpp:29-36). -/
def aesInv (c : Byte) : Byte :=
  let c3 := aesMul (aesSquare c) c
  let c7 := aesMul (aesSquare c3) c
  let c63 := aesMul (aesSquare (aesSquare (aesSquare c7))) c7
  let c127 := aesMul (aesSquare c63) c
  aesSquare c127

/-- `ROTL8` (aes.cpp:10). -/
def rotl8 (x : Byte) (s : Nat) : Byte := (x <<< s) ||| (x >>> (8 - s))

/-- `t ^ ROTL8(t,1) ^ ROTL8(t,2) ^ ROTL8(t,3) ^ ROTL8(t,4)` (aes.cpp:97 and the other key schedule macros): linear part of the S-box. -/
def affLin (t : Byte) : Byte := t ^^^ rotl8 t 1 ^^^ rotl8 t 2 ^^^ rotl8 t 3 ^^^ rotl8 t 4

/-- `AES_SBOX_AFFINE_CONST` (aes.cpp:11). -/
def affConst : Byte := 0x63

/-! ## 128-bit registers -/

/-- `__m128i` as 16 bytes, byte 0 first in memory. -/
abbrev Blk := Vector Byte 16

/-- `_mm_loadu_si128` from byte offset `off`. Bytes past the end read as 0; the 24 byte keys are copied to a zeroed 32 byte buffer first (aes.cpp:694-697), the other callers
guard the length. -/
def loadBlk (bs : Bytes) (off : Nat) : Blk := Vector.ofFn fun i => bs.getD (off + i) 0

/-- `_mm_xor_si128`. -/
def Blk.xor (a b : Blk) : Blk := Vector.ofFn fun i => a[i] ^^^ b[i]

/-- `_mm_slli_si128(v, 4)`: shift towards higher bytes by 4. -/
def Blk.slli4 (v : Blk) : Blk := Vector.ofFn fun i => if h : i.val < 4 then 0 else v[i.val - 4]

/-- `_mm_shuffle_epi32` with all four selectors equal to `w` (immediates 0x55, 0xaa, 0xff, `_MM_SHUFFLE(3,3,3,3)`): broadcast 32-bit word `w`. -/
def Blk.bcast (v : Blk) (w : Fin 4) : Blk := Vector.ofFn fun i => v[4 * w.val + i.val % 4]

/-- `_mm_shuffle_pd(a, b, 0)`: low half of `a`, low half of `b`. -/
def Blk.shufflePd0 (a b : Blk) : Blk := Vector.ofFn fun i => if h : i.val < 8 then a[i.val] else b[i.val - 8]

/-- `_mm_shuffle_pd(a, b, 1)`: high half of `a`, low half of `b`. -/
def Blk.shufflePd1 (a b : Blk) : Blk := Vector.ofFn fun i => if h : i.val < 8 then a[i.val + 8] else b[i.val - 8]

/-- A register that is zero except for 32-bit word `w`: `_mm_setzero_si128` followed by four `_mm_insert_epi8` (aes.cpp:92-113 and the other key schedule macros). -/
def Blk.ofWord (w : Fin 4) (b : Vector Byte 4) : Blk :=
  Vector.ofFn fun i => if i.val / 4 = w.val then b[i.val % 4] else 0

/-! ## AES-NI (Intel SDM / FIPS-197) -/

/-- The FIPS-197 S-box (figure 7 of the standard), as used by the AES-NI instructions. -/
def sboxTable : Array Nat := #[
  0x63,0x7c,0x77,0x7b,0xf2,0x6b,0x6f,0xc5,0x30,0x01,0x67,0x2b,0xfe,0xd7,0xab,0x76,
  0xca,0x82,0xc9,0x7d,0xfa,0x59,0x47,0xf0,0xad,0xd4,0xa2,0xaf,0x9c,0xa4,0x72,0xc0,
  0xb7,0xfd,0x93,0x26,0x36,0x3f,0xf7,0xcc,0x34,0xa5,0xe5,0xf1,0x71,0xd8,0x31,0x15,
  0x04,0xc7,0x23,0xc3,0x18,0x96,0x05,0x9a,0x07,0x12,0x80,0xe2,0xeb,0x27,0xb2,0x75,
  0x09,0x83,0x2c,0x1a,0x1b,0x6e,0x5a,0xa0,0x52,0x3b,0xd6,0xb3,0x29,0xe3,0x2f,0x84,
  0x53,0xd1,0x00,0xed,0x20,0xfc,0xb1,0x5b,0x6a,0xcb,0xbe,0x39,0x4a,0x4c,0x58,0xcf,
  0xd0,0xef,0xaa,0xfb,0x43,0x4d,0x33,0x85,0x45,0xf9,0x02,0x7f,0x50,0x3c,0x9f,0xa8,
  0x51,0xa3,0x40,0x8f,0x92,0x9d,0x38,0xf5,0xbc,0xb6,0xda,0x21,0x10,0xff,0xf3,0xd2,
  0xcd,0x0c,0x13,0xec,0x5f,0x97,0x44,0x17,0xc4,0xa7,0x7e,0x3d,0x64,0x5d,0x19,0x73,
  0x60,0x81,0x4f,0xdc,0x22,0x2a,0x90,0x88,0x46,0xee,0xb8,0x14,0xde,0x5e,0x0b,0xdb,
  0xe0,0x32,0x3a,0x0a,0x49,0x06,0x24,0x5c,0xc2,0xd3,0xac,0x62,0x91,0x95,0xe4,0x79,
  0xe7,0xc8,0x37,0x6d,0x8d,0xd5,0x4e,0xa9,0x6c,0x56,0xf4,0xea,0x65,0x7a,0xae,0x08,
  0xba,0x78,0x25,0x2e,0x1c,0xa6,0xb4,0xc6,0xe8,0xdd,0x74,0x1f,0x4b,0xbd,0x8b,0x8a,
  0x70,0x3e,0xb5,0x66,0x48,0x03,0xf6,0x0e,0x61,0x35,0x57,0xb9,0x86,0xc1,0x1d,0x9e,
  0xe1,0xf8,0x98,0x11,0x69,0xd9,0x8e,0x94,0x9b,0x1e,0x87,0xe9,0xce,0x55,0x28,0xdf,
  0x8c,0xa1,0x89,0x0d,0xbf,0xe6,0x42,0x68,0x41,0x99,0x2d,0x0f,0xb0,0x54,0xbb,0x16]

/-- The S-box applied by the hardware. -/
def hwSbox (b : Byte) : Byte := BitVec.ofNat 8 (sboxTable.getD b.toNat 0)

/-- Multiplication by x in the AES field, as in FIPS-197 4.2.1. -/
def hwXtime (b : Byte) : Byte := (b <<< 1) ^^^ (if b.getLsbD 7 then 0x1b else 0)

/-- ShiftRows then SubBytes of AESENC/AESENCLAST; byte `4c+r` is row `r`, column `c`. -/
def Blk.subShift (m : Blk) : Blk :=
  Vector.ofFn fun i => hwSbox (m[4 * ((i.val / 4 + i.val % 4) % 4) + i.val % 4])

/-- MixColumns of AESENC. -/
def Blk.mixColumns (m : Blk) : Blk := Vector.ofFn fun i =>
  let c := 4 * (i.val / 4)
  let r := i.val % 4
  hwXtime (m[c + r]) ^^^ (hwXtime (m[c + (r + 1) % 4]) ^^^ m[c + (r + 1) % 4])
    ^^^ m[c + (r + 2) % 4] ^^^ m[c + (r + 3) % 4]

/-- InvMixColumns (`_mm_aesimc_si128`): coefficients 14, 11, 13, 9. -/
def Blk.aesimc (m : Blk) : Blk := Vector.ofFn fun i =>
  let c := 4 * (i.val / 4)
  let r := i.val % 4
  let x2 (b : Byte) := hwXtime b
  let x4 (b : Byte) := hwXtime (hwXtime b)
  let x8 (b : Byte) := hwXtime (hwXtime (hwXtime b))
  let a0 := m[c + r]
  let a1 := m[c + (r + 1) % 4]
  let a2 := m[c + (r + 2) % 4]
  let a3 := m[c + (r + 3) % 4]
  (x8 a0 ^^^ x4 a0 ^^^ x2 a0) ^^^ (x8 a1 ^^^ x2 a1 ^^^ a1) ^^^ (x8 a2 ^^^ x4 a2 ^^^ a2) ^^^ (x8 a3 ^^^ a3)

/-- `_mm_aesenc_si128`. -/
def Blk.aesenc (m k : Blk) : Blk := (m.subShift.mixColumns).xor k

/-- `_mm_aesenclast_si128`. -/
def Blk.aesenclast (m k : Blk) : Blk := m.subShift.xor k

/-- `_mm_aeskeygenassist_si128`: words `SubWord(X1)`, `RotWord(SubWord(X1)) ^ rcon`, `SubWord(X3)`, `RotWord(SubWord(X3)) ^ rcon`. -/
def Blk.keygenassist (x : Blk) (rcon : Byte) : Blk := Vector.ofFn fun i =>
  let base := if i.val < 8 then 4 else 12
  if i.val % 8 < 4 then hwSbox (x.getD (base + i.val % 4) 0)
  else hwSbox (x.getD (base + (i.val + 1) % 4) 0) ^^^ (if i.val % 4 = 0 then rcon else 0)

/-! ## Key schedules

The three key schedules occur four times each in aes.cpp: with zero checks only, with zero checks and recording of S-box pairs, and twice (party 0 and the others) with
S-box outputs taken from `t` shares. The copies differ only in how the output of the "keygenassist" step is obtained. The model writes each schedule once,
with that step as a parameter `kgen`. -/

/-- A computation which may stop early (`return false`), on a state `σ` (recorded values). -/
def AesM (σ α : Type) := σ → Option α × σ

namespace AesM
/-- Return a value. -/
def pure {σ α : Type} (a : α) : AesM σ α := fun s => (some a, s)
/-- Sequencing; stops at the first `return false`, keeping the state reached. -/
def bind {σ α β : Type} (x : AesM σ α) (f : α → AesM σ β) : AesM σ β := fun s =>
  match x s with
  | (some a, s') => f a s'
  | (none, s') => (none, s')
instance {σ : Type} : Monad (AesM σ) where
  pure := pure
  bind := bind
end AesM

/-- The three `key ^= key << 32` lines with the final XOR (aes.cpp:44-48 and 114-118): `keygened` is used through its word 3. -/
def keyExp128 (key keygened : Blk) : Blk :=
  let kg := keygened.bcast 3
  let key := key.xor key.slli4
  let key := key.xor key.slli4
  let key := key.xor key.slli4
  key.xor kg

/-- `KEY_192_ASSIST` (aes.cpp:51-65): new `(temp1, temp3)`. -/
def key192Assist (temp1 temp2 temp3 : Blk) : Blk × Blk :=
  let temp2 := temp2.bcast 1
  let temp4 := temp1.slli4
  let temp1 := temp1.xor temp4
  let temp4 := temp4.slli4
  let temp1 := temp1.xor temp4
  let temp4 := temp4.slli4
  let temp1 := temp1.xor temp4
  let temp1 := temp1.xor temp2
  let temp2 := temp1.bcast 3
  let temp4 := temp3.slli4
  let temp3 := temp3.xor temp4
  let temp3 := temp3.xor temp2
  (temp1, temp3)

/-- `KEY_256_ASSIST_1` (aes.cpp:66-76): new `temp1`. -/
def key256Assist1 (temp1 temp2 : Blk) : Blk :=
  let temp2 := temp2.bcast 3
  let temp4 := temp1.slli4
  let temp1 := temp1.xor temp4
  let temp4 := temp4.slli4
  let temp1 := temp1.xor temp4
  let temp4 := temp4.slli4
  let temp1 := temp1.xor temp4
  temp1.xor temp2

/-- `KEY_256_ASSIST_2` (aes.cpp:77-87): new `temp3`. -/
def key256Assist2 (temp1 temp3 : Blk) : Blk :=
  let temp2 := temp1.bcast 2
  let temp1 := temp3.slli4
  let temp3 := temp3.xor temp1
  let temp1 := temp1.slli4
  let temp3 := temp3.xor temp1
  let temp1 := temp1.slli4
  let temp3 := temp3.xor temp1
  temp3.xor temp2

/-- Round constants of the 128-bit schedule (aes.cpp:390-408). -/
def rcons128 : List Byte := [0x01, 0x02, 0x04, 0x08, 0x10, 0x20, 0x40, 0x80, 0x1B, 0x36]

/-- 128-bit key schedule (aes.cpp:388-408, 442-462, 535-566, 571-592): the 11 round keys. `kgen key rcon` is the check of the current round key followed by the keygenassist step. -/
def keySched128 {σ : Type} (kgen : Blk → Byte → AesM σ Blk) (key : Blk) : AesM σ (List Blk) := do
  let r ← rcons128.foldlM (fun (st : List Blk × Blk) rcon => do
    let g ← kgen st.2 rcon
    let k := keyExp128 st.2 g
    Pure.pure (st.1 ++ [k], k)) ([key], key)
  Pure.pure r.1

/-- 192-bit key schedule (aes.cpp:641-690, 737-786, 880-935, 940-995): the 13 round keys from `temp1` (bytes 0-15) and `temp3` (bytes 16-31 of the zero padded key). -/
def keySched192 {σ : Type} (kgen : Blk → Byte → AesM σ Blk) (t1 t3 : Blk) : AesM σ (List Blk) := do
  let a1 := t1; let a3 := t3
  let g ← kgen a3 0x01; let (b1, b3) := key192Assist a1 g a3
  let g ← kgen b3 0x02; let (c1, c3) := key192Assist b1 g b3
  let g ← kgen c3 0x04; let (d1, d3) := key192Assist c1 g c3
  let g ← kgen d3 0x08; let (e1, e3) := key192Assist d1 g d3
  let g ← kgen e3 0x10; let (f1, f3) := key192Assist e1 g e3
  let g ← kgen f3 0x20; let (h1, h3) := key192Assist f1 g f3
  let g ← kgen h3 0x40; let (i1, i3) := key192Assist h1 g h3
  let g ← kgen i3 0x80; let (j1, _) := key192Assist i1 g i3
  Pure.pure [a1, a3.shufflePd0 b1, b1.shufflePd1 b3,
    c1, c3.shufflePd0 d1, d1.shufflePd1 d3,
    e1, e3.shufflePd0 f1, f1.shufflePd1 f3,
    h1, h3.shufflePd0 i1, i1.shufflePd1 i3, j1]

/-- Round constants of the 256-bit schedule except the last (aes.cpp:1060-1095). -/
def rcons256 : List Byte := [0x01, 0x02, 0x04, 0x08, 0x10, 0x20]

/-- 256-bit key schedule (aes.cpp:1054-1105, 1152-1203, 1298-1354, 1359-1415): the 15 round keys. `kgen` is the step with rotation and rcon, `kgen2` the step without. -/
def keySched256 {σ : Type} (kgen : Blk → Byte → AesM σ Blk) (kgen2 : Blk → AesM σ Blk) (t1 t3 : Blk) :
    AesM σ (List Blk) := do
  let r ← rcons256.foldlM (fun (st : List Blk × Blk × Blk) rcon => do
    let (ks, t1, t3) := st
    let g ← kgen t3 rcon
    let t1 := key256Assist1 t1 g
    let g2 ← kgen2 t1
    let t3 := key256Assist2 g2 t3
    Pure.pure (ks ++ [t1, t3], t1, t3)) ([t1, t3], t1, t3)
  let (ks, t1, t3) := r
  let g ← kgen t3 0x40
  Pure.pure (ks ++ [key256Assist1 t1 g])

/-- The rounds (aes.cpp:410-433 and the corresponding lines of the other variants). `sub` is the check/record/restore of the state together with SubBytes and ShiftRows. The plain variants
compute MixColumns and key addition by AESENC, the shared one by three AESIMC and an XOR; `mix` is that MixColumns step. `ks` are the round keys. -/
def rounds {σ : Type} (sub : Blk → AesM σ Blk) (mix : Blk → Blk) (ks : List Blk) (pt : Blk) : AesM σ Blk := do
  let m0 := pt.xor (ks.getD 0 (Vector.replicate 16 0))
  let middle := (ks.drop 1).dropLast
  let m ← middle.foldlM (fun m k => do
    let m ← sub m
    Pure.pure ((mix m).xor k)) m0
  let m ← sub m
  Pure.pure (m.xor (ks.getLastD (Vector.replicate 16 0)))

/-! ## Plain AES with zero checks -/

/-- `return false` unless all given bytes are nonzero. -/
def checkNonzero {σ : Type} (bs : List Byte) : AesM σ Unit := fun s => if bs.any (· == 0) then (none, s) else (some (), s)

/-- `check_for_zeros_KS` (aes.cpp:203-209: bytes 12-15) then `_mm_aeskeygenassist_si128`. -/
def kgenPlain (m : Blk) (rcon : Byte) : AesM Unit Blk := do
  checkNonzero [m[12], m[13], m[14], m[15]]
  Pure.pure (m.keygenassist rcon)

/-- `check_for_zeros_KS_192` (aes.cpp:211-217: bytes 4-7) then `_mm_aeskeygenassist_si128`. -/
def kgenPlain192 (m : Blk) (rcon : Byte) : AesM Unit Blk := do
  checkNonzero [m[4], m[5], m[6], m[7]]
  Pure.pure (m.keygenassist rcon)

/-- `check_for_zeros` (aes.cpp:219-225) and the SubBytes/ShiftRows part of AESENC/AESENCLAST. -/
def subPlain (m : Blk) : AesM Unit Blk := do
  checkNonzero m.toList
  Pure.pure m.subShift

/-- `aes_128_aesni` (aes.cpp:384-436): `none` for `return false`. -/
def aes128Block (key pt : Bytes) : Option Bytes :=
  ((do
    let ks ← keySched128 kgenPlain (loadBlk key 0)
    rounds subPlain Blk.mixColumns ks (loadBlk pt 0) : AesM Unit Blk) ()).1.map Vector.toList

/-- `aes_192_aesni` (aes.cpp:692-732). -/
def aes192Block (key pt : Bytes) : Option Bytes :=
  ((do
    let ks ← keySched192 kgenPlain192 (loadBlk key 0) (loadBlk key 16)
    rounds subPlain Blk.mixColumns ks (loadBlk pt 0) : AesM Unit Blk) ()).1.map Vector.toList

/-- `aes_256_aesni` (aes.cpp:1107-1147). -/
def aes256Block (key pt : Bytes) : Option Bytes :=
  ((do
    let ks ← keySched256 kgenPlain (fun m => kgenPlain m 0) (loadBlk key 0) (loadBlk key 16)
    rounds subPlain Blk.mixColumns ks (loadBlk pt 0) : AesM Unit Blk) ()).1.map Vector.toList

/-- `aes_128`, `aes_192`, `aes_256` (aes.cpp:492-500, 834-846, 1251-1263) selected by the key size as in keygen (banquet.cpp:268-281). `some ct` for return value true. The 192 and 256 bit versions
encrypt two blocks independently. (On failure the contents of the output buffer are not modelled; no caller uses them.) -/
def aesPlain (keySize : Nat) (key pt : Bytes) : Option Bytes :=
  if keySize = 16 then aes128Block key pt
  else
    let f := if keySize = 24 then aes192Block else aes256Block
    match f key (pt.take 16), f key (pt.drop 16) with
    | some c1, some c2 => some (c1 ++ c2)
    | _, _ => none

/-! ## AES with recorded S-box pairs -/

/-- `saved_sbox_state`: S-box inputs and their inverses. -/
abbrev Saved := Bytes × Bytes

/-- One byte of the `check_for_zeros_and_save_KS*` macros (aes.cpp:230-235): check, then push `s` and `inverse(s)`. -/
def saveByte (s : Byte) : AesM Saved Unit := fun st =>
  if s == 0 then (none, st) else (some (), (st.1 ++ [s], st.2 ++ [aesInv s]))

/-- Bytes in order, each checked and saved. -/
def saveBytes (bs : List Byte) : AesM Saved Unit := bs.forM saveByte

/-- `check_for_zeros_and_save_KS` (aes.cpp:227-254) and keygenassist. -/
def kgenSave (m : Blk) (rcon : Byte) : AesM Saved Blk := do
  saveBytes [m[13], m[14], m[15], m[12]]
  Pure.pure (m.keygenassist rcon)

/-- `check_for_zeros_and_save_KS_192` (aes.cpp:256-283) and keygenassist. -/
def kgenSave192 (m : Blk) (rcon : Byte) : AesM Saved Blk := do
  saveBytes [m[5], m[6], m[7], m[4]]
  Pure.pure (m.keygenassist rcon)

/-- `check_for_zeros_and_save_KS_256` (aes.cpp:284-311) and keygenassist with rcon 0. -/
def kgenSave256b (m : Blk) : AesM Saved Blk := do
  saveBytes [m[12], m[13], m[14], m[15]]
  Pure.pure (m.keygenassist 0)

/-- Order in which `check_for_zeros_and_save` (aes.cpp:321-326) and `restore_t_shares` (aes.cpp:367-368) list the state: `buf[j*4+i]` with `i` outside. -/
def Blk.rowOrder (m : Blk) : Blk := Vector.ofFn fun n => m[(n.val % 4) * 4 + n.val / 4]

/-- `check_for_zeros_and_save` (aes.cpp:313-327) and the SubBytes/ShiftRows part of AESENC/AESENCLAST. -/
def subSave (m : Blk) : AesM Saved Blk := do
  checkNonzero m.toList
  saveBytes m.rowOrder.toList
  Pure.pure m.subShift

/-- `aes_128_with_sbox_output` (aes.cpp:438-490, 502-517). The ciphertext and the pairs recorded when the routine stopped; `none` if it returned false (then the output buffer keeps its zeros). -/
def aes128Save (key pt : Bytes) : Option Bytes × Saved :=
  (do
    let ks ← keySched128 kgenSave (loadBlk key 0)
    let m ← rounds subSave Blk.mixColumns ks (loadBlk pt 0)
    Pure.pure m.toList : AesM Saved Bytes) ([], [])

/-- `aes_192_with_sbox_output` (aes.cpp:788-832, 847-862): one key schedule, two blocks. -/
def aes192Save (key pt : Bytes) : Option Bytes × Saved :=
  (do
    let ks ← keySched192 kgenSave192 (loadBlk key 0) (loadBlk key 16)
    let m ← rounds subSave Blk.mixColumns ks (loadBlk pt 0)
    let n ← rounds subSave Blk.mixColumns ks (loadBlk pt 16)
    Pure.pure (m.toList ++ n.toList) : AesM Saved Bytes) ([], [])

/-- `aes_256_with_sbox_output` (aes.cpp:1205-1249, 1264-1280). -/
def aes256Save (key pt : Bytes) : Option Bytes × Saved :=
  (do
    let ks ← keySched256 kgenSave kgenSave256b (loadBlk key 0) (loadBlk key 16)
    let m ← rounds subSave Blk.mixColumns ks (loadBlk pt 0)
    let n ← rounds subSave Blk.mixColumns ks (loadBlk pt 16)
    Pure.pure (m.toList ++ n.toList) : AesM Saved Bytes) ([], [])

/-- `aes_*_with_sbox_output` selected by key size (banquet.cpp:309-314). -/
def aesSave (keySize : Nat) (key pt : Bytes) : Option Bytes × Saved :=
  if keySize = 16 then aes128Save key pt
  else if keySize = 24 then aes192Save key pt
  else aes256Save key pt

/-! ## Shared AES

Parties do not interact, so the model is one function per party. State: the `s` shares written so far; `sbox_index` is their number (both are reset to 40, 32 or 52 plus the block offset
before the rounds, aes.cpp:595, 999, 1419, which equals the number of values written, so the model does not reset). -/

/-- `_mm_rotl_epi8` (aes.cpp:355-362): bytewise rotation (32-bit shifts masked to the byte). -/
def Blk.rotl (m : Blk) (s : Nat) : Blk := Vector.ofFn fun i => rotl8 m[i] s

/-- Write four `s` shares and read the four `t` shares at the same indices; returns the linear S-box parts plus `affine` (0x63 or 0), the first also XOR `rcon`
(aes.cpp:92-113, 124-145, 151-172, 178-199). -/
def exchangeWord (t : Bytes) (affine rcon : Byte) (s : List Byte) : AesM Bytes (Vector Byte 4) := fun st =>
  let n := st.length
  let v : Vector Byte 4 := Vector.ofFn fun i =>
    affLin (t.getD (n + i.val) 0) ^^^ affine ^^^ (if i.val = 0 then rcon else 0)
  (some v, st ++ s)

/-- `AES_128_key_exp_restore` up to the keygened register (aes.cpp:89-113) and `AES_256_key_exp_restore` (aes.cpp:148-173): bytes 13,14,15,12 into word 3. For parties other than 0 the macros get
affine and rcon 0. -/
def kgenShare (first : Bool) (t : Bytes) (m : Blk) (rcon : Byte) : AesM Bytes Blk := do
  let v ← exchangeWord t (if first then affConst else 0) (if first then rcon else 0) [m[13], m[14], m[15], m[12]]
  Pure.pure (Blk.ofWord 3 v)

/-- `AES_192_key_exp_restore` (aes.cpp:121-146): bytes 5,6,7,4 into word 1. -/
def kgenShare192 (first : Bool) (t : Bytes) (m : Blk) (rcon : Byte) : AesM Bytes Blk := do
  let v ← exchangeWord t (if first then affConst else 0) (if first then rcon else 0) [m[5], m[6], m[7], m[4]]
  Pure.pure (Blk.ofWord 1 v)

/-- `AES_256_key_exp_restore_2` (aes.cpp:175-200): bytes 12..15 into word 2. -/
def kgenShare256b (first : Bool) (t : Bytes) (m : Blk) : AesM Bytes Blk := do
  let v ← exchangeWord t (if first then affConst else 0) 0 [m[12], m[13], m[14], m[15]]
  Pure.pure (Blk.ofWord 2 v)

/-- The byte shuffle of aes.cpp:372-373 (`_mm_set_epi8` lists byte 15 first). -/
def restoreIdx : Vector (Fin 16) 16 := #v[0, 5, 10, 15, 1, 6, 11, 12, 2, 7, 8, 13, 3, 4, 9, 14]

/-- `restore_t_shares` (aes.cpp:364-379): store the 16 state bytes as `s` shares, load 16 `t` shares, shuffle, apply the linear part of the S-box, and add 0x63 for party 0. -/
def subShare (first : Bool) (t : Bytes) (m : Blk) : AesM Bytes Blk := fun st =>
  let loaded := loadBlk t st.length
  let sh : Blk := Vector.ofFn fun i => loaded[restoreIdx[i]]
  let tmp := (sh.rotl 1).xor (sh.rotl 3)
  let tmp := tmp.xor (tmp.rotl 1)
  let r := tmp.xor sh
  let r := if first then r.xor (Vector.replicate 16 affConst) else r
  (some r, st ++ m.rowOrder.toList)

/-- `_mm_aesimc_si128` three times (aes.cpp:602). -/
def Blk.imc3 (m : Blk) : Blk := m.aesimc.aesimc.aesimc

/-- The plaintext loaded by party 0; the others use zero (aes.cpp:596-599). -/
def partyPt (first : Bool) (pt : Bytes) (off : Nat) : Blk := if first then loadBlk pt off else Vector.replicate 16 0

/-- `aes_128_s_shares` (aes.cpp:519-633) for one party: `(s shares, ct share)`. `first` is `party == 0`. -/
def aes128Party (first : Bool) (key t pt : Bytes) : Bytes × Bytes :=
  let r := (do
    let ks ← keySched128 (kgenShare first t) (loadBlk key 0)
    let m ← rounds (subShare first t) Blk.imc3 ks (partyPt first pt 0)
    Pure.pure m.toList : AesM Bytes Bytes) []
  (r.2, r.1.getD [])

/-- `aes_192_s_shares` (aes.cpp:864-1047) for one party. -/
def aes192Party (first : Bool) (key t pt : Bytes) : Bytes × Bytes :=
  let r := (do
    let ks ← keySched192 (kgenShare192 first t) (loadBlk key 0) (loadBlk key 16)
    let m ← rounds (subShare first t) Blk.imc3 ks (partyPt first pt 0)
    let n ← rounds (subShare first t) Blk.imc3 ks (partyPt first pt 16)
    Pure.pure (m.toList ++ n.toList) : AesM Bytes Bytes) []
  (r.2, r.1.getD [])

/-- `aes_256_s_shares` (aes.cpp:1282-1473) for one party. -/
def aes256Party (first : Bool) (key t pt : Bytes) : Bytes × Bytes :=
  let r := (do
    let ks ← keySched256 (kgenShare first t) (kgenShare256b first t) (loadBlk key 0) (loadBlk key 16)
    let m ← rounds (subShare first t) Blk.imc3 ks (partyPt first pt 0)
    let n ← rounds (subShare first t) Blk.imc3 ks (partyPt first pt 16)
    Pure.pure (m.toList ++ n.toList) : AesM Bytes Bytes) []
  (r.2, r.1.getD [])

/-- `aes_*_s_shares` for one party, selected by key size (banquet.cpp:429-441, 913-925). -/
def aesParty (keySize : Nat) (first : Bool) (key t pt : Bytes) : Bytes × Bytes :=
  if keySize = 16 then aes128Party first key t pt
  else if keySize = 24 then aes192Party first key t pt
  else aes256Party first key t pt

end Banquet
