import Verif.Model.Basic
import Mathlib.Logic.Function.Iterate

/-! Specification of AES, written from FIPS 197 (byte oriented), independent of the model of aes.cpp. -/

namespace Banquet.Spec.Aes

/-- Multiplication by `x` modulo `x^8+x^4+x^3+x+1` (FIPS 197, 4.2.1). -/
def xtime (b : Byte) : Byte := if b.getLsbD 7 then (b <<< 1) ^^^ 0x1b else b <<< 1

/-- Multiplication in the AES field (FIPS 197, 4.2): sum of `x^i a` over the bits `i` of `b`. -/
def mul (a b : Byte) : Byte :=
  (List.range 8).foldl (fun acc i => if b.getLsbD i then acc ^^^ (xtime^[i]) a else acc) 0

/-- Multiplicative inverse, 0 for 0 (FIPS 197, 5.1.1 step 1), by search. -/
def inv (a : Byte) : Byte := (((List.range 256).map (BitVec.ofNat 8)).find? (fun b => mul a b == 1)).getD 0

/-- The affine transformation (FIPS 197, (5.2)): bit `i` is `b_i + b_(i+4) + b_(i+5) + b_(i+6) + b_(i+7) + c_i`, indices modulo 8, `c = 0x63`. -/
def affine (b : Byte) : Byte :=
  (List.range 8).foldl (fun acc i =>
    if ((b.getLsbD i ^^ b.getLsbD ((i + 4) % 8)) ^^ (b.getLsbD ((i + 5) % 8) ^^ b.getLsbD ((i + 6) % 8)))
        ^^ (b.getLsbD ((i + 7) % 8) ^^ (0x63#8).getLsbD i)
    then acc ||| (1#8 <<< i) else acc) 0

/-- The S-box (FIPS 197, 5.1.1). -/
def sbox (a : Byte) : Byte := affine (inv a)

/-- Four bytes: a word of the key schedule, or a column of the state. -/
abbrev Word := Vector Byte 4

/-- XOR of words. -/
def Word.xor (a b : Word) : Word := Vector.ofFn fun r => a[r] ^^^ b[r]

/-- `SubWord` with a given byte substitution (FIPS 197, 5.2). -/
def subWord (s : Byte → Byte) (w : Word) : Word := Vector.ofFn fun r => s w[r]

/-- `RotWord` (FIPS 197, 5.2): `[a0,a1,a2,a3] ↦ [a1,a2,a3,a0]`. -/
def rotWord (w : Word) : Word := Vector.ofFn fun r => w[(r.val + 1) % 4]

/-- `Rcon[i] = [x^(i-1), 0, 0, 0]` (FIPS 197, 5.2). -/
def rcon (i : Nat) : Word := Vector.ofFn fun r => if r.val = 0 then (xtime^[i - 1]) 1 else 0

/-- Word `i = w.length` of the key schedule from the words before it (FIPS 197, figure 11). -/
def nextWord (nk : Nat) (w : List Word) : Word :=
  let i := w.length
  let temp := w.getD (i - 1) (Vector.replicate 4 0)
  let temp := if i % nk = 0 then (subWord sbox (rotWord temp)).xor (rcon (i / nk))
    else if 6 < nk ∧ i % nk = 4 then subWord sbox temp else temp
  (w.getD (i - nk) (Vector.replicate 4 0)).xor temp

/-- The bytes to which the S-box is applied when computing word `i = w.length`. -/
def nextInputs (nk : Nat) (w : List Word) : List Byte :=
  let i := w.length
  let temp := w.getD (i - 1) (Vector.replicate 4 0)
  if i % nk = 0 then (rotWord temp).toList else if 6 < nk ∧ i % nk = 4 then temp.toList else []

/-- Word `i` of the key. -/
def keyWord (key : Bytes) (i : Nat) : Word := Vector.ofFn fun r => key.getD (4 * i + r) 0

/-- `KeyExpansion` (FIPS 197, figure 11) up to `n` words. -/
def keyExpansion (nk : Nat) (key : Bytes) : Nat → List Word
  | 0 => []
  | n + 1 => let w := keyExpansion nk key n
    w ++ [if n < nk then keyWord key n else nextWord nk w]

/-- S-box inputs of the key expansion up to `n` words. -/
def keyInputs (nk : Nat) (key : Bytes) : Nat → List Byte
  | 0 => []
  | n + 1 => keyInputs nk key n ++ (if n < nk then [] else nextInputs nk (keyExpansion nk key n))

/-- The state: four columns (FIPS 197, 3.4: byte `4c + r` of the block is row `r` of column `c`). -/
abbrev State := Vector Word 4

/-- Block to state. -/
def toState (bs : Bytes) : State := Vector.ofFn fun c => Vector.ofFn fun r => bs.getD (4 * c.val + r.val) 0
/-- State to block. -/
def State.bytes (s : State) : Bytes := (s.toList.map Vector.toList).flatten

/-- `SubBytes` (FIPS 197, 5.1.1). -/
def State.subBytes (s : State) : State := Vector.ofFn fun c => subWord sbox s[c]

/-- `ShiftRows` (FIPS 197, 5.1.2): row `r` moves left by `r`. -/
def State.shiftRows (s : State) : State := Vector.ofFn fun c => Vector.ofFn fun r => s[(c.val + r.val) % 4][r]

/-- `MixColumns` on one column (FIPS 197, (5.6)). -/
def mixColumn (a : Word) : Word :=
  Vector.ofFn fun r => (mul a[r] 2 ^^^ mul a[(r.val + 1) % 4] 3) ^^^ (a[(r.val + 2) % 4] ^^^ a[(r.val + 3) % 4])

/-- `MixColumns`. -/
def State.mixColumns (s : State) : State := Vector.ofFn fun c => mixColumn s[c]

/-- `AddRoundKey` for round `i` (FIPS 197, 5.1.4). -/
def State.addRoundKey (s : State) (w : List Word) (i : Nat) : State :=
  Vector.ofFn fun c => s[c].xor (w.getD (4 * i + c.val) (Vector.replicate 4 0))

/-- State after `i` full rounds (FIPS 197, figure 5, before the last round). -/
def roundState (w : List Word) (s : State) : Nat → State
  | 0 => s.addRoundKey w 0
  | i + 1 => ((roundState w s i).subBytes.shiftRows.mixColumns).addRoundKey w (i + 1)

/-- `Cipher` with `nr` rounds (FIPS 197, figure 5). -/
def cipher (nr : Nat) (w : List Word) (pt : Bytes) : Bytes :=
  (((roundState w (toState pt) (nr - 1)).subBytes.shiftRows).addRoundKey w nr).bytes

/-- S-box inputs of `Cipher`: all state bytes before each of the `nr` `SubBytes`. -/
def cipherInputs (nr : Nat) (w : List Word) (pt : Bytes) : List Byte :=
  (List.range nr).flatMap fun i => (roundState w (toState pt) i).bytes

/-- AES on one block with a key of `4 nk` bytes and `nk + 6` rounds (FIPS 197, figure 4). -/
def encryptBlock (nk : Nat) (key pt : Bytes) : Bytes := cipher (nk + 6) (keyExpansion nk key (4 * (nk + 7))) pt

/-- AES block by block with the same key. -/
def encrypt (nk blocks : Nat) (key pt : Bytes) : Bytes :=
  (List.range blocks).flatMap fun i => encryptBlock nk key (slice pt (16 * i) 16)

/-- All S-box inputs of AES on `blocks` blocks: key expansion and all encryptions. The key expansion stops at the last round key. -/
def sboxInputs (nk blocks : Nat) (key pt : Bytes) : List Byte :=
  keyInputs nk key (4 * (nk + 7)) ++
  (List.range blocks).flatMap fun i => cipherInputs (nk + 6) (keyExpansion nk key (4 * (nk + 7))) (slice pt (16 * i) 16)

end Banquet.Spec.Aes
