import Verif.Model.Sponge

/-! Model of all of keccak/KeccakHash.c and of the rest of keccak/KeccakSponge.inc: any rate and capacity, any delimited suffix, fixed output lengths, messages that are not whole bytes, and hashing in one call.
The library itself only uses SHAKE128 and SHAKE256 and whole bytes (Model/Sponge). -/

namespace Banquet

/-- `Keccak_HashInstance` (KeccakHash.h:39-43): `sponge` includes `delimitedSuffix` (`Sponge.suffix`); `rate` is in bytes there. -/
structure HashInst (S : SnP) where
  sponge : Sponge S
  fixedBits : Nat

/-- The checks of `SpongeInitialize` (KeccakSponge.inc:136-139) and `Sponge` (lines 43-46), for `unsigned int` parameters. -/
def badRate (rate capacity : Nat) : Bool := (rate + capacity) % 2 ^ 32 ≠ 1600 || rate = 0 || rate > 1600 || rate % 8 ≠ 0

/-- `Keccak_HashInitialize` (KeccakHash.c:23-38): `none` is `KECCAK_FAIL`. -/
def hashInitialize (S : SnP) (rate capacity hashbitlen : Nat) (suffix : Byte) : Option (HashInst S) :=
  if suffix = 0 then none
  else if badRate rate capacity then none
  else some ⟨⟨S.init, rate / 8, 0, false, suffix⟩, hashbitlen⟩

/-- `delimitedLastBytes` (KeccakHash.c:54-58), an `unsigned short`. -/
def delimitedLast (lastByte suffix : Byte) (n : Nat) : BitVec 16 := (lastByte.setWidth 16 &&& BitVec.ofNat 16 (2 ^ n - 1)) ||| (suffix.setWidth 16 <<< n)

/-- `Keccak_HashUpdate` (KeccakHash.c:42-72); `false` is `KECCAK_FAIL`. Data shorter than announced are undefined behaviour, unless squeezing has begun and they are not looked at (KeccakSponge.inc:158-159). -/
def hashUpdateBits (S : SnP) (h : HashInst S) (data : Bytes) (databitlen : Nat) : M (HashInst S × Bool) :=
  if h.sponge.squeezing then .ok (h, false)
  else if data.length < databitlen / 8 then .error .ub
  else do
    let s ← hashUpdate S h.sponge (data.take (databitlen / 8))
    if databitlen % 8 = 0 then .ok ({ h with sponge := s }, true)
    else match data[databitlen / 8]? with
      | none => .error .ub
      | some lastByte => do
        let d := delimitedLast lastByte s.suffix (databitlen % 8)
        if d &&& 0xFF00 = 0 then .ok ({ h with sponge := { s with suffix := d.setWidth 8 } }, true)
        else do
          let s ← hashUpdate S s [d.setWidth 8]
          .ok ({ h with sponge := { s with suffix := (d >>> 8).setWidth 8 } }, true)

/-- `Keccak_HashFinal` (KeccakHash.c:76-85): `none` is `KECCAK_FAIL` (KeccakSponge.inc:216-219), otherwise the hash value. -/
def hashFinalFixed (S : SnP) (h : HashInst S) : M (HashInst S × Option Bytes) :=
  if h.sponge.suffix = 0 ∨ h.sponge.squeezing then .ok (h, none)
  else do
    let s ← absorbLast S h.sponge h.sponge.suffix
    let (s, out) ← hashSqueeze S s (h.fixedBits / 8)
    .ok ({ h with sponge := s }, some out)

/-- `Keccak_HashSqueeze` (KeccakHash.c:89-95). -/
def hashSqueezeBits (S : SnP) (h : HashInst S) (databitlen : Nat) : M (HashInst S × Option Bytes) :=
  if databitlen % 8 ≠ 0 then .ok (h, none)
  else do
    let (s, out) ← hashSqueeze S h.sponge (databitlen / 8)
    .ok ({ h with sponge := s }, some out)

/-! ## In one call -/

/-- `while (outputByteLen > (size_t)rateInBytes)` and the last, partial block (KeccakSponge.inc:110-122); outcome `fuel` when the loop has not ended after `fuel` iterations. -/
def spongeOut (S : SnP) (rate : Nat) : Nat → S.State → Nat → M Bytes
  | 0, st, len => if len > rate then .error .fuel else S.extractBytes st 0 (len % 2 ^ 32)
  | fuel + 1, st, len =>
    if len > rate then do
      let out ← S.extractBytes st 0 rate
      let rest ← spongeOut S rate fuel (S.permute st) (len - rate)
      .ok (out ++ rest)
    else S.extractBytes st 0 (len % 2 ^ 32)

/-- `SnP_FastLoop_Absorb` in `Sponge` (KeccakSponge.inc:54-63): the state and the number of bytes absorbed. -/
def spongeFast (S : SnP) (R : Nat) (input : Bytes) : M (S.State × Nat) := if R % 8 = 0 ∧ R ≤ input.length then S.fastLoop S.init (R / 8) input else .ok (S.init, 0)

/-- `KeccakWidth1600_Sponge` (KeccakSponge.inc:35-128): `none` is the return value 1. The loop over whole blocks (lines 64-72) is `absorbBlocks`; after the fast loop it has nothing left to do. -/
def spongeOneCall (S : SnP) (rate capacity : Nat) (input : Bytes) (suffix : Byte) (outputByteLen : Nat) : M (Option Bytes) :=
  if badRate rate capacity then .ok none
  else if suffix = 0 then .ok none
  else do
    let R := rate / 8
    let (st, j) ← spongeFast S R input
    let input := input.drop j
    let n := input.length / R
    let st ← absorbBlocks S R n st input
    let input := input.drop (n * R)
    let part := input.length % 2 ^ 32
    let st ← S.addBytes st (input.take part) 0
    let st ← S.addByte st suffix part
    let st := if suffix ≥ 0x80 ∧ part = R - 1 then S.permute st else st
    let st ← S.addByte st 0x80 (R - 1)
    let out ← spongeOut S R outputByteLen (S.permute st) outputByteLen
    .ok (some out)

end Banquet
