import Verif.Model.Xof

/-! Model of keccak/KeccakHash.c, KeccakSponge.inc, KeccakHashtimes4.c and KeccakSpongetimes4.inc: incremental hashing, single and 4-way, over the functions that KeccakSponge.c and
KeccakSpongetimes4.c plug in for the state (`SnP_*`, `PlSnP_*`). Those are models of their own: Keccak64.lean (keccak/opt64), KeccakAvx2.lean (the assembler), KeccakX4.lean (the SIMD code).

`size_t` values are natural numbers (`size << 3` in kdf_shake.h followed by `/ 8` in KeccakHash.c is the identity below 2^61, more than any buffer can have);
`unsigned int` arithmetic is modulo 2^32. -/

namespace Banquet

/-- The functions on the state behind `SnP_Initialize`, `SnP_AddByte(state, byte, offset)`, `SnP_AddBytes(state, data, offset, length)`, `SnP_ExtractBytes(state, data, offset, length)`, `SnP_Permute`
and `SnP_FastLoop_Absorb(state, laneCount, data, dataByteLen)` (KeccakSponge.c:22-28, KeccakSponge.inc:27-33). `length` is the length of the byte string; `fastLoop` also returns the number of absorbed bytes. -/
structure SnP where
  State : Type
  init : State
  addByte : State → Byte → Nat → M State
  addBytes : State → Bytes → Nat → M State
  extractBytes : State → Nat → Nat → M Bytes
  permute : State → State
  fastLoop : State → Nat → Bytes → M (State × Nat)

/-- `KeccakWidth1600_SpongeInstance` (KeccakSponge.h) and the suffix of `Keccak_HashInstance`; `rate` in bytes; `idx` is `byteIOIndex`. -/
structure Sponge (S : SnP) where
  state : S.State
  rate : Nat
  idx : Nat
  squeezing : Bool
  suffix : Byte

/-- Rate in bytes of the `Keccak_HashInitialize_SHAKE*` macros (KeccakHash.h:70-77: 1344 and 1088 bits). -/
def kindRate : ShakeKind → Nat
  | .shake128 => 168
  | .shake256 => 136

/-- `Keccak_HashInitialize` (KeccakHash.c:23-38, KeccakSponge.inc:134-147) with the SHAKE parameters: suffix 0x1F. -/
def hashInit (S : SnP) (k : ShakeKind) : Sponge S := ⟨S.init, kindRate k, 0, false, 0x1F⟩

/-- `partialBlock` (KeccakSponge.inc:190-192 and 284-286, KeccakSpongetimes4.inc:99-101 and 182-184): `partialBlock = (unsigned int)(dataByteLen - i);
if (partialBlock + byteIOIndex > rateInBytes) partialBlock = rateInBytes - byteIOIndex;` where the sum is an `unsigned int`. -/
def partialBlock (left idx rate : Nat) : Nat :=
  let p := left % 2 ^ 32
  if (p + idx) % 2 ^ 32 > rate then rate - idx else p

/-- The loop over full blocks (KeccakSponge.inc:175-182), for a rate that is not a multiple of 8 bytes; `n` blocks. -/
def absorbBlocks (S : SnP) (rate : Nat) : Nat → S.State → Bytes → M S.State
  | 0, st, _ => .ok st
  | n + 1, st, data => do
    let st ← S.addBytes st (data.take rate) 0
    absorbBlocks S rate n (S.permute st) (data.drop rate)

/-- The `while (i < dataByteLen)` loop of `SpongeAbsorb` (KeccakSponge.inc:163-206) on the remaining data; outcome `fuel` when it has not ended after `fuel` iterations. -/
def absorbLoop (S : SnP) : Nat → Sponge S → Bytes → M (Sponge S)
  | 0, s, data => if data = [] then .ok s else .error .fuel
  | fuel + 1, s, data =>
    if data = [] then .ok s
    else if s.idx = 0 ∧ s.rate ≤ data.length then
      if s.rate % 8 = 0 then do
        let r ← S.fastLoop s.state (s.rate / 8) data
        absorbLoop S fuel { s with state := r.1 } (data.drop r.2)
      else do
        let n := data.length / s.rate
        let st ← absorbBlocks S s.rate n s.state data
        absorbLoop S fuel { s with state := st } (data.drop (n * s.rate))
    else do
      let part := partialBlock data.length s.idx s.rate
      let st ← S.addBytes s.state (data.take part) s.idx
      if s.idx + part = s.rate then absorbLoop S fuel { s with state := S.permute st, idx := 0 } (data.drop part)
      else absorbLoop S fuel { s with state := st, idx := s.idx + part } (data.drop part)

/-- `hash_update` (kdf_shake.h:54-57, KeccakHash.c:42-46, KeccakSponge.inc:151-208). After squeezing has begun the call fails without effect. If the loop ends, `dataByteLen` iterations suffice. -/
def hashUpdate (S : SnP) (s : Sponge S) (data : Bytes) : M (Sponge S) :=
  if s.squeezing then .ok s else absorbLoop S data.length s data

/-- `SpongeAbsorbLastFewBits` (KeccakSponge.inc:212-250). -/
def absorbLast (S : SnP) (s : Sponge S) (delim : Byte) : M (Sponge S) :=
  if delim = 0 ∨ s.squeezing then .ok s
  else do
    let st ← S.addByte s.state delim s.idx
    let st := if delim ≥ 0x80 ∧ s.idx = s.rate - 1 then S.permute st else st
    let st ← S.addByte st 0x80 (s.rate - 1)
    .ok { s with state := S.permute st, idx := 0, squeezing := true }

/-- `hash_final` (kdf_shake.h:59-61, KeccakHash.c:76-85) for SHAKE: fixed output length 0. -/
def hashFinal (S : SnP) (s : Sponge S) : M (Sponge S) := absorbLast S s s.suffix

/-- The full-block loop of `SpongeSqueeze` (KeccakSponge.inc:268-275). -/
def squeezeBlocks (S : SnP) (rate : Nat) : Nat → S.State → M (S.State × Bytes)
  | 0, st => .ok (st, [])
  | n + 1, st => do
    let st := S.permute st
    let out ← S.extractBytes st 0 rate
    let r ← squeezeBlocks S rate n st
    .ok (r.1, out ++ r.2)

/-- The `while` loop of `SpongeSqueeze` (KeccakSponge.inc:266-296); `len` is what remains. -/
def squeezeLoop (S : SnP) : Nat → Sponge S → Nat → M (Sponge S × Bytes)
  | 0, s, len => if len = 0 then .ok (s, []) else .error .fuel
  | fuel + 1, s, len =>
    if len = 0 then .ok (s, [])
    else if s.idx = s.rate ∧ s.rate ≤ len then do
      let n := len / s.rate
      let r ← squeezeBlocks S s.rate n s.state
      let r' ← squeezeLoop S fuel { s with state := r.1 } (len - n * s.rate)
      .ok (r'.1, r.2 ++ r'.2)
    else do
      let s := if s.idx = s.rate then { s with state := S.permute s.state, idx := 0 } else s
      let part := partialBlock len s.idx s.rate
      let out ← S.extractBytes s.state s.idx part
      let r' ← squeezeLoop S fuel { s with idx := s.idx + part } (len - part)
      .ok (r'.1, out ++ r'.2)

/-- `hash_squeeze` (kdf_shake.h:63-66, KeccakHash.c:89-95, KeccakSponge.inc:254-298). -/
def hashSqueeze (S : SnP) (s : Sponge S) (len : Nat) : M (Sponge S × Bytes) := do
  let s ← if s.squeezing then .ok s else absorbLast S s 0x01
  squeezeLoop S len s len

/-! ## 4-way -/

/-- The functions behind `PlSnP_InitializeAll`, `PlSnP_AddByte(states, instance, byte, offset)`, `PlSnP_AddBytes(states, instance, data, offset, length)`, `PlSnP_ExtractBytes(states, instance, data, offset, length)` and
`PlSnP_Permute` (KeccakSpongetimes4.c:18-26, KeccakSpongetimes4.inc:26-32). -/
structure PlSnP where
  State : Type
  init : State
  addByte : State → Fin 4 → Byte → Nat → M State
  addBytes : State → Fin 4 → Bytes → Nat → M State
  extractBytes : State → Fin 4 → Nat → Nat → M Bytes
  permute : State → State

/-- The instance of KeccakSpongetimes4.h: four states, one rate and one index. -/
structure Sponge4 (S : PlSnP) where
  state : S.State
  rate : Nat
  idx : Nat
  squeezing : Bool
  suffix : Byte

/-- `Keccak_HashInitializetimes4` (KeccakHashtimes4.c:19-31, KeccakSpongetimes4.inc:38-51). -/
def hashInit4 (S : PlSnP) (k : ShakeKind) : Sponge4 S := ⟨S.init, kindRate k, 0, false, 0x1F⟩

/-- `for (instanceIndex = 0; instanceIndex < 4; instanceIndex++) PlSnP_AddBytes(...)`. -/
def addBytes4 (S : PlSnP) (st : S.State) (data : Fin 4 → Bytes) (offset : Nat) : M S.State := do
  let st ← S.addBytes st 0 (data 0) offset
  let st ← S.addBytes st 1 (data 1) offset
  let st ← S.addBytes st 2 (data 2) offset
  S.addBytes st 3 (data 3) offset

/-- `for (instanceIndex = 0; instanceIndex < 4; instanceIndex++) PlSnP_AddByte(...)`. -/
def addByte4 (S : PlSnP) (st : S.State) (b : Byte) (offset : Nat) : M S.State := do
  let st ← S.addByte st 0 b offset
  let st ← S.addByte st 1 b offset
  let st ← S.addByte st 2 b offset
  S.addByte st 3 b offset

/-- `for (instanceIndex = 0; instanceIndex < 4; instanceIndex++) PlSnP_ExtractBytes(...)`. -/
def extractBytes4 (S : PlSnP) (st : S.State) (offset len : Nat) : M (Fin 4 → Bytes) := do
  let a ← S.extractBytes st 0 offset len
  let b ← S.extractBytes st 1 offset len
  let c ← S.extractBytes st 2 offset len
  let d ← S.extractBytes st 3 offset len
  .ok fun l => [a, b, c, d].getD l.val []

/-- Full blocks (KeccakSpongetimes4.inc:85-91; the fast loop of lines 73-82 is not compiled in: KeccakSpongetimes4.c:24). -/
def absorbBlocks4 (S : PlSnP) (rate : Nat) : Nat → S.State → (Fin 4 → Bytes) → M S.State
  | 0, st, _ => .ok st
  | n + 1, st, data => do
    let st ← addBytes4 S st (fun l => (data l).take rate) 0
    absorbBlocks4 S rate n (S.permute st) (fun l => (data l).drop rate)

/-- The loop of `SpongeAbsorb` (KeccakSpongetimes4.inc:71-114); `len` is the common remaining length. -/
def absorbLoop4 (S : PlSnP) : Nat → Sponge4 S → (Fin 4 → Bytes) → Nat → M (Sponge4 S)
  | 0, s, _, len => if len = 0 then .ok s else .error .fuel
  | fuel + 1, s, data, len =>
    if len = 0 then .ok s
    else if s.idx = 0 ∧ s.rate ≤ len then do
      let n := len / s.rate
      let st ← absorbBlocks4 S s.rate n s.state data
      absorbLoop4 S fuel { s with state := st } (fun l => (data l).drop (n * s.rate)) (len - n * s.rate)
    else do
      let part := partialBlock len s.idx s.rate
      let st ← addBytes4 S s.state (fun l => (data l).take part) s.idx
      if s.idx + part = s.rate then
        absorbLoop4 S fuel { s with state := S.permute st, idx := 0 } (fun l => (data l).drop part) (len - part)
      else absorbLoop4 S fuel { s with state := st, idx := s.idx + part } (fun l => (data l).drop part) (len - part)

/-- `hash_update_x4` (kdf_shake.h:108-111, KeccakHashtimes4.c:35-40, KeccakSpongetimes4.inc:55-116): `len` bytes from each of four buffers. -/
def hashUpdate4 (S : PlSnP) (s : Sponge4 S) (data : Fin 4 → Bytes) (len : Nat) : M (Sponge4 S) :=
  if s.squeezing then .ok s else absorbLoop4 S len s data len

/-- `SpongeAbsorbLastFewBits` (KeccakSpongetimes4.inc:120-145). -/
def absorbLast4 (S : PlSnP) (s : Sponge4 S) (delim : Byte) : M (Sponge4 S) :=
  if delim = 0 ∨ s.squeezing then .ok s
  else do
    let st ← addByte4 S s.state delim s.idx
    let st := if delim ≥ 0x80 ∧ s.idx = s.rate - 1 then S.permute st else st
    let st ← addByte4 S st 0x80 (s.rate - 1)
    .ok { s with state := S.permute st, idx := 0, squeezing := true }

/-- `hash_final_x4` (KeccakHashtimes4.c:44-51). -/
def hashFinal4 (S : PlSnP) (s : Sponge4 S) : M (Sponge4 S) := absorbLast4 S s s.suffix

/-- Full blocks (KeccakSpongetimes4.inc:167-173). -/
def squeezeBlocks4 (S : PlSnP) (rate : Nat) : Nat → S.State → M (S.State × (Fin 4 → Bytes))
  | 0, st => .ok (st, fun _ => [])
  | n + 1, st => do
    let st := S.permute st
    let out ← extractBytes4 S st 0 rate
    let r ← squeezeBlocks4 S rate n st
    .ok (r.1, fun l => out l ++ r.2 l)

/-- The loop of `SpongeSqueeze` (KeccakSpongetimes4.inc:165-193). -/
def squeezeLoop4 (S : PlSnP) : Nat → Sponge4 S → Nat → M (Sponge4 S × (Fin 4 → Bytes))
  | 0, s, len => if len = 0 then .ok (s, fun _ => []) else .error .fuel
  | fuel + 1, s, len =>
    if len = 0 then .ok (s, fun _ => [])
    else if s.idx = s.rate ∧ s.rate ≤ len then do
      let n := len / s.rate
      let r ← squeezeBlocks4 S s.rate n s.state
      let r' ← squeezeLoop4 S fuel { s with state := r.1 } (len - n * s.rate)
      .ok (r'.1, fun l => r.2 l ++ r'.2 l)
    else do
      let s := if s.idx = s.rate then { s with state := S.permute s.state, idx := 0 } else s
      let part := partialBlock len s.idx s.rate
      let out ← extractBytes4 S s.state s.idx part
      let r' ← squeezeLoop4 S fuel { s with idx := s.idx + part } (len - part)
      .ok (r'.1, fun l => out l ++ r'.2 l)

/-- `hash_squeeze_x4` (kdf_shake.h, KeccakHashtimes4.c:55-60, KeccakSpongetimes4.inc:149-195). -/
def hashSqueeze4 (S : PlSnP) (s : Sponge4 S) (len : Nat) : M (Sponge4 S × (Fin 4 → Bytes)) := do
  let s ← if s.squeezing then .ok s else absorbLast4 S s 0x01
  squeezeLoop4 S len s len

end Banquet
