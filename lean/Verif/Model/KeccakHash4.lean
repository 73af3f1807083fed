import Verif.Model.KeccakHash

/-! Model of all of keccak/KeccakHashtimes4.c and the initialising of keccak/KeccakSpongetimes4.inc: four hash computations side by side for any rate, capacity, delimited suffix and fixed output length.
The library itself only uses SHAKE128 and SHAKE256 without a fixed output length (Model/Sponge). -/

namespace Banquet

/-- `Keccak_HashInstancetimes4` (KeccakHashtimes4.h): `sponge` includes `delimitedSuffix` (`Sponge4.suffix`); `rate` is in bytes there. -/
structure HashInst4 (S : PlSnP) where
  sponge : Sponge4 S
  fixedBits : Nat

/-- `Keccak_HashInitializetimes4` (KeccakHashtimes4.c:19-31) and `SpongeInitialize` (KeccakSpongetimes4.inc:38-51, the same checks as in KeccakSponge.inc): `none` is `KECCAK_FAIL`. -/
def hashInitialize4 (S : PlSnP) (rate capacity hashbitlen : Nat) (suffix : Byte) : Option (HashInst4 S) :=
  if suffix = 0 then none
  else if badRate rate capacity then none
  else some ⟨⟨S.init, rate / 8, 0, false, suffix⟩, hashbitlen⟩

/-- `Keccak_HashUpdatetimes4` (KeccakHashtimes4.c:35-40, KeccakSpongetimes4.inc:55-116); `false` is `KECCAK_FAIL`. If one of the four buffers is shorter than announced, the result is undefined behaviour. -/
def hashUpdateBits4 (S : PlSnP) (h : HashInst4 S) (data : Fin 4 → Bytes) (databitlen : Nat) : M (HashInst4 S × Bool) :=
  if databitlen % 8 ≠ 0 then .ok (h, false)
  else if h.sponge.squeezing then .ok (h, false)
  else if ∃ l, (data l).length < databitlen / 8 then .error .ub
  else do
    let s ← hashUpdate4 S h.sponge (fun l => (data l).take (databitlen / 8)) (databitlen / 8)
    .ok ({ h with sponge := s }, true)

/-- `Keccak_HashFinaltimes4` (KeccakHashtimes4.c:44-51): `none` is `KECCAK_FAIL` (KeccakSpongetimes4.inc:124-127), otherwise the four hash values. -/
def hashFinalFixed4 (S : PlSnP) (h : HashInst4 S) : M (HashInst4 S × Option (Fin 4 → Bytes)) :=
  if h.sponge.suffix = 0 ∨ h.sponge.squeezing then .ok (h, none)
  else do
    let s ← absorbLast4 S h.sponge h.sponge.suffix
    let (s, out) ← hashSqueeze4 S s (h.fixedBits / 8)
    .ok ({ h with sponge := s }, some out)

/-- `Keccak_HashSqueezetimes4` (KeccakHashtimes4.c:55-60). -/
def hashSqueezeBits4 (S : PlSnP) (h : HashInst4 S) (databitlen : Nat) : M (HashInst4 S × Option (Fin 4 → Bytes)) :=
  if databitlen % 8 ≠ 0 then .ok (h, none)
  else do
    let (s, out) ← hashSqueeze4 S h.sponge (databitlen / 8)
    .ok ({ h with sponge := s }, some out)

end Banquet
