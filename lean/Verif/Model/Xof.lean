import Verif.Model.Basic

/-! Hashing as the rest of the code sees it (kdf_shake.h): an extendable output function. The protocol model is parametric in it. -/

namespace Banquet

/-- The two functions selected by `hash_init` (kdf_shake.h:46-52). -/
inductive ShakeKind where
  | shake128
  | shake256
  deriving DecidableEq, Repr

/-- `hash_init(ctx, digest_size)` (kdf_shake.h:46-52) and `hash_init_x4` (kdf_shake.h:100-106): SHAKE128 for 32, SHAKE256 for every other size. -/
def kindOf (digestSize : Nat) : ShakeKind := if digestSize = 32 then .shake128 else .shake256

/-- The output of a finalised context: an infinite byte stream, read by successive `hash_squeeze` calls. -/
structure Stream where
  get : Nat → Byte

/-- `hash_squeeze` of `len` bytes after `off` bytes have been squeezed before. -/
def Stream.squeeze (s : Stream) (off len : Nat) : Bytes := (List.range len).map fun i => s.get (off + i)

/-- All bytes passed to `hash_update` between `hash_init` and `hash_final`, concatenated, determine the output stream. The protocol model
does not look inside. A context of the 4-way functions is modelled as four independent streams. Sponge.lean models the sponge itself (both
versions) and justifies these two simplifications (C38, C39) for pieces below 2^32 bytes minus the rate; a longer message overruns the state in the code. -/
abbrev Xof := ShakeKind → Bytes → Stream

end Banquet
