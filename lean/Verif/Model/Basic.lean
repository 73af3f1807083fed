/-!
Basic vocabulary of the model of dkales/banquet: bytes, outcomes, little endian encodings, byte slices.
-/

namespace Banquet

/-- `uint8_t`. -/
abbrev Byte := BitVec 8

/-- `std::vector<uint8_t>`, `gsl::span<uint8_t>` and `std::array<uint8_t, n>`: byte strings.
Spans are modelled by value; writes through spans are modelled by returning the new contents. -/
abbrev Bytes := List Byte

/-- `uint64_t`. -/
abbrev W64 := BitVec 64

/-- How a C++ function can fail to return.
* `thrown`: a C++ exception leaves the function.
* `ub`: undefined behaviour (out-of-bounds access, undefined argument of a builtin), or a container of a size the code
  silently relies on without checking it.
* `abort`: a failed `assert`. The repository builds with `CMAKE_BUILD_TYPE=Release` by default (CMakeLists.txt:6-8), that is with
  `NDEBUG`; then assertions are no-ops.
* `fuel`: a rejection sampling loop did not end within the number of iterations given to the model. -/
inductive Err where
  | thrown
  | ub
  | abort
  | fuel
  deriving DecidableEq, Repr

/-- Result of a modelled call. -/
abbrev M := Except Err

/-- Fail with `e` unless `c` holds. -/
def require (e : Err) (c : Bool) : M Unit := if c then .ok () else .error e

/-- `hash_update_uint16_le` operand (kdf_shake.h:71-74): the two bytes of a `uint16_t`, little endian. `n` is a `size_t` that the callers convert to
`uint16_t`, i.e. reduce modulo 2^16. -/
def le16 (n : Nat) : Bytes := [BitVec.ofNat 8 n, BitVec.ofNat 8 (n / 256)]

/-- `span.subspan(start, len)` / `memcpy` source range: bytes `start .. start+len-1`. Callers guard that the range is inside. -/
def slice (bs : Bytes) (start len : Nat) : Bytes := (bs.drop start).take len

/-- `std::transform(begin(a), end(a), begin(b), begin(b), bit_xor)` on ranges of equal length. -/
def xorBytes (a b : Bytes) : Bytes := List.zipWith (· ^^^ ·) a b

end Banquet
