import Verif.Model.Basic

/-! Model of the helpers in macros.h that the library does not use: the portable versions of the parity functions and of the checked subtraction. -/

namespace Banquet

/-- `parity64_uint8` (macros.h:252-258), the portable version: `in` is converted to `uint64_t` by the multiplication. -/
def parityUint8 (x : BitVec 8) : BitVec 8 :=
  ((((x.setWidth 64 * 0x0101010101010101) &&& 0x8040201008040201) % 0x1FF) &&& 1).setWidth 8

/-- `parity64_uint16` (macros.h:260-265), the portable version. The product is computed with `int` (at most `0x1111 * 0x1111 < 2^31`) and cut to 16 bits. -/
def parityUint16 (x : BitVec 16) : BitVec 16 :=
  let x := x ^^^ (x >>> 1)
  let x := x ^^^ (x >>> 2)
  let x := (x &&& 0x1111) * 0x1111
  (x >>> 12) &&& 1

/-- `parity64_uint64` (macros.h:267-272), the portable version. -/
def parityUint64 (x : BitVec 64) : BitVec 64 :=
  let x := x ^^^ (x >>> 1)
  let x := x ^^^ (x >>> 2)
  let x := (x &&& 0x1111111111111111) * 0x1111111111111111
  (x >>> 60) &&& 1

/-- `sub_overflow_size_t` (macros.h:229-233), the portable version: the return value and `*diff`. -/
def subOverflow (x y : BitVec 64) : Bool × BitVec 64 := (x < y, x - y)

end Banquet
