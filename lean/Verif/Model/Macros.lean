import Verif.Model.Basic

/-! Model of the helpers in macros.h. -/

namespace Banquet

/-- `__builtin_clz(x)` for `x ≠ 0` on 32 bits: number of leading zero bits. (GCC manual; undefined for 0.) -/
def builtinClz32 (x : BitVec 32) : Nat := 31 - Nat.log2 x.toNat

/-- `clz` (macros.h:277-279), the version used with GCC and clang. -/
def clz32 (x : BitVec 32) : Nat := if x = 0 then 32 else builtinClz32 x

/-- `clz` (macros.h:286-311), the portable fallback. -/
def clz32Fallback (x : BitVec 32) : BitVec 32 :=
  if x = 0 then 32 else
  let n : BitVec 32 := 1
  let (n, x) := if x >>> 16 = 0 then (n + 16, x <<< 16) else (n, x)
  let (n, x) := if x >>> 24 = 0 then (n + 8, x <<< 8) else (n, x)
  let (n, x) := if x >>> 28 = 0 then (n + 4, x <<< 4) else (n, x)
  let (n, x) := if x >>> 30 = 0 then (n + 2, x <<< 2) else (n, x)
  n - (x >>> 31)

/-- `ceil_log2` (macros.h:314-319). The callers pass `size_t` values, converted to `uint32_t`. -/
def ceilLog2 (x : Nat) : Nat :=
  let x32 : BitVec 32 := BitVec.ofNat 32 x
  if x32 = 0 then 0 else 32 - clz32 (x32 - 1)

end Banquet
