import Verif.Model.Basic

/-! Parity, and subtraction with a report of overflow. -/

namespace Banquet.Spec

/-- Whether an odd number of bits is set (`__builtin_parity`). -/
def oddBits {w : Nat} (x : BitVec w) : Prop := ((List.range w).filter fun i => x.getLsbD i).length % 2 = 1

/-- `__builtin_sub_overflow` for `size_t`: the difference of the integers, cut to 64 bits, and whether it had to be cut. -/
def SubOverflow (x y : BitVec 64) (r : Bool × BitVec 64) : Prop :=
  r.2 = BitVec.ofInt 64 (x.toNat - y.toNat : Int) ∧ (r.1 = true ↔ ¬(0 ≤ (x.toNat - y.toNat : Int) ∧ (x.toNat - y.toNat : Int) < 2 ^ 64))

end Banquet.Spec
