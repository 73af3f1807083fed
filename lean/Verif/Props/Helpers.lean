import Verif.Proofs.Helpers

/-! Property theorems C84: the portable helpers of macros.h that are compiled where the builtins are missing. -/

namespace Banquet.Props

open Spec

/-! ### C84 -/

/-- C84: the portable parity functions return 1 if an odd number of bits is set, otherwise 0, for all inputs. -/
theorem C84_parity8 (x : BitVec 8) : (oddBits x → parityUint8 x = 1) ∧ (¬oddBits x → parityUint8 x = 0) := by
  unfold oddBits
  revert x
  decide +kernel

theorem C84_parity16 (x : BitVec 16) : (oddBits x → parityUint16 x = 1) ∧ (¬oddBits x → parityUint16 x = 0) := by
  have h := parityUint16_nat x
  rw [oddBits, filter_parity, ← h]
  have : (parityUint16 x).toNat < 2 := by rw [h]; exact Bool.toNat_lt _
  exact ⟨fun e => BitVec.eq_of_toNat_eq e, fun e => BitVec.eq_of_toNat_eq (show _ = 0 by omega)⟩

theorem C84_parity64 (x : BitVec 64) : (oddBits x → parityUint64 x = 1) ∧ (¬oddBits x → parityUint64 x = 0) := by
  have h := parityUint64_nat x
  rw [oddBits, filter_parity, ← h]
  have : (parityUint64 x).toNat < 2 := by rw [h]; exact Bool.toNat_lt _
  exact ⟨fun e => BitVec.eq_of_toNat_eq e, fun e => BitVec.eq_of_toNat_eq (show _ = 0 by omega)⟩

/-- All 64 bits set, and all but one. -/
example : ¬oddBits (0xFFFFFFFFFFFFFFFF : BitVec 64) ∧ oddBits (0x7FFFFFFFFFFFFFFF : BitVec 64) ∧ parityUint64 0xFFFFFFFFFFFFFFFF = 0 ∧ parityUint64 0x7FFFFFFFFFFFFFFF = 1 := by
  unfold oddBits
  decide +kernel

/-- C84: the portable checked subtraction is that of the compiler. -/
theorem C84_sub (x y : BitVec 64) : SubOverflow x y (subOverflow x y) := by
  have hx := x.isLt
  have hy := y.isLt
  refine ⟨BitVec.eq_of_toNat_eq ?_, ?_⟩
  · show (x - y).toNat = _
    rw [BitVec.toNat_sub, BitVec.toNat_ofInt]
    omega
  · show decide (x < y) = true ↔ _
    rw [decide_eq_true_iff, BitVec.lt_def]
    omega

/-- With and without overflow. -/
example : subOverflow 3 5 = (true, 0xFFFFFFFFFFFFFFFE) ∧ subOverflow 5 3 = (false, 2) := by decide

end Banquet.Props
