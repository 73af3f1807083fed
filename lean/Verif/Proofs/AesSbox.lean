import Verif.Model.Aes
import Verif.Spec.Aes

/-! The S-box table is the S-box of FIPS 197. -/

namespace Banquet

set_option maxRecDepth 100000 in
theorem hwSbox_eq : ∀ a : Byte, hwSbox a = Spec.Aes.sbox a := by
  have key : ∀ n : Fin 256, hwSbox (BitVec.ofFin n) = Spec.Aes.sbox (BitVec.ofFin n) := by decide +kernel
  exact fun a => key a.toFin

set_option maxRecDepth 100000 in
/-- MixColumns coefficients. -/
theorem mul_23 : ∀ a : Byte, Spec.Aes.mul a 2 = hwXtime a ∧ Spec.Aes.mul a 3 = hwXtime a ^^^ a := by
  have key : ∀ n : Fin 256, Spec.Aes.mul (BitVec.ofFin n) 2 = hwXtime (BitVec.ofFin n) ∧ Spec.Aes.mul (BitVec.ofFin n) 3 = hwXtime (BitVec.ofFin n) ^^^ BitVec.ofFin n := by decide +kernel
  exact fun a => key a.toFin

end Banquet
