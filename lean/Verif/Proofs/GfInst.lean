import Verif.Proofs.Gf
import Mathlib.Tactic.ComputeDegree

namespace Banquet

open Polynomial Spec

theorem wordPoly_mod2 : wordPoly (ofCoeffs [16, 5, 3, 1, 0]) = fieldPoly 2 := by
  rw [show ofCoeffs [16, 5, 3, 1, 0] = (1#64 <<< 16) ^^^ (1#64 <<< 5) ^^^ (1#64 <<< 3) ^^^ (1#64 <<< 1) ^^^ (1#64 <<< 0) by decide]
  simp only [wordPoly_xor]
  rw [wordPoly_twoPow (n := 64) 16 (by norm_num), wordPoly_twoPow (n := 64) 5 (by norm_num), wordPoly_twoPow (n := 64) 3 (by norm_num), wordPoly_twoPow (n := 64) 1 (by norm_num), wordPoly_twoPow (n := 64) 0 (by norm_num)]
  simp [fieldPoly]

theorem wordPoly_mod4 : wordPoly (ofCoeffs [32, 7, 3, 2, 0]) = fieldPoly 4 := by
  rw [show ofCoeffs [32, 7, 3, 2, 0] = (1#64 <<< 32) ^^^ (1#64 <<< 7) ^^^ (1#64 <<< 3) ^^^ (1#64 <<< 2) ^^^ (1#64 <<< 0) by decide]
  simp only [wordPoly_xor]
  rw [wordPoly_twoPow (n := 64) 32 (by norm_num), wordPoly_twoPow (n := 64) 7 (by norm_num), wordPoly_twoPow (n := 64) 3 (by norm_num), wordPoly_twoPow (n := 64) 2 (by norm_num), wordPoly_twoPow (n := 64) 0 (by norm_num)]
  simp [fieldPoly]

theorem wordPoly_mod5 : wordPoly (ofCoeffs [40, 5, 4, 3, 0]) = fieldPoly 5 := by
  rw [show ofCoeffs [40, 5, 4, 3, 0] = (1#64 <<< 40) ^^^ (1#64 <<< 5) ^^^ (1#64 <<< 4) ^^^ (1#64 <<< 3) ^^^ (1#64 <<< 0) by decide]
  simp only [wordPoly_xor]
  rw [wordPoly_twoPow (n := 64) 40 (by norm_num), wordPoly_twoPow (n := 64) 5 (by norm_num), wordPoly_twoPow (n := 64) 4 (by norm_num), wordPoly_twoPow (n := 64) 3 (by norm_num), wordPoly_twoPow (n := 64) 0 (by norm_num)]
  simp [fieldPoly]

theorem wordPoly_mod6 : wordPoly (ofCoeffs [48, 5, 3, 2, 0]) = fieldPoly 6 := by
  rw [show ofCoeffs [48, 5, 3, 2, 0] = (1#64 <<< 48) ^^^ (1#64 <<< 5) ^^^ (1#64 <<< 3) ^^^ (1#64 <<< 2) ^^^ (1#64 <<< 0) by decide]
  simp only [wordPoly_xor]
  rw [wordPoly_twoPow (n := 64) 48 (by norm_num), wordPoly_twoPow (n := 64) 5 (by norm_num), wordPoly_twoPow (n := 64) 3 (by norm_num), wordPoly_twoPow (n := 64) 2 (by norm_num), wordPoly_twoPow (n := 64) 0 (by norm_num)]
  simp [fieldPoly]

theorem wordPoly_root2 : wordPoly (ofCoeffs [14, 8, 7, 6, 3, 2, 0]) = aesRoot 2 := by
  rw [show ofCoeffs [14, 8, 7, 6, 3, 2, 0] = (1#64 <<< 14) ^^^ (1#64 <<< 8) ^^^ (1#64 <<< 7) ^^^ (1#64 <<< 6) ^^^ (1#64 <<< 3) ^^^ (1#64 <<< 2) ^^^ (1#64 <<< 0) by decide]
  simp only [wordPoly_xor]
  rw [wordPoly_twoPow (n := 64) 14 (by norm_num), wordPoly_twoPow (n := 64) 8 (by norm_num), wordPoly_twoPow (n := 64) 7 (by norm_num), wordPoly_twoPow (n := 64) 6 (by norm_num), wordPoly_twoPow (n := 64) 3 (by norm_num), wordPoly_twoPow (n := 64) 2 (by norm_num), wordPoly_twoPow (n := 64) 0 (by norm_num)]
  simp [aesRoot]

theorem wordPoly_root4 : wordPoly (ofCoeffs [30, 23, 21, 18, 14, 13, 11, 9, 7, 6, 5, 4, 3, 1]) = aesRoot 4 := by
  rw [show ofCoeffs [30, 23, 21, 18, 14, 13, 11, 9, 7, 6, 5, 4, 3, 1] = (1#64 <<< 30) ^^^ (1#64 <<< 23) ^^^ (1#64 <<< 21) ^^^ (1#64 <<< 18) ^^^ (1#64 <<< 14) ^^^ (1#64 <<< 13) ^^^ (1#64 <<< 11) ^^^ (1#64 <<< 9) ^^^ (1#64 <<< 7) ^^^ (1#64 <<< 6) ^^^ (1#64 <<< 5) ^^^ (1#64 <<< 4) ^^^ (1#64 <<< 3) ^^^ (1#64 <<< 1) by decide]
  simp only [wordPoly_xor]
  rw [wordPoly_twoPow (n := 64) 30 (by norm_num), wordPoly_twoPow (n := 64) 23 (by norm_num), wordPoly_twoPow (n := 64) 21 (by norm_num), wordPoly_twoPow (n := 64) 18 (by norm_num), wordPoly_twoPow (n := 64) 14 (by norm_num), wordPoly_twoPow (n := 64) 13 (by norm_num), wordPoly_twoPow (n := 64) 11 (by norm_num), wordPoly_twoPow (n := 64) 9 (by norm_num), wordPoly_twoPow (n := 64) 7 (by norm_num), wordPoly_twoPow (n := 64) 6 (by norm_num), wordPoly_twoPow (n := 64) 5 (by norm_num), wordPoly_twoPow (n := 64) 4 (by norm_num), wordPoly_twoPow (n := 64) 3 (by norm_num), wordPoly_twoPow (n := 64) 1 (by norm_num)]
  simp [aesRoot]

theorem wordPoly_root5 : wordPoly (ofCoeffs [31, 30, 27, 25, 22, 21, 20, 18, 15, 9, 6, 4, 2]) = aesRoot 5 := by
  rw [show ofCoeffs [31, 30, 27, 25, 22, 21, 20, 18, 15, 9, 6, 4, 2] = (1#64 <<< 31) ^^^ (1#64 <<< 30) ^^^ (1#64 <<< 27) ^^^ (1#64 <<< 25) ^^^ (1#64 <<< 22) ^^^ (1#64 <<< 21) ^^^ (1#64 <<< 20) ^^^ (1#64 <<< 18) ^^^ (1#64 <<< 15) ^^^ (1#64 <<< 9) ^^^ (1#64 <<< 6) ^^^ (1#64 <<< 4) ^^^ (1#64 <<< 2) by decide]
  simp only [wordPoly_xor]
  rw [wordPoly_twoPow (n := 64) 31 (by norm_num), wordPoly_twoPow (n := 64) 30 (by norm_num), wordPoly_twoPow (n := 64) 27 (by norm_num), wordPoly_twoPow (n := 64) 25 (by norm_num), wordPoly_twoPow (n := 64) 22 (by norm_num), wordPoly_twoPow (n := 64) 21 (by norm_num), wordPoly_twoPow (n := 64) 20 (by norm_num), wordPoly_twoPow (n := 64) 18 (by norm_num), wordPoly_twoPow (n := 64) 15 (by norm_num), wordPoly_twoPow (n := 64) 9 (by norm_num), wordPoly_twoPow (n := 64) 6 (by norm_num), wordPoly_twoPow (n := 64) 4 (by norm_num), wordPoly_twoPow (n := 64) 2 (by norm_num)]
  simp [aesRoot]

theorem wordPoly_root6 : wordPoly (ofCoeffs [45, 43, 40, 37, 36, 35, 34, 33, 31, 30, 29, 28, 24, 21, 20, 19, 16, 14, 13, 11, 10, 7, 3, 2]) = aesRoot 6 := by
  rw [show ofCoeffs [45, 43, 40, 37, 36, 35, 34, 33, 31, 30, 29, 28, 24, 21, 20, 19, 16, 14, 13, 11, 10, 7, 3, 2] = (1#64 <<< 45) ^^^ (1#64 <<< 43) ^^^ (1#64 <<< 40) ^^^ (1#64 <<< 37) ^^^ (1#64 <<< 36) ^^^ (1#64 <<< 35) ^^^ (1#64 <<< 34) ^^^ (1#64 <<< 33) ^^^ (1#64 <<< 31) ^^^ (1#64 <<< 30) ^^^ (1#64 <<< 29) ^^^ (1#64 <<< 28) ^^^ (1#64 <<< 24) ^^^ (1#64 <<< 21) ^^^ (1#64 <<< 20) ^^^ (1#64 <<< 19) ^^^ (1#64 <<< 16) ^^^ (1#64 <<< 14) ^^^ (1#64 <<< 13) ^^^ (1#64 <<< 11) ^^^ (1#64 <<< 10) ^^^ (1#64 <<< 7) ^^^ (1#64 <<< 3) ^^^ (1#64 <<< 2) by decide]
  simp only [wordPoly_xor]
  rw [wordPoly_twoPow (n := 64) 45 (by norm_num), wordPoly_twoPow (n := 64) 43 (by norm_num), wordPoly_twoPow (n := 64) 40 (by norm_num), wordPoly_twoPow (n := 64) 37 (by norm_num), wordPoly_twoPow (n := 64) 36 (by norm_num), wordPoly_twoPow (n := 64) 35 (by norm_num), wordPoly_twoPow (n := 64) 34 (by norm_num), wordPoly_twoPow (n := 64) 33 (by norm_num), wordPoly_twoPow (n := 64) 31 (by norm_num), wordPoly_twoPow (n := 64) 30 (by norm_num), wordPoly_twoPow (n := 64) 29 (by norm_num), wordPoly_twoPow (n := 64) 28 (by norm_num), wordPoly_twoPow (n := 64) 24 (by norm_num), wordPoly_twoPow (n := 64) 21 (by norm_num), wordPoly_twoPow (n := 64) 20 (by norm_num), wordPoly_twoPow (n := 64) 19 (by norm_num), wordPoly_twoPow (n := 64) 16 (by norm_num), wordPoly_twoPow (n := 64) 14 (by norm_num), wordPoly_twoPow (n := 64) 13 (by norm_num), wordPoly_twoPow (n := 64) 11 (by norm_num), wordPoly_twoPow (n := 64) 10 (by norm_num), wordPoly_twoPow (n := 64) 7 (by norm_num), wordPoly_twoPow (n := 64) 3 (by norm_num), wordPoly_twoPow (n := 64) 2 (by norm_num)]
  simp [aesRoot]

theorem monic2 : (wordPoly (ofCoeffs [16, 5, 3, 1, 0])).Monic := by rw [wordPoly_mod2, fieldPoly]; monicity!
theorem monic4 : (wordPoly (ofCoeffs [32, 7, 3, 2, 0])).Monic := by rw [wordPoly_mod4, fieldPoly]; monicity!
theorem monic5 : (wordPoly (ofCoeffs [40, 5, 4, 3, 0])).Monic := by rw [wordPoly_mod5, fieldPoly]; monicity!
theorem monic6 : (wordPoly (ofCoeffs [48, 5, 3, 2, 0])).Monic := by rw [wordPoly_mod6, fieldPoly]; monicity!
theorem natDegree2 : (wordPoly (ofCoeffs [16, 5, 3, 1, 0])).natDegree = 16 := by rw [wordPoly_mod2, fieldPoly]; compute_degree!
theorem natDegree4 : (wordPoly (ofCoeffs [32, 7, 3, 2, 0])).natDegree = 32 := by rw [wordPoly_mod4, fieldPoly]; compute_degree!
theorem natDegree5 : (wordPoly (ofCoeffs [40, 5, 4, 3, 0])).natDegree = 40 := by rw [wordPoly_mod5, fieldPoly]; compute_degree!
theorem natDegree6 : (wordPoly (ofCoeffs [48, 5, 3, 2, 0])).natDegree = 48 := by rw [wordPoly_mod6, fieldPoly]; compute_degree!

theorem primes16 : ∀ q ∈ [3, 5, 17, 257], Nat.Prime q := by simp; norm_num
theorem primes32 : ∀ q ∈ [3, 5, 17, 257, 65537], Nat.Prime q := by simp; norm_num
theorem primes40 : ∀ q ∈ [3, 5, 5, 11, 17, 31, 41, 61681], Nat.Prime q := by simp; norm_num
theorem primes48 : ∀ q ∈ [3, 3, 5, 7, 13, 17, 97, 241, 257, 673], Nat.Prime q := by simp; norm_num

/-! Orders of a primitive element and of `X` (the word 2). -/
set_option maxRecDepth 100000

theorem order_g2 : orderOf (wcls (ofCoeffs [16, 5, 3, 1, 0]) 3) = 2 ^ 16 - 1 :=
  orderOf_wcls reduce16_ok monic2 natDegree2 (by decide) _ (by norm_num) (by norm_num) _ primes16 (by norm_num)
    (by decide +kernel) (by decide +kernel)

theorem order_g4 : orderOf (wcls (ofCoeffs [32, 7, 3, 2, 0]) 3) = 2 ^ 32 - 1 :=
  orderOf_wcls reduce32_ok monic4 natDegree4 (by decide) _ (by norm_num) (by norm_num) _ primes32 (by norm_num)
    (by decide +kernel) (by decide +kernel)

theorem order_x5 : orderOf (wcls (ofCoeffs [40, 5, 4, 3, 0]) 2) = 2 ^ 40 - 1 :=
  orderOf_wcls reduce40_ok monic5 natDegree5 (by decide) _ (by norm_num) (by norm_num) _ primes40 (by norm_num)
    (by decide +kernel) (by decide +kernel)

theorem order_g6 : orderOf (wcls (ofCoeffs [48, 5, 3, 2, 0]) 3) = 2 ^ 48 - 1 :=
  orderOf_wcls reduce48_ok monic6 natDegree6 (by decide) _ (by norm_num) (by norm_num) _ primes48 (by norm_num)
    (by decide +kernel) (by decide +kernel)

theorem order_x2 : orderOf (wcls (ofCoeffs [16, 5, 3, 1, 0]) 2) = 21845 :=
  orderOf_wcls reduce16_ok monic2 natDegree2 (by decide) _ (by norm_num) (by norm_num) [5, 17, 257] (fun q hq => primes16 q (List.mem_cons_of_mem _ hq)) (by norm_num)
    (by decide +kernel) (by decide +kernel)

theorem order_x4 : orderOf (wcls (ofCoeffs [32, 7, 3, 2, 0]) 2) = 1431655765 :=
  orderOf_wcls reduce32_ok monic4 natDegree4 (by decide) _ (by norm_num) (by norm_num) [5, 17, 257, 65537] (fun q hq => primes32 q (List.mem_cons_of_mem _ hq)) (by norm_num)
    (by decide +kernel) (by decide +kernel)

theorem order_x6 : orderOf (wcls (ofCoeffs [48, 5, 3, 2, 0]) 2) = 6254999482459 :=
  orderOf_wcls reduce48_ok monic6 natDegree6 (by decide) _ (by norm_num) (by norm_num) [7, 13, 17, 97, 241, 257, 673] (fun q hq => primes48 q (List.mem_cons_of_mem _ (List.mem_cons_of_mem _ (List.mem_cons_of_mem _ hq)))) (by norm_num)
    (by decide +kernel) (by decide +kernel)

theorem irreducible2 : Irreducible (wordPoly (ofCoeffs [16, 5, 3, 1, 0])) := irreducible_of_order monic2 natDegree2 (by norm_num) (by norm_num) order_g2
theorem irreducible4 : Irreducible (wordPoly (ofCoeffs [32, 7, 3, 2, 0])) := irreducible_of_order monic4 natDegree4 (by norm_num) (by norm_num) order_g4
theorem irreducible5 : Irreducible (wordPoly (ofCoeffs [40, 5, 4, 3, 0])) := irreducible_of_order monic5 natDegree5 (by norm_num) (by norm_num) order_x5
theorem irreducible6 : Irreducible (wordPoly (ofCoeffs [48, 5, 3, 2, 0])) := irreducible_of_order monic6 natDegree6 (by norm_num) (by norm_num) order_g6

end Banquet
