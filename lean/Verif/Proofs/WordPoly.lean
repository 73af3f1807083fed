import Verif.Spec.Gf
import Mathlib.Algebra.CharP.Two
import Mathlib.Algebra.Polynomial.Degree.Lemmas
import Mathlib.Algebra.BigOperators.Intervals

namespace Banquet

open Polynomial Spec

section
variable {n m : Nat}

theorem coeff_wordPoly (w : BitVec n) (i : Nat) : (wordPoly w).coeff i = if w.getLsbD i then 1 else 0 := by
  unfold wordPoly
  rw [finsetSum_coeff]
  have : ∀ k, ((if w.getLsbD k then X ^ k else 0 : (ZMod 2)[X])).coeff i = if k = i then (if w.getLsbD i then 1 else 0) else 0 := by
    intro k
    by_cases hk : k = i
    · subst hk
      by_cases hb : w.getLsbD k <;> simp [hb]
    · by_cases hb : w.getLsbD k <;> simp [hb, hk, coeff_X_pow, Ne.symm hk]
  simp only [this]
  rw [Finset.sum_ite_eq']
  by_cases hi : i < n
  · simp [hi]
  · simp [hi, BitVec.getLsbD_of_ge w i (by omega)]

theorem wordPoly_xor (a b : BitVec n) : wordPoly (a ^^^ b) = wordPoly a + wordPoly b := by
  ext i
  simp only [coeff_add, coeff_wordPoly, BitVec.getLsbD_xor]
  cases a.getLsbD i <;> cases b.getLsbD i <;> decide

theorem wordPoly_zero : wordPoly (0 : BitVec n) = 0 := by
  ext i; simp [coeff_wordPoly]

theorem wordPoly_injective : Function.Injective (wordPoly (n := n)) := by
  intro a b h
  apply BitVec.eq_of_getLsbD_eq
  intro i hi
  have := congrArg (fun p => p.coeff i) h
  simp only [coeff_wordPoly] at this
  cases ha : a.getLsbD i <;> cases hb : b.getLsbD i <;> simp_all

theorem getLsbD_of_lt (w : BitVec n) {k i : Nat} (h : w.toNat < 2 ^ k) (hi : k ≤ i) : w.getLsbD i = false := by
  rw [BitVec.getLsbD, Nat.testBit_lt_two_pow]
  exact lt_of_lt_of_le h (Nat.pow_le_pow_right (by norm_num) hi)

theorem lt_of_getLsbD (w : BitVec n) {k : Nat} (h : ∀ i, k ≤ i → w.getLsbD i = false) : w.toNat < 2 ^ k := by
  apply Nat.lt_pow_two_of_testBit
  intro i hi
  exact h i hi

theorem degree_wordPoly_lt (w : BitVec n) (k : Nat) : (wordPoly w).degree < k ↔ w.toNat < 2 ^ k := by
  constructor
  · intro h
    apply lt_of_getLsbD
    intro i hi
    have : (wordPoly w).coeff i = 0 := coeff_eq_zero_of_degree_lt (lt_of_lt_of_le h (by exact_mod_cast hi))
    rw [coeff_wordPoly] at this
    by_contra hc
    simp [hc] at this
  · intro h
    rw [degree_lt_iff_coeff_zero]
    intro i hi
    rw [coeff_wordPoly, getLsbD_of_lt w h hi]
    rfl

theorem wordPoly_setWidth (w : BitVec n) (h : w.toNat < 2 ^ m) : wordPoly (w.setWidth m) = wordPoly w := by
  ext i
  simp only [coeff_wordPoly, BitVec.getLsbD_setWidth]
  by_cases hi : i < m
  · simp [hi]
  · rw [getLsbD_of_lt w h (by omega)]; simp

theorem wordPoly_shiftLeft (w : BitVec n) (k : Nat) (h : w.toNat < 2 ^ (n - k)) : wordPoly (w <<< k) = wordPoly w * X ^ k := by
  ext i
  rw [coeff_mul_X_pow']
  simp only [coeff_wordPoly, BitVec.getLsbD_shiftLeft]
  by_cases hk : k ≤ i
  · by_cases hi : i < n
    · simp [hi, hk, Nat.not_lt.2 hk]
    · rw [getLsbD_of_lt w h (by omega)]; simp
  · simp [hk, Nat.lt_of_not_le hk]

theorem toNat_shiftLeft_lt (w : BitVec n) (k l : Nat) (h : w.toNat < 2 ^ l) : (w <<< k).toNat < 2 ^ (l + k) := by
  apply lt_of_getLsbD
  intro i hi
  rw [BitVec.getLsbD_shiftLeft, getLsbD_of_lt w h (by omega)]
  simp

theorem wordPoly_one (hn : 0 < n) : wordPoly (1#n) = 1 := by
  ext i
  rw [coeff_wordPoly, coeff_one, BitVec.getLsbD_one]
  by_cases hi : i = 0
  · simp [hi, hn]
  · simp [hi, hn]

theorem wordPoly_twoPow (k : Nat) (hk : k < n) : wordPoly (1#n <<< k) = X ^ k := by
  have h1 : (1#n).toNat < 2 ^ (n - k) := by
    rw [BitVec.toNat_ofNat]
    calc 1 % 2 ^ n ≤ 1 := Nat.mod_le _ _
      _ < 2 ^ (n - k) := Nat.one_lt_two_pow (by omega)
  rw [wordPoly_shiftLeft _ _ h1, wordPoly_one (by omega), one_mul]

end

end Banquet
