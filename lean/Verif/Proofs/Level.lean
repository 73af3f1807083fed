import Verif.Model.Instances
import Verif.Spec.Protocol
import Mathlib.Data.Nat.Choose.Factorization
import Mathlib.Tactic.FieldSimp
import Mathlib.Tactic.Positivity
import Mathlib.Data.Rat.Cast.Order

/-! Numerical facts about the supplied parameters. -/

namespace Banquet

open Spec

/-- Binomial coefficients in a form that is evaluated fast. -/
def binom (n k : Nat) : Nat := n.descFactorial k / k.factorial

theorem binom_eq (n k : Nat) : n.choose k = binom n k := Nat.choose_eq_descFactorial_div_factorial n k

/-- First term alone, second term alone, and all three terms. -/
def levelCheck (I : Instance) : Bool :=
  (List.range (I.numRounds + 1)).all (fun t => decide (t < 10) || decide (2 ^ (8 * I.aes.keySize) * binom I.numRounds t ≤ (2 ^ (8 * I.lambda)) ^ t)) &&
  (List.range (I.numRounds + 1)).all (fun t => decide (t < 12) || decide (2 ^ (8 * I.aes.keySize) * (binom I.numRounds t * (2 * I.m2) ^ t) ≤ (2 ^ (8 * I.lambda) - I.m2) ^ t)) &&
  (List.range 10).all (fun t1 => (List.range 12).all fun t2 =>
    let b1 := binom I.numRounds t1
    let b2 := binom I.numRounds t2 * (2 * I.m2) ^ t2
    decide (2 ^ (8 * I.aes.keySize) * (b1 * b2) ≤ (2 ^ (8 * I.lambda)) ^ t1 * b2 + (2 ^ (8 * I.lambda) - I.m2) ^ t2 * b1 + I.numParties ^ (I.numRounds - t1 - t2) * (b1 * b2)))

theorem level_checked : (instances.drop 1).all levelCheck = true := by decide +kernel

theorem level_basic : ∀ I ∈ instances.drop 1, 12 ≤ I.numRounds ∧ 1 ≤ I.m1 ∧ 1 ≤ I.m2 ∧ I.m2 < 2 ^ (8 * I.lambda) := by decide

/-- Two fractions and a whole number. -/
theorem three_terms {K a b c d e : Nat} (hb : 0 < b) (hd : 0 < d) (h : K * b ≤ a ∨ K * d ≤ c ∨ K * (b * d) ≤ a * d + c * b + e * (b * d)) :
    (K : ℚ) ≤ (a : ℚ) / b + (c : ℚ) / d + e := by
  have hb' : (0 : ℚ) < b := by exact_mod_cast hb
  have hd' : (0 : ℚ) < d := by exact_mod_cast hd
  have na : (0 : ℚ) ≤ (a : ℚ) / b := by positivity
  have nc : (0 : ℚ) ≤ (c : ℚ) / d := by positivity
  have ne : (0 : ℚ) ≤ e := by positivity
  rcases h with h | h | h
  · have : (K : ℚ) ≤ (a : ℚ) / b := (le_div_iff₀ hb').2 (by exact_mod_cast h)
    linarith
  · have : (K : ℚ) ≤ (c : ℚ) / d := (le_div_iff₀ hd').2 (by exact_mod_cast h)
    linarith
  · have e1 : (a : ℚ) / b + (c : ℚ) / d + e = (a * d + c * b + e * (b * d)) / (b * d) := by field_simp
    rw [e1, le_div_iff₀ (by positivity)]
    exact_mod_cast h

/-- The fraction of lucky challenges of the first round. -/
theorem ratio1 (I : Instance) {t : Nat} (ht : t ≤ I.numRounds) (hm : 1 ≤ I.m1) :
    ((((2 ^ (8 * I.lambda)) ^ I.m1) ^ I.numRounds : Nat) : ℚ) / (few1 I t : Nat) = (((2 ^ (8 * I.lambda)) ^ t : Nat) : ℚ) / (I.numRounds.choose t : Nat) := by
  have hc : (0 : ℚ) < (I.numRounds.choose t : Nat) := by exact_mod_cast Nat.choose_pos ht
  have hf : (0 : ℚ) < (few1 I t : Nat) := by
    have := Nat.choose_pos ht
    unfold few1
    exact_mod_cast (by positivity)
  rw [div_eq_div_iff hf.ne' hc.ne']
  have : ((2 ^ (8 * I.lambda)) ^ I.m1) ^ I.numRounds * I.numRounds.choose t = (2 ^ (8 * I.lambda)) ^ t * few1 I t := by
    unfold few1
    generalize (2 : Nat) ^ (8 * I.lambda) = q
    obtain ⟨m, hm⟩ := Nat.exists_eq_add_of_le hm
    obtain ⟨s, hs⟩ := Nat.exists_eq_add_of_le ht
    generalize hn : I.numRounds.choose t = n
    rw [hm, hs, Nat.add_sub_cancel_left, Nat.add_sub_cancel_left]
    rw [pow_add (q ^ (1 + m)), pow_add q 1 m, mul_pow, pow_one]
    ring
  exact_mod_cast this

/-- The fraction of lucky challenges of the second round. -/
theorem ratio2 (I : Instance) {t : Nat} (ht : t ≤ I.numRounds) (hm : 1 ≤ I.m2) (hlt : I.m2 < 2 ^ (8 * I.lambda)) :
    (((2 ^ (8 * I.lambda) - I.m2) ^ I.numRounds : Nat) : ℚ) / (few2 I t : Nat) = (((2 ^ (8 * I.lambda) - I.m2) ^ t : Nat) : ℚ) / (I.numRounds.choose t * (2 * I.m2) ^ t : Nat) := by
  have hc : (0 : ℚ) < (I.numRounds.choose t * (2 * I.m2) ^ t : Nat) := by
    have := Nat.choose_pos ht
    exact_mod_cast (by positivity)
  have hf : (0 : ℚ) < (few2 I t : Nat) := by
    have := Nat.choose_pos ht
    have : 0 < 2 ^ (8 * I.lambda) - I.m2 := by omega
    unfold few2
    exact_mod_cast (by positivity)
  rw [div_eq_div_iff hf.ne' hc.ne']
  have : (2 ^ (8 * I.lambda) - I.m2) ^ I.numRounds * (I.numRounds.choose t * (2 * I.m2) ^ t) = (2 ^ (8 * I.lambda) - I.m2) ^ t * few2 I t := by
    unfold few2
    generalize (2 : Nat) ^ (8 * I.lambda) - I.m2 = q
    generalize hn : I.numRounds.choose t = n
    obtain ⟨s, hs⟩ := Nat.exists_eq_add_of_le ht
    rw [hs, Nat.add_sub_cancel_left, pow_add]
    ring
  exact_mod_cast this

theorem level_all (I : Instance) (hI : I ∈ instances.drop 1) {t1 t2 : Nat} (ht : t1 + t2 ≤ I.numRounds) :
    (2 ^ (8 * I.aes.keySize) : ℚ) ≤ ((((2 ^ (8 * I.lambda)) ^ I.m1) ^ I.numRounds : Nat) : ℚ) / (few1 I t1 : Nat) + (((2 ^ (8 * I.lambda) - I.m2) ^ I.numRounds : Nat) : ℚ) / (few2 I t2 : Nat) +
      (I.numParties : ℚ) ^ (I.numRounds - t1 - t2) := by
  obtain ⟨_, hm1, hm2, hlt⟩ := level_basic I hI
  have hc := List.all_eq_true.1 level_checked I hI
  unfold levelCheck at hc
  simp only [Bool.and_eq_true, List.all_eq_true, List.mem_range, Bool.or_eq_true, decide_eq_true_eq] at hc
  obtain ⟨⟨c1, c2⟩, c3⟩ := hc
  rw [ratio1 I (by omega) hm1, ratio2 I (by omega) hm2 hlt]
  have := three_terms (K := 2 ^ (8 * I.aes.keySize)) (a := (2 ^ (8 * I.lambda)) ^ t1) (b := I.numRounds.choose t1) (c := (2 ^ (8 * I.lambda) - I.m2) ^ t2) (d := I.numRounds.choose t2 * (2 * I.m2) ^ t2)
    (e := I.numParties ^ (I.numRounds - t1 - t2)) (Nat.choose_pos (by omega)) (Nat.mul_pos (Nat.choose_pos (by omega)) (by positivity)) (by
      rw [binom_eq, binom_eq]
      by_cases g1 : t1 < 10
      · by_cases g2 : t2 < 12
        · exact Or.inr (Or.inr (c3 t1 g1 t2 g2))
        · exact Or.inr (Or.inl ((c2 t2 (by omega)).resolve_left g2))
      · exact Or.inl ((c1 t1 (by omega)).resolve_left g1))
  rw [Nat.cast_pow 2, Nat.cast_pow I.numParties, Nat.cast_ofNat] at this
  exact this

end Banquet
