import Verif.Proofs.Level

/-! The bound for a forger, evaluated for the supplied parameters. -/

namespace Banquet

open Spec

/-- For each parameter set, how many lucky repetitions to allow in the first and the second round. -/
def bestSplits : List (Nat × Nat) :=
  [(4, 5), (4, 5), (3, 4), (2, 3), (4, 5), (4, 5), (2, 3), (4, 5), (3, 4), (2, 3), (6, 8), (6, 8), (6, 8), (6, 8), (4, 4), (4, 4), (4, 4), (9, 11), (9, 11), (5, 6), (5, 6), (5, 6), (5, 6)]

/-- The three terms add up to at most `2 / 2^(8 keySize)`. -/
def boundCheck (I : Instance) (t : Nat × Nat) : Bool :=
  let b1 := binom I.numRounds (t.1 + 1)
  let a1 := (2 ^ (8 * I.lambda)) ^ (t.1 + 1)
  let b2 := binom I.numRounds (t.2 + 1) * (2 * I.m2) ^ (t.2 + 1)
  let a2 := (2 ^ (8 * I.lambda) - I.m2) ^ (t.2 + 1)
  let b3 := I.numParties ^ (t.1 + t.2)
  let a3 := I.numParties ^ I.numRounds
  decide (t.1 + 1 ≤ I.numRounds) && decide (t.2 + 1 ≤ I.numRounds) && decide (0 < I.numParties) && decide (2 ^ (8 * I.aes.keySize) * (b1 * a2 * a3 + b2 * a1 * a3 + b3 * a1 * a2) ≤ 2 * (a1 * a2 * a3))

theorem bound_checked : ∀ I ∈ instances.drop 1, ∃ t ∈ bestSplits, boundCheck I t = true := by decide +kernel

theorem div_of_div {A B a b : ℚ} (h : A / B = a / b) : B / A = b / a := by
  rw [← inv_div, h, inv_div]

theorem bound_all (I : Instance) (hI : I ∈ instances.drop 1) : ∃ t1 t2,
    ((few1 I (t1 + 1) : Nat) : ℚ) / (((2 ^ (8 * I.lambda)) ^ I.m1) ^ I.numRounds : Nat) + ((few2 I (t2 + 1) : Nat) : ℚ) / ((2 ^ (8 * I.lambda) - I.m2) ^ I.numRounds : Nat) +
      (I.numParties : ℚ) ^ (t1 + t2) / (I.numParties ^ I.numRounds : Nat) ≤ 2 / 2 ^ (8 * I.aes.keySize) := by
  obtain ⟨_, hm1, hm2, hlt⟩ := level_basic I hI
  obtain ⟨⟨t1, t2⟩, _, hc⟩ := bound_checked I hI
  unfold boundCheck at hc
  simp only [Bool.and_eq_true, decide_eq_true_eq] at hc
  obtain ⟨⟨⟨h1, h2⟩, hN⟩, hc⟩ := hc
  refine ⟨t1, t2, ?_⟩
  rw [div_of_div (ratio1 I h1 hm1), div_of_div (ratio2 I h2 hm2 hlt), binom_eq, binom_eq]
  rw [← Nat.cast_pow I.numParties]
  generalize hb1 : binom I.numRounds (t1 + 1) = b1 at hc ⊢
  have p1 : 0 < (2 ^ (8 * I.lambda)) ^ (t1 + 1) := by positivity
  have p2 : 0 < (2 ^ (8 * I.lambda) - I.m2) ^ (t2 + 1) := Nat.pow_pos (by omega)
  have p3 : 0 < I.numParties ^ I.numRounds := Nat.pow_pos hN
  generalize (2 ^ (8 * I.lambda)) ^ (t1 + 1) = a1 at hc p1 ⊢
  generalize (2 ^ (8 * I.lambda) - I.m2) ^ (t2 + 1) = a2 at hc p2 ⊢
  generalize I.numParties ^ I.numRounds = a3 at hc p3 ⊢
  generalize binom I.numRounds (t2 + 1) * (2 * I.m2) ^ (t2 + 1) = b2 at hc ⊢
  generalize I.numParties ^ (t1 + t2) = b3 at hc ⊢
  have q1 : (0 : ℚ) < a1 := by exact_mod_cast p1
  have q2 : (0 : ℚ) < a2 := by exact_mod_cast p2
  have q3 : (0 : ℚ) < a3 := by exact_mod_cast p3
  have e : (b1 : ℚ) / a1 + (b2 : ℚ) / a2 + (b3 : ℚ) / a3 = (b1 * a2 * a3 + b2 * a1 * a3 + b3 * a1 * a2) / (a1 * a2 * a3) := by field_simp
  rw [e, div_le_div_iff₀ (by positivity) (by positivity), mul_comm]
  exact_mod_cast hc

end Banquet
