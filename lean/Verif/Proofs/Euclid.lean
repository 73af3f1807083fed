import Verif.Proofs.Reduce
import Mathlib.RingTheory.Coprime.Basic
import Mathlib.RingTheory.EuclideanDomain
import Mathlib.Algebra.Polynomial.FieldDivision

namespace Banquet

open Polynomial Spec

theorem neg_poly (q : (ZMod 2)[X]) : -q = q := CharTwo.neg_eq q
theorem sub_poly (q r : (ZMod 2)[X]) : q - r = q + r := CharTwo.sub_eq_add q r

theorem wordPoly_eq_zero {n : Nat} {w : BitVec n} : wordPoly w = 0 ↔ w = 0 := by
  rw [← wordPoly_zero (n := n)]
  exact wordPoly_injective.eq_iff

theorem toNat_ne_zero {n : Nat} {w : BitVec n} (h : w ≠ 0) : w.toNat ≠ 0 := by
  intro hc
  exact h (BitVec.eq_of_toNat_eq (by simpa using hc))

theorem natDegree_wordPoly {n : Nat} {w : BitVec n} (h : w ≠ 0) : (wordPoly w).natDegree = Nat.log2 w.toNat := by
  have hp : wordPoly w ≠ 0 := fun hc => h (wordPoly_eq_zero.1 hc)
  have h1 : ∀ k, (wordPoly w).natDegree < k ↔ Nat.log2 w.toNat < k := by
    intro k
    rw [natDegree_lt_iff_degree_lt hp]
    rw [degree_wordPoly_lt, Nat.log2_lt (toNat_ne_zero h)]
  have h2 := (h1 ((wordPoly w).natDegree + 1)).1 (by omega)
  have h3 := (h1 (Nat.log2 w.toNat + 1)).2 (by omega)
  omega

theorem log2_lt_64 {w : W64} (h : w ≠ 0) : Nat.log2 w.toNat < 64 := by
  rw [Nat.log2_lt (toNat_ne_zero h)]
  exact w.isLt

theorem getLsbD_log2 {n : Nat} {w : BitVec n} (h : w ≠ 0) : w.getLsbD (Nat.log2 w.toNat) = true :=
  Nat.testBit_log2 (toNat_ne_zero h)

theorem toNat_lt_log2 {n : Nat} {w : BitVec n} (h : w ≠ 0) : w.toNat < 2 ^ (Nat.log2 w.toNat + 1) := by
  rw [← Nat.log2_lt (toNat_ne_zero h)]; omega

theorem clz_diff (z : Nat) {a b : W64} (ha : a ≠ 0) (hb : b ≠ 0) :
    ((builtinClz64 z b : Int) - builtinClz64 z a) = (Nat.log2 a.toNat : Int) - Nat.log2 b.toNat := by
  have h1 := log2_lt_64 ha
  have h2 := log2_lt_64 hb
  simp only [builtinClz64, if_neg ha, if_neg hb]
  omega

/-- Long division: the loop ends and returns the quotient, whatever `clzl(0)` is. -/
theorem divQuotientLoop_spec {b : W64} (hb : b ≠ 0) (fuel : Nat) (a q : W64) (hf : a.toNat < 2 ^ (Nat.log2 b.toNat + fuel))
    (hq : a ≠ 0 → ∀ i, i + Nat.log2 b.toNat ≤ Nat.log2 a.toNat → q.getLsbD i = false) :
    ∃ q' : W64, (∀ z, divQuotientLoop z b (fuel + 1) a q ((builtinClz64 z b : Int) - builtinClz64 z a) = some q') ∧
      (wordPoly a + (wordPoly q + wordPoly q') * wordPoly b).degree < (wordPoly b).degree := by
  have hB : wordPoly b ≠ 0 := fun hc => hb (wordPoly_eq_zero.1 hc)
  induction fuel generalizing a q with
  | zero =>
    refine ⟨q, ?_, ?_⟩
    · intro z
      rw [divQuotientLoop]
      rw [if_neg]
      rintro ⟨h1, h2⟩
      rw [clz_diff z h2 hb] at h1
      rw [Nat.add_zero, ← Nat.log2_lt (toNat_ne_zero h2)] at hf
      omega
    · rw [CharTwo.add_self_eq_zero, zero_mul, add_zero, degree_eq_natDegree hB, natDegree_wordPoly hb, degree_wordPoly_lt]
      exact hf
  | succ fuel ih =>
    by_cases ha : a = 0
    · refine ⟨q, ?_, ?_⟩
      · intro z
        rw [divQuotientLoop, if_neg]
        rintro ⟨_, h2⟩
        exact h2 ha
      · rw [CharTwo.add_self_eq_zero, zero_mul, add_zero, ha, wordPoly_zero, degree_zero]
        exact bot_lt_iff_ne_bot.2 (fun hc => hB (degree_eq_bot.1 hc))
    by_cases hlt : Nat.log2 a.toNat < Nat.log2 b.toNat
    · refine ⟨q, ?_, ?_⟩
      · intro z
        rw [divQuotientLoop, if_neg]
        rintro ⟨h1, _⟩
        rw [clz_diff z ha hb] at h1
        omega
      · rw [CharTwo.add_self_eq_zero, zero_mul, add_zero, degree_eq_natDegree hB, natDegree_wordPoly hb, degree_wordPoly_lt,
          ← Nat.log2_lt (toNat_ne_zero ha)]
        exact hlt
    · have hle : Nat.log2 b.toNat ≤ Nat.log2 a.toNat := by omega
      have hla := log2_lt_64 ha
      obtain ⟨d, hd⟩ : ∃ d, Nat.log2 a.toNat = d + Nat.log2 b.toNat := ⟨_, (Nat.sub_add_cancel hle).symm⟩
      have ha' : (a ^^^ (b <<< d)).toNat < 2 ^ (Nat.log2 a.toNat) := by
        apply lt_of_getLsbD
        intro i hi
        rw [BitVec.getLsbD_xor, BitVec.getLsbD_shiftLeft]
        by_cases hia : i = Nat.log2 a.toNat
        · subst hia
          rw [getLsbD_log2 ha, hd, Nat.add_sub_cancel_left, getLsbD_log2 hb]
          simp; omega
        · rw [getLsbD_of_lt a (toNat_lt_log2 ha) (by omega), getLsbD_of_lt b (toNat_lt_log2 hb) (by omega)]
          simp
      have hqd : q.getLsbD d = false := hq ha d (by omega)
      have hqx : q ||| (1#64 <<< d) = q ^^^ (1#64 <<< d) := by
        apply BitVec.eq_of_getLsbD_eq
        intro i hi
        rw [BitVec.getLsbD_or, BitVec.getLsbD_xor, BitVec.getLsbD_shiftLeft, BitVec.getLsbD_one]
        by_cases hid : i = d
        · subst hid; rw [hqd]; simp
        · by_cases h2 : i < d
          · simp [h2]
          · have h3 : i - d ≠ 0 := by omega
            simp [h3]
      obtain ⟨q', h1, h2⟩ := ih (a ^^^ (b <<< d)) (q ||| (1#64 <<< d)) (by
          have : a.toNat < 2 ^ (Nat.log2 b.toNat + (fuel + 1)) := hf
          rw [← Nat.log2_lt (toNat_ne_zero ha)] at this
          exact lt_of_lt_of_le ha' (Nat.pow_le_pow_right (by norm_num) (by omega))) (by
          intro hne i hi
          rw [← Nat.log2_lt (toNat_ne_zero hne)] at ha'
          rw [BitVec.getLsbD_or, hq ha i (by omega), BitVec.getLsbD_shiftLeft]
          have : i < d := by omega
          simp [this])
      refine ⟨q', ?_, ?_⟩
      · intro z
        rw [divQuotientLoop, if_pos]
        · rw [clz_diff z ha hb]
          have : ((Nat.log2 a.toNat : Int) - Nat.log2 b.toNat).toNat = d := by omega
          rw [this]
          exact h1 z
        · refine ⟨?_, ha⟩
          rw [clz_diff z ha hb]; omega
      · have e : wordPoly (a ^^^ (b <<< d)) + (wordPoly (q ||| (1#64 <<< d)) + wordPoly q') * wordPoly b
            = wordPoly a + (wordPoly q + wordPoly q') * wordPoly b := by
          rw [hqx, wordPoly_xor, wordPoly_xor q, wordPoly_twoPow (n := 64) d (by omega), wordPoly_shiftLeft]
          · have := CharTwo.add_self_eq_zero (wordPoly b * X ^ d : (ZMod 2)[X])
            calc _ = wordPoly a + (wordPoly q + wordPoly q') * wordPoly b + (wordPoly b * X ^ d + wordPoly b * X ^ d) := by ring
              _ = _ := by rw [this, add_zero]
          · exact lt_of_lt_of_le (toNat_lt_log2 hb) (Nat.pow_le_pow_right (by norm_num) (by omega))
        rw [← e]
        exact h2

theorem divQuotient_spec (a b : W64) (hb : b ≠ 0) :
    ∃ q : W64, (∀ z, divQuotient z 65 a b = some q) ∧ (wordPoly a + wordPoly q * wordPoly b).degree < (wordPoly b).degree := by
  obtain ⟨q, h1, h2⟩ := divQuotientLoop_spec hb 64 a 0
    (lt_of_lt_of_le a.isLt (Nat.pow_le_pow_right (by norm_num) (by omega))) (by intro _ i _; simp)
  refine ⟨q, h1, ?_⟩
  rwa [wordPoly_zero, zero_add] at h2

theorem wordPoly_lo_clmul (a b : W64) (h : (wordPoly a * wordPoly b).degree < 64) : wordPoly (lo64 (clmul a b)) = wordPoly a * wordPoly b := by
  rw [lo64, wordPoly_setWidth, wordPoly_clmul]
  rw [← degree_wordPoly_lt, wordPoly_clmul]
  exact h

theorem eq_one_of_unit {q : (ZMod 2)[X]} (h : IsUnit q) : q = 1 := by
  obtain ⟨c, hc, rfl⟩ := Polynomial.isUnit_iff.1 h
  have : ∀ c : ZMod 2, IsUnit c → c = 1 := by decide
  rw [this c hc, C_1]

theorem modInverseLoop_spec {n : Nat} (hn : n < 64) (P A : (ZMod 2)[X]) (fuel : Nat) (t newT r newR : W64)
    (hf : newR.toNat < 2 ^ fuel)
    (i1 : P ∣ wordPoly r + wordPoly t * A) (i2 : P ∣ wordPoly newR + wordPoly newT * A)
    (i3 : (wordPoly newR).degree < (wordPoly r).degree)
    (hT : wordPoly newT ≠ 0) (i4 : (wordPoly newT).natDegree + (wordPoly r).natDegree = n)
    (i6 : (wordPoly t).degree < (wordPoly newT).degree) (i5 : IsCoprime (wordPoly r) (wordPoly newR)) :
    ∃ s : W64, (∀ z, modInverseLoop z (fuel + 1) t newT r newR = some s) ∧ s.toNat < 2 ^ n ∧ P ∣ 1 + wordPoly s * A := by
  induction fuel generalizing t newT r newR with
  | zero =>
    have h0 : newR = 0 := BitVec.eq_of_toNat_eq (by simpa using hf)
    subst h0
    refine ⟨t, fun z => by simp [modInverseLoop], ?_⟩
    rw [wordPoly_zero] at i5
    have hr := eq_one_of_unit (isCoprime_zero_right.1 i5)
    rw [hr] at i1 i4
    rw [natDegree_one, add_zero] at i4
    refine ⟨?_, i1⟩
    rw [← degree_wordPoly_lt, ← i4, ← degree_eq_natDegree hT]
    exact i6
  | succ fuel ih =>
    by_cases h0 : newR = 0
    · subst h0
      refine ⟨t, fun z => by simp [modInverseLoop], ?_⟩
      rw [wordPoly_zero] at i5
      have hr := eq_one_of_unit (isCoprime_zero_right.1 i5)
      rw [hr] at i1 i4
      rw [natDegree_one, add_zero] at i4
      refine ⟨?_, i1⟩
      rw [← degree_wordPoly_lt, ← i4, ← degree_eq_natDegree hT]
      exact i6
    · obtain ⟨q, hq, hdeg⟩ := divQuotient_spec r newR h0
      have hR' : wordPoly newR ≠ 0 := fun hc => h0 (wordPoly_eq_zero.1 hc)
      have hR : wordPoly r ≠ 0 := by
        intro hc; rw [hc, degree_zero] at i3; exact not_lt_bot i3
      have hqR : (wordPoly q * wordPoly newR).degree = (wordPoly r).degree := by
        have e : wordPoly q * wordPoly newR = (wordPoly r + wordPoly q * wordPoly newR) + wordPoly r := by
          have := CharTwo.add_self_eq_zero (wordPoly r)
          calc _ = wordPoly q * wordPoly newR + (wordPoly r + wordPoly r) := by rw [this, add_zero]
            _ = _ := by ring
        rw [e, degree_add_eq_right_of_degree_lt]
        exact hdeg.trans i3
      have hQ : wordPoly q ≠ 0 := by
        intro hc; rw [hc, zero_mul, degree_zero] at hqR; exact hR (degree_eq_bot.1 hqR.symm)
      have hnat : (wordPoly q).natDegree + (wordPoly newR).natDegree = (wordPoly r).natDegree := by
        rw [← natDegree_mul hQ hR', natDegree_eq_of_degree_eq hqR]
      have hQT : wordPoly q * wordPoly newT ≠ 0 := mul_ne_zero hQ hT
      have hnatT : (wordPoly q * wordPoly newT).natDegree + (wordPoly newR).natDegree = n := by
        rw [natDegree_mul hQ hT]; omega
      have hlo1 : wordPoly (lo64 (clmul q newT)) = wordPoly q * wordPoly newT := by
        apply wordPoly_lo_clmul
        rw [degree_eq_natDegree hQT]
        exact_mod_cast (by omega : (wordPoly q * wordPoly newT).natDegree < 64)
      have hlo2 : wordPoly (lo64 (clmul q newR)) = wordPoly q * wordPoly newR := by
        apply wordPoly_lo_clmul
        rw [hqR, degree_eq_natDegree hR]
        exact_mod_cast (by omega : (wordPoly r).natDegree < 64)
      have hTT : (wordPoly newT).degree ≤ (wordPoly q * wordPoly newT).degree := by rw [mul_comm]; exact degree_le_mul_left _ hQ
      have hnT : (wordPoly (t ^^^ lo64 (clmul q newT))).degree = (wordPoly q * wordPoly newT).degree := by
        rw [wordPoly_xor, hlo1, degree_add_eq_right_of_degree_lt]
        exact lt_of_lt_of_le i6 hTT
      have hnR : wordPoly (r ^^^ lo64 (clmul q newR)) = wordPoly r + wordPoly q * wordPoly newR := by
        rw [wordPoly_xor, hlo2]
      obtain ⟨s, hs, hrest⟩ := ih newT (t ^^^ lo64 (clmul q newT)) newR (r ^^^ lo64 (clmul q newR))
        (by
          rw [← degree_wordPoly_lt, hnR]
          have h1 : (wordPoly newR).degree < ((fuel + 1 : ℕ) : WithBot ℕ) := (degree_wordPoly_lt _ _).2 hf
          rw [degree_eq_natDegree hR'] at h1 hdeg
          have h2 : (wordPoly newR).natDegree ≤ fuel := by
            have : (wordPoly newR).natDegree < fuel + 1 := by exact_mod_cast h1
            omega
          exact lt_of_lt_of_le hdeg (by exact_mod_cast h2))
        i2
        (by
          rw [hnR, wordPoly_xor, hlo1]
          have e : wordPoly r + wordPoly q * wordPoly newR + (wordPoly t + wordPoly q * wordPoly newT) * A
            = (wordPoly r + wordPoly t * A) + wordPoly q * (wordPoly newR + wordPoly newT * A) := by ring
          rw [e]
          exact dvd_add i1 (i2.mul_left _))
        (by rw [hnR]; exact hdeg)
        (by intro hc; rw [hc, degree_zero] at hnT; exact hQT (degree_eq_bot.1 hnT.symm))
        (by rw [natDegree_eq_of_degree_eq hnT]; exact hnatT)
        (by
          rw [hnT, degree_eq_natDegree hQT, degree_eq_natDegree hT]
          have h3 : (wordPoly newR).natDegree < (wordPoly r).natDegree := natDegree_lt_natDegree hR' i3
          exact_mod_cast (by omega : (wordPoly newT).natDegree < (wordPoly q * wordPoly newT).natDegree))
        (by
          rw [hnR]
          exact (IsCoprime.add_mul_right_left i5 (wordPoly q)).symm)
      refine ⟨s, ?_, hrest⟩
      intro z
      rw [modInverseLoop, if_pos h0, hq z]
      exact hs z

theorem modInverse_spec {n : Nat} (hn : n < 64) (p a : W64) (hm : (wordPoly p).natDegree = n) (hirr : Irreducible (wordPoly p))
    (ha : a.toNat < 2 ^ n) (h0 : a ≠ 0) :
    ∃ s : W64, (∀ z, modInverse z a p = some s) ∧ s.toNat < 2 ^ n ∧ wordPoly p ∣ wordPoly s * wordPoly a - 1 := by
  have hA : wordPoly a ≠ 0 := fun hc => h0 (wordPoly_eq_zero.1 hc)
  have hdeg : (wordPoly a).degree < (wordPoly p).degree := by
    rw [degree_eq_natDegree hirr.ne_zero, hm, degree_wordPoly_lt]; exact ha
  have hone : wordPoly (1 : W64) = 1 := wordPoly_one (by norm_num)
  obtain ⟨s, h1, h2, h3⟩ := modInverseLoop_spec hn (wordPoly p) (wordPoly a) 65 0 1 p a
    (lt_of_lt_of_le a.isLt (Nat.pow_le_pow_right (by norm_num) (by omega)))
    (by rw [wordPoly_zero, zero_mul, add_zero])
    (by rw [hone, one_mul, CharTwo.add_self_eq_zero]; exact dvd_zero _)
    hdeg (by rw [hone]; exact one_ne_zero) (by rw [hone, natDegree_one, zero_add, hm])
    (by rw [hone, wordPoly_zero, degree_zero, degree_one]; exact WithBot.bot_lt_coe _)
    ((Irreducible.coprime_iff_not_dvd hirr).2 (fun hd => hA (eq_zero_of_dvd_of_degree_lt hd hdeg)))
  refine ⟨s, h1, h2, ?_⟩
  rw [sub_poly, add_comm]
  exact h3

end Banquet
