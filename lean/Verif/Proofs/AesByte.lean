import Verif.Proofs.WordPoly
import Verif.Model.Aes
import Mathlib.Tactic.ComputeDegree
import Mathlib.Algebra.Polynomial.Div

/-! Byte arithmetic of aes.cpp. -/

namespace Banquet

open Polynomial Spec

theorem aesPoly_monic : aesPoly.Monic := by unfold aesPoly; monicity!
theorem aesPoly_natDegree : aesPoly.natDegree = 8 := by unfold aesPoly; compute_degree!
theorem aesPoly_degree : aesPoly.degree = 8 := by
  rw [degree_eq_natDegree aesPoly_monic.ne_zero, aesPoly_natDegree]; rfl

attribute [local irreducible] wordPoly

theorem wordPoly_aes : wordPoly (0x11b#32) = aesPoly := by
  rw [show 0x11b#32 = (1#32 <<< 8) ^^^ (1#32 <<< 4) ^^^ (1#32 <<< 3) ^^^ (1#32 <<< 1) ^^^ (1#32 <<< 0) by decide]
  simp only [wordPoly_xor]
  rw [wordPoly_twoPow (n := 32) 8 (by norm_num), wordPoly_twoPow (n := 32) 4 (by norm_num), wordPoly_twoPow (n := 32) 3 (by norm_num),
    wordPoly_twoPow (n := 32) 1 (by norm_num), wordPoly_twoPow (n := 32) 0 (by norm_num)]
  simp [aesPoly]

theorem mask8 (b : BitVec 32) : (-((b &&& 1).setWidth 8) : Byte) = if b.getLsbD 0 then 0xff else 0 := by
  by_cases h : b.getLsbD 0
  · have : b &&& 1 = 1#32 := by
      apply BitVec.eq_of_getLsbD_eq
      intro i hi
      rw [BitVec.getLsbD_and]
      by_cases h0 : i = 0
      · subst h0; rw [BitVec.getLsbD_eq_getElem (by norm_num)] at h; simp [h]
      · rw [show (1 : BitVec 32) = 1#32 from rfl, BitVec.getLsbD_one]; simp [h0]
    rw [this, if_pos h]; decide
  · rw [Bool.not_eq_true] at h
    have : b &&& 1 = 0#32 := by
      apply BitVec.eq_of_getLsbD_eq
      intro i hi
      rw [BitVec.getLsbD_and]
      by_cases h0 : i = 0
      · subst h0; rw [BitVec.getLsbD_eq_getElem (by norm_num)] at h; simp [h]
      · rw [show (1 : BitVec 32) = 1#32 from rfl, BitVec.getLsbD_one]; simp [h0]
    rw [this, if_neg (by rw [h]; decide)]; decide

theorem mask16 (a : BitVec 32) : (-(((a >>> 7).setWidth 16) &&& 1) : BitVec 16) = if a.getLsbD 7 then 0xffff else 0 := by
  by_cases h : a.getLsbD 7
  · have : ((a >>> 7).setWidth 16) &&& 1 = 1#16 := by
      apply BitVec.eq_of_getLsbD_eq
      intro i hi
      rw [BitVec.getLsbD_and]
      by_cases h0 : i = 0
      · subst h0; rw [BitVec.getLsbD_eq_getElem (by norm_num)] at h; simp [h]
      · rw [show (1 : BitVec 16) = 1#16 from rfl, BitVec.getLsbD_one]; simp [h0]
    rw [this, if_pos h]; decide
  · rw [Bool.not_eq_true] at h
    have : ((a >>> 7).setWidth 16) &&& 1 = 0#16 := by
      apply BitVec.eq_of_getLsbD_eq
      intro i hi
      rw [BitVec.getLsbD_and]
      by_cases h0 : i = 0
      · subst h0; rw [BitVec.getLsbD_eq_getElem (by norm_num)] at h; simp [h]
      · rw [show (1 : BitVec 16) = 1#16 from rfl, BitVec.getLsbD_one]; simp [h0]
    rw [this, if_neg (by rw [h]; decide)]; decide

theorem wordPoly_shiftRight_one (b : BitVec 32) : wordPoly b = (if b.getLsbD 0 then (1 : (ZMod 2)[X]) else 0) + X * wordPoly (b >>> 1) := by
  ext i
  rw [coeff_add]
  cases i with
  | zero => rw [coeff_wordPoly, mul_coeff_zero, coeff_X_zero, zero_mul, add_zero]; split <;> simp
  | succ i =>
    rw [coeff_X_mul, coeff_wordPoly, coeff_wordPoly, BitVec.getLsbD_ushiftRight, add_comm 1 i]
    split <;> split <;> simp [coeff_one]

theorem maskPoly (a : BitVec 32) (c : Bool) (ha : a.toNat < 2 ^ 8) :
    wordPoly (a.setWidth 8 &&& (if c then 0xff#8 else 0#8)) = wordPoly a * (if c then (1 : (ZMod 2)[X]) else 0) := by
  cases c with
  | true =>
    rw [if_pos rfl, if_pos rfl, mul_one, ← wordPoly_setWidth (m := 8) a ha]
    congr 1
    generalize a.setWidth 8 = x
    exact BitVec.and_allOnes
  | false =>
    rw [if_neg (by decide), if_neg (by decide), mul_zero, BitVec.and_zero]
    exact wordPoly_zero

/-- What one iteration preserves. -/
theorem aesMulStep_spec (r : Byte) (a b : BitVec 32) (ha : a.toNat < 2 ^ 8) :
    let st := aesMulStep (r, a, b)
    st.2.1.toNat < 2 ^ 8 ∧ st.2.2 = b >>> 1 ∧
      aesPoly ∣ (wordPoly st.1 + wordPoly st.2.1 * wordPoly st.2.2) - (wordPoly r + wordPoly a * wordPoly b) := by
  simp only [aesMulStep, mask8, mask16]
  have hm : (0x11b : BitVec 32) &&& ((if a.getLsbD 7 then 0xffff else 0 : BitVec 16).setWidth 32) = if a.getLsbD 7 then 0x11b#32 else 0#32 := by
    split <;> decide
  have hs : wordPoly (a <<< 1) = wordPoly a * X := by
    rw [wordPoly_shiftLeft, pow_one]
    exact lt_of_lt_of_le ha (by norm_num)
  have h1 : wordPoly (r ^^^ (a.setWidth 8 &&& (if b.getLsbD 0 then 0xff else 0))) = wordPoly r + wordPoly a * (if b.getLsbD 0 then (1 : (ZMod 2)[X]) else 0) := by
    rw [wordPoly_xor]
    congr 1
    exact maskPoly a _ ha
  rw [hm]
  refine ⟨?_, trivial, ?_⟩
  · apply lt_of_getLsbD
    intro i hi
    rw [BitVec.getLsbD_xor, BitVec.getLsbD_shiftLeft]
    by_cases h8 : i = 8
    · subst h8
      cases h : a.getLsbD 7 <;> simp
    · rw [getLsbD_of_lt a ha (by omega)]
      have : (if a.getLsbD 7 then 0x11b#32 else 0#32).getLsbD i = false := by
        apply getLsbD_of_lt (k := 9)
        · split <;> decide
        · omega
      rw [this]; simp
  · rw [h1, wordPoly_xor, hs]
    have hb := wordPoly_shiftRight_one b
    have hc : aesPoly ∣ wordPoly (if a.getLsbD 7 then 0x11b#32 else 0#32) := by
      split
      · rw [wordPoly_aes]
      · rw [show (0#32) = (0 : BitVec 32) from rfl, wordPoly_zero]; exact dvd_zero _
    generalize wordPoly (if a.getLsbD 7 then 0x11b#32 else 0#32) = e at *
    rw [hb]
    have : wordPoly r + wordPoly a * (if b.getLsbD 0 then (1 : (ZMod 2)[X]) else 0) + (wordPoly a * X + e) * wordPoly (b >>> 1)
        - (wordPoly r + wordPoly a * ((if b.getLsbD 0 then (1 : (ZMod 2)[X]) else 0) + X * wordPoly (b >>> 1))) = e * wordPoly (b >>> 1) := by ring
    rw [this]
    exact hc.mul_right _

theorem aesMul_loop (a b : Byte) (n : Nat) :
    let st := (List.range n).foldl (fun st _ => aesMulStep st) ((0 : Byte), a.setWidth 32, b.setWidth 32)
    st.2.1.toNat < 2 ^ 8 ∧ st.2.2 = b.setWidth 32 >>> n ∧
      aesPoly ∣ (wordPoly st.1 + wordPoly st.2.1 * wordPoly st.2.2) - wordPoly a * wordPoly b := by
  induction n with
  | zero =>
    refine ⟨?_, by simp, ?_⟩
    · show (a.setWidth 32).toNat < 2 ^ 8
      rw [BitVec.toNat_setWidth]
      exact lt_of_le_of_lt (Nat.mod_le _ _) a.isLt
    · simp only [List.range_zero, List.foldl_nil]
      rw [wordPoly_zero, wordPoly_setWidth a (lt_of_lt_of_le a.isLt (by norm_num)), wordPoly_setWidth b (lt_of_lt_of_le b.isLt (by norm_num))]
      simp
  | succ n ih =>
    simp only [List.range_succ, List.foldl_append, List.foldl_cons, List.foldl_nil]
    obtain ⟨h1, h2, h3⟩ := ih
    generalize (List.range n).foldl (fun st _ => aesMulStep st) ((0 : Byte), a.setWidth 32, b.setWidth 32) = st at *
    obtain ⟨r, x, y⟩ := st
    obtain ⟨g1, g2, g3⟩ := aesMulStep_spec r x y h1
    refine ⟨g1, ?_, ?_⟩
    · rw [g2]; simp only at h2; rw [h2, BitVec.shiftRight_add]
    · have := dvd_add g3 h3
      simpa using this

theorem aesMul_dvd (a b : Byte) : aesPoly ∣ wordPoly (aesMul a b) - wordPoly a * wordPoly b := by
  obtain ⟨h1, h2, h3⟩ := aesMul_loop a b 8
  have hz : b.setWidth 32 >>> 8 = 0 := by
    apply BitVec.eq_of_getLsbD_eq
    intro i hi
    simp
  rw [hz] at h2
  rw [h2, wordPoly_zero, mul_zero, add_zero] at h3
  exact h3

theorem aesMul_spec (a b : Byte) : wordPoly (aesMul a b) = (wordPoly a * wordPoly b) %ₘ aesPoly := by
  obtain ⟨c, hc⟩ := aesMul_dvd a b
  refine (div_modByMonic_unique (-c) (wordPoly (aesMul a b)) aesPoly_monic ⟨?_, ?_⟩).2.symm
  · rw [mul_neg, ← hc]; ring
  · rw [aesPoly_degree]; exact_mod_cast (degree_wordPoly_lt (aesMul a b) 8).2 (aesMul a b).isLt

set_option maxRecDepth 100000 in
theorem aesMul_inv : ∀ a : Byte, a ≠ 0 → aesMul a (aesInv a) = 1 := by
  have : ∀ n : Fin 256, BitVec.ofFin (w := 8) n ≠ 0 → aesMul (BitVec.ofFin n) (aesInv (BitVec.ofFin n)) = 1 := by decide +kernel
  exact fun a => this a.toFin

theorem aesInv_zero : aesInv 0 = 0 := by decide +kernel

set_option maxRecDepth 100000 in
theorem sbox_spec : ∀ a : Byte, hwSbox a = affLin (aesInv a) ^^^ affConst := by
  have : ∀ n : Fin 256, hwSbox (BitVec.ofFin n) = affLin (aesInv (BitVec.ofFin n)) ^^^ affConst := by decide +kernel
  exact fun a => this a.toFin

theorem aesMul_one {a b : Byte} (h1 : aesMul a b = 1) : a ≠ 0 ∧ b = aesInv a := by
  have h0 : a ≠ 0 := by
    rintro rfl
    have := aesMul_spec 0 b
    rw [h1, show wordPoly (0 : Byte) = 0 from wordPoly_zero, zero_mul, zero_modByMonic] at this
    exact one_ne_zero ((wordPoly_one (n := 8) (by norm_num)).symm.trans this)
  have h2 : aesMul a (aesInv a) = 1 := aesMul_inv a h0
  have d1 := AdjoinRoot.mk_eq_mk.2 (aesMul_dvd a b)
  have d2 := AdjoinRoot.mk_eq_mk.2 (aesMul_dvd a (aesInv a))
  have e1 : wordPoly (1 : Byte) = 1 := wordPoly_one (by norm_num)
  rw [h1, e1, map_one, map_mul] at d1
  rw [h2, e1, map_one, map_mul] at d2
  have e : AdjoinRoot.mk aesPoly (wordPoly b) = AdjoinRoot.mk aesPoly (wordPoly (aesInv a)) := by
    calc _ = AdjoinRoot.mk aesPoly (wordPoly b) * (AdjoinRoot.mk aesPoly (wordPoly a) * AdjoinRoot.mk aesPoly (wordPoly (aesInv a))) := by rw [← d2, mul_one]
      _ = (AdjoinRoot.mk aesPoly (wordPoly a) * AdjoinRoot.mk aesPoly (wordPoly b)) * AdjoinRoot.mk aesPoly (wordPoly (aesInv a)) := by ring
      _ = _ := by rw [← d1, one_mul]
  rw [AdjoinRoot.mk_eq_mk] at e
  refine ⟨h0, ?_⟩
  apply wordPoly_injective
  rw [← sub_eq_zero]
  apply eq_zero_of_dvd_of_degree_lt e
  rw [aesPoly_degree]
  exact lt_of_le_of_lt (degree_sub_le _ _) (max_lt ((degree_wordPoly_lt _ 8).2 b.isLt) ((degree_wordPoly_lt _ 8).2 (aesInv a).isLt))

end Banquet
