import Verif.Proofs.Soundness
import Verif.Proofs.AesFull

/-! C45, C46: how many challenges let a wrong proof pass. -/

namespace Banquet.Props

open Spec Polynomial FieldOk

/-! ## C45 -/

/-- C45: if `P` (of degree at most `2 m2`) is not the sum of the products of the `S_j` and `T_j` (of degree at most `m2`), the values agree for at most `2 m2` field elements. -/
theorem C45_roots {lam : Nat} {F : FieldState} (h : initExtensionField lam = .ok F) (m1 m2 : Nat) (S T : Nat → (GF lam)[X]) (P : (GF lam)[X]) (hS : ∀ j < m1, (S j).degree < (m2 + 1 : Nat))
    (hT : ∀ j < m1, (T j).degree < (m2 + 1 : Nat)) (hP : P.degree < (2 * m2 + 1 : Nat)) (hne : P ≠ ∑ j ∈ Finset.range m1, S j * T j) :
    {x : GF lam | P.eval x = ∑ j ∈ Finset.range m1, (S j).eval x * (T j).eval x}.ncard ≤ 2 * m2 := by
  obtain ⟨hF, rfl, _⟩ := initExtensionField_ok h
  have := agree_card (F := F) hP (degree_sum_mul hS hT) hne
  simpa only [eval_finsetSum, eval_mul] using this

/-- C45: the check of the code. The polynomials are given by their values (sums of the shares) at the interpolation points; `a`, `b`, `c` are the words for their values at `R`. The check
passes for at most `2 m2` words `R`. -/
theorem C45_check {F : FieldState} (I : Instance) (h : initExtensionField I.lambda = .ok F) (s t : Nat → Nat → GF I.lambda) (p : Nat → GF I.lambda) (S T : Nat → (GF I.lambda)[X]) (P : (GF I.lambda)[X])
    (hS : ∀ j < I.m1, Interpolates I.lambda (I.m2 + 1) (s j) (S j)) (hT : ∀ j < I.m1, Interpolates I.lambda (I.m2 + 1) (t j) (T j)) (hP : Interpolates I.lambda (2 * I.m2 + 1) p P)
    (hm2 : 2 * I.m2 + 1 ≤ 21845) (hne : P ≠ ∑ j ∈ Finset.range I.m1, S j * T j) :
    {R : W64 | Reduced I.lambda R ∧ ∃ a b : List W64, ∃ c : W64, (∀ j < I.m1, EvalAt I.lambda (I.m2 + 1) (s j) R (a.getD j 0)) ∧ (∀ j < I.m1, EvalAt I.lambda (I.m2 + 1) (t j) R (b.getD j 0)) ∧
      EvalAt I.lambda (2 * I.m2 + 1) p R c ∧ sumProducts F I a b = c}.ncard ≤ 2 * I.m2 := by
  have hr := C45_roots h I.m1 I.m2 S T P (fun j hj => (hS j hj).1) (fun j hj => (hT j hj).1) hP.1 hne
  generalize I.lambda = lam at *
  obtain ⟨hF, rfl, _⟩ := initExtensionField_ok h
  refine (words_card fun R hR => ?_).trans hr
  obtain ⟨h1, a, b, c, ha, hb, hc, e⟩ := hR
  refine ⟨h1, ?_⟩
  have ev : ∀ {n : Nat} (_ : n ≤ 21845) {y : Nat → GF F.byteSize} {Q : (GF F.byteSize)[X]} {w : W64}, Interpolates F.byteSize n y Q → EvalAt F.byteSize n y R w → val F.byteSize w = Q.eval (val F.byteSize R) := by
    intro n hn y Q w hQ ⟨_, Q', hQ', e'⟩
    rw [e', interpolates_unique hn hQ' hQ fun _ _ => rfl]
  have e2 : val F.byteSize c = ∑ j ∈ Finset.range I.m1, val F.byteSize (a.getD j 0) * val F.byteSize (b.getD j 0) := by
    rw [← e]
    unfold sumProducts
    rw [val_sum_range, val_zero, zero_add]
    refine Finset.sum_congr rfl fun j hj => ?_
    have hj := Finset.mem_range.1 hj
    rw [val_mul (ha j hj).1 (hb j hj).1]
  rw [Set.mem_ofPred_eq, ← ev hm2 hP hc, e2]
  refine Finset.sum_congr rfl fun j hj => ?_
  have hj := Finset.mem_range.1 hj
  rw [ev (by omega) (hS j hj) (ha j hj), ev (by omega) (hT j hj) (hb j hj)]

/-- The bound is attained: for `m1 = m2 = 1`, `S = X`, `T = X + 1` and `P = 0`, the wrong `P` passes for the two elements 0 and 1. -/
theorem attained {lam : Nat} {F : FieldState} (h : initExtensionField lam = .ok F) : (X : (GF lam)[X]).degree < (1 + 1 : Nat) ∧ (X + 1 : (GF lam)[X]).degree < (1 + 1 : Nat) ∧
    (0 : (GF lam)[X]) ≠ ∑ _j ∈ Finset.range 1, X * (X + 1) ∧ {x : GF lam | (0 : (GF lam)[X]).eval x = ∑ _j ∈ Finset.range 1, (X : (GF lam)[X]).eval x * (X + 1 : (GF lam)[X]).eval x} = {0, 1} := by
  obtain ⟨hF, rfl, _⟩ := initExtensionField_ok h
  have hd : (X + 1 : (GF F.byteSize)[X]).degree = 1 := degree_X_add_C 1
  refine ⟨?_, ?_, ?_, ?_⟩
  · rw [degree_X]; decide
  · rw [hd]; decide
  · rw [Finset.sum_range_one]
    refine (mul_ne_zero X_ne_zero fun e => ?_).symm
    rw [e, degree_zero] at hd
    cases hd
  · ext x
    simp only [Set.mem_ofPred_eq, Finset.sum_range_one, eval_zero, eval_X, eval_add, eval_one, Set.mem_insert_iff, Set.mem_singleton_iff]
    rw [eq_comm, mul_eq_zero, CharTwo.add_eq_zero]

example : ∃ F, initExtensionField 2 = .ok F := ⟨_, rfl⟩

/-! ## C46 -/

/-- C46: if one pair `(s_i, t_i)` does not multiply to 1, then for at most `|F|^(m1 - 1)` of the `|F|^m1` vectors `r` do all rows `k` satisfy `∑_j r_j s_(j + m1 k) t_(j + m1 k) = ∑_j r_j`. -/
theorem C46_rows {lam : Nat} {F : FieldState} (h : initExtensionField lam = .ok F) (m1 m2 : Nat) (s t : Nat → GF lam) (i : Nat) (hi : i < m1 * m2) (hbad : s i * t i ≠ 1) :
    {r : Fin m1 → GF lam | ∀ k < m2, ∑ j, r j * (s (j.val + m1 * k) * t (j.val + m1 * k)) = ∑ j, r j}.ncard ≤ (2 ^ (8 * lam)) ^ (m1 - 1) := by
  obtain ⟨hF, rfl, _⟩ := initExtensionField_ok h
  have hm1 : 0 < m1 := Nat.pos_of_ne_zero (by rintro rfl; omega)
  let j0 : Fin m1 := ⟨i % m1, Nat.mod_lt _ hm1⟩
  have hk : i / m1 < m2 := Nat.div_lt_of_lt_mul hi
  have he : j0.val + m1 * (i / m1) = i := Nat.mod_add_div i m1
  refine (Set.ncard_le_ncard (fun r hr => ?_) (Set.toFinite _)).trans
    (hyperplane_card (F := F) (fun j : Fin m1 => s (j.val + m1 * (i / m1)) * t (j.val + m1 * (i / m1)) - 1) j0 (by rw [he]; exact sub_ne_zero.2 hbad))
  have := hr (i / m1) hk
  rw [Set.mem_ofPred_eq]
  simp only [mul_sub, mul_one, Finset.sum_sub_distrib, this, sub_self]

/-- Number of vectors of `m` words which represent field elements. -/
theorem C46_total {lam : Nat} {F : FieldState} (h : initExtensionField lam = .ok F) (m : Nat) : Nat.card (Fin m → GF lam) = (2 ^ (8 * lam)) ^ m := by
  obtain ⟨hF, rfl, _⟩ := initExtensionField_ok h
  rw [Nat.card_fun, card_gf, Nat.card_eq_fintype_card, Fintype.card_fin]

/-- C46: the check of the code. The bytes `s_i`, `t_i` are the S-box inputs and outputs shared by the parties. If one pair does not multiply to 1 in the AES field, then whatever the
extra points are and whatever `P` is sent after seeing the challenge, `P` is the sum of the products for at most `|F|^(m1 - 1)` vectors of challenge words. -/
theorem C46_poly {lam : Nat} {F : FieldState} (h : initExtensionField lam = .ok F) (m1 m2 : Nat) (s t : Nat → Byte) (i : Nat) (hi : i < m1 * m2) (hbad : Spec.Aes.mul (s i) (t i) ≠ 1) :
    {rs : List W64 | Elements lam m1 rs ∧ ∃ (S T : Nat → (GF lam)[X]) (P : (GF lam)[X]),
      (∀ j < m1, ∀ k < m2, (S j).eval (point lam k) = val lam (rs.getD j 0) * val lam (F.lift (s (j + m1 * k))) ∧ (T j).eval (point lam k) = val lam (F.lift (t (j + m1 * k)))) ∧
      (∀ k < m2, P.eval (point lam k) = ∑ j ∈ Finset.range m1, val lam (rs.getD j 0)) ∧ P = ∑ j ∈ Finset.range m1, S j * T j}.ncard ≤ (2 ^ (8 * lam)) ^ (m1 - 1) := by
  have hb : val lam (F.lift (s i)) * val lam (F.lift (t i)) ≠ 1 := by
    obtain ⟨hF, rfl, _⟩ := initExtensionField_ok h
    rw [← val_lift_mul, ← val_lift_one]
    intro e
    exact hbad (by rw [← aesMul_eq]; exact lift_inj (val_inj (reduced_lift _) (reduced_lift _) e))
  have hr := C46_rows h m1 m2 (fun i => val lam (F.lift (s i))) (fun i => val lam (F.lift (t i))) i hi hb
  obtain ⟨hF, rfl, _⟩ := initExtensionField_ok h
  refine (vectors_card (m := m1) fun rs hrs => ?_).trans hr
  obtain ⟨⟨hl, hred⟩, S, T, P, h1, h2, h3⟩ := hrs
  refine ⟨hl, hred, fun k hk => ?_⟩
  have e := h2 k hk
  rw [h3, eval_finsetSum, ← Fin.sum_univ_eq_sum_range (fun j => (S j * T j).eval (point F.byteSize k)), ← Fin.sum_univ_eq_sum_range fun j => val F.byteSize (rs.getD j 0)] at e
  rw [← e]
  refine Finset.sum_congr rfl fun j _ => ?_
  rw [eval_mul, (h1 j.val j.isLt k hk).1, (h1 j.val j.isLt k hk).2, mul_assoc]

/-- A bad pair (`0x57 * 0x83 = 0xc1` in the AES field) at position 3 of a 2 by 5 grid. -/
example : ∃ F, initExtensionField 4 = .ok F ∧ 3 < 2 * 5 ∧ Spec.Aes.mul ((fun _ => 0x57) 3) ((fun _ => 0x83) 3) ≠ 1 := ⟨_, rfl, by decide, by decide +kernel⟩

end Banquet.Props
