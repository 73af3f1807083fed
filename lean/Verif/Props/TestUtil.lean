import Verif.Proofs.TestUtil
import Verif.Props.TestRef

/-! Property theorems C99: the test cases of field_test.cpp and util_test.cpp that compare with NTL. -/

namespace Banquet.Props

open Polynomial Spec

private theorem lib_of_ref {lam : Nat} {R : Ref.Field} (hR : Ref.initField lam = .ok R) : ∃ F, initExtensionField lam = .ok F := by
  have h : lam = 4 ∨ lam = 5 ∨ lam = 6 := by
    unfold Ref.initField at hR
    split at hR
    · exact .inl rfl
    · exact .inr (.inl rfl)
    · exact .inr (.inr rfl)
    · exact absurd hR (by simp)
  rcases h with rfl | rfl | rfl
  · exact Ref.ok_of_isOk (by decide +kernel)
  · exact Ref.ok_of_isOk (by decide +kernel)
  · exact Ref.ok_of_isOk (by decide +kernel)

/-- C99. "Precomputed Lagrange Interpolation" passes for any number of distinct points with any values. -/
theorem C99_partial {lam : Nat} {R : Ref.Field} (hR : Ref.initField lam = .ok R) (xs ys1 ys2 : List (Ref.Elem R)) (h1 : xs.length = ys1.length) (h2 : xs.length = ys2.length) (hn : 1 ≤ xs.length) (hd : xs.Nodup) :
    Ref.lagrangeTest R xs ys1 ys2 = .ok true := by
  obtain ⟨F, h⟩ := lib_of_ref hR
  obtain ⟨hF, rfl, _⟩ := initExtensionField_ok h
  obtain rfl := Ref.initField_ok hR
  obtain ⟨xs, hx, rfl⟩ := Ref.exists_words (F := F) xs
  obtain ⟨ys1, hy1, rfl⟩ := Ref.exists_words (F := F) ys1
  obtain ⟨ys2, hy2, rfl⟩ := Ref.exists_words (F := F) ys2
  rw [List.length_map] at h1 h2 hn
  rw [List.length_map] at h1 h2
  have hd' : xs.Nodup := hd.of_map _
  obtain ⟨p1, a1, b1⟩ := Ref.both_eq hx hy1 hd' h1 (by rintro rfl; rw [List.length_nil] at h1; omega)
  obtain ⟨p2, a2, b2⟩ := Ref.both_eq hx hy2 hd' h2 (by rintro rfl; rw [List.length_nil] at h2; omega)
  unfold Ref.lagrangeTest
  rw [a1, a2, Ref.precompute_ok hx hd', ok_bind, ok_bind, ok_bind, b1, ok_bind, b2, ok_bind]
  exact congrArg Except.ok (by simp)

/-- C99. With two equal points it aborts in NTL. -/
theorem C99_repeated (R : Ref.Field) (xs ys1 ys2 : List (Ref.Elem R)) (hd : ¬ xs.Nodup) : Ref.lagrangeTest R xs ys1 ys2 = .error .abort := by
  unfold Ref.lagrangeTest Ref.ntlInterpolate
  rw [if_neg (fun c => hd c.2)]
  rfl

/-- C99. Hence it does not pass for all random values: the 20 points of the test can coincide. -/
theorem C99_violated {R : Ref.Field} (_ : Ref.initField 4 = .ok R) :
    ¬ ∀ xs ys1 ys2 : List (Ref.Elem R), xs.length = 20 → ys1.length = 20 → ys2.length = 20 → Ref.lagrangeTest R xs ys1 ys2 = .ok true := by
  intro h
  have := h (List.replicate 20 0) (List.replicate 20 0) (List.replicate 20 0) (by simp) (by simp) (by simp)
  rw [C99_repeated R _ _ _ (by rw [List.nodup_replicate]; omega)] at this
  exact absurd this (by simp)

/-- C99. How rarely: of the `q^n` choices of `n` points, `q` the size of the field, at most the fraction `n (n - 1) / (2 q)` does not pass, whatever the values. -/
theorem C99_bound {lam : Nat} {R : Ref.Field} (hR : Ref.initField lam = .ok R) (n : Nat) (hn : 1 ≤ n) (ys1 ys2 : List (Ref.Elem R)) (h1 : ys1.length = n) (h2 : ys2.length = n) :
    Nat.card {v : Fin n → Ref.Elem R // Ref.lagrangeTest R (List.ofFn v) ys1 ys2 ≠ .ok true} * (2 * 2 ^ (8 * lam)) ≤ n * (n - 1) * (2 ^ (8 * lam)) ^ n := by
  have hp := C99_partial hR
  obtain ⟨F, h⟩ := lib_of_ref hR
  obtain ⟨hF, rfl, _⟩ := initExtensionField_ok h
  obtain rfl := Ref.initField_ok hR
  have hc := Ref.card_not_injective (GF F.byteSize) n
  rw [card_gf] at hc
  refine le_trans (Nat.mul_le_mul_right _ ?_) hc
  have hfin : Finite {v : Fin n → GF F.byteSize // ¬ Function.Injective v} := inferInstance
  refine Nat.card_le_card_of_injective (fun v => ⟨v.1, fun hi => v.2 (hp _ ys1 ys2 ?_ ?_ ?_ (List.nodup_ofFn.2 hi))⟩) fun a b hab => Subtype.ext (congrArg (fun w : {v : Fin n → GF F.byteSize // ¬ Function.Injective v} => w.1) hab)
  · rw [List.length_ofFn, h1]
  · rw [List.length_ofFn, h2]
  · rwa [List.length_ofFn]

/-- C99. The test case itself, with its 20 points of GF(2^32): it fails with probability at most 190 / 2^32. -/
example {R : Ref.Field} (hR : Ref.initField 4 = .ok R) (ys1 ys2 : List (Ref.Elem R)) (h1 : ys1.length = 20) (h2 : ys2.length = 20) :
    Nat.card {v : Fin 20 → Ref.Elem R // Ref.lagrangeTest R (List.ofFn v) ys1 ys2 ≠ .ok true} * 2 ^ 32 ≤ 190 * (2 ^ 32) ^ 20 := by
  have := C99_bound hR 20 (by norm_num) ys1 ys2 h1 h2
  rw [show 2 * 2 ^ (8 * 4) = 2 ^ 32 * 2 by norm_num, ← mul_assoc, show 20 * (20 - 1) = 190 * 2 by norm_num, show 8 * 4 = 32 by norm_num, mul_right_comm 190] at this
  exact Nat.le_of_mul_le_mul_right this (by norm_num)

/-- C99. The test cases of field_test.cpp pass for all values, not only the fixed ones: the encoding of any element, conversion and inversion of any nonzero one (of zero NTL aborts). -/
theorem C99_elements {lam : Nat} {F : FieldState} {R : Ref.Field} (h : initExtensionField lam = .ok F) (hR : Ref.initField lam = .ok R) :
    (∀ cs : List Nat, (∀ c ∈ cs, c < 8 * lam) → Ref.bytesTest F R cs = true) ∧
    (∀ a b, Reduced lam a → Reduced lam b → a ≠ 0 → Ref.conversionTest F R a b = .ok true) ∧
    (∀ a, Reduced lam a → a ≠ 0 → Ref.inverseTest F R a = .ok true) ∧
    (∀ b, Ref.conversionTest F R 0 b = .error .abort) ∧ Ref.inverseTest F R 0 = .error .abort := by
  have har := C94_arith h hR
  have hcv := C94_convert h hR
  have hinv := C03_inverse h
  obtain ⟨hF, rfl, _⟩ := initExtensionField_ok h
  obtain rfl := Ref.initField_ok hR
  have hz : Ref.toNtl F (Ref.field F.byteSize) 0 = 0 := by
    rw [Ref.toNtl_val (by unfold Reduced; exact Nat.two_pow_pos _), FieldOk.val_zero]
  have hu : ∀ a, Reduced F.byteSize a → a ≠ 0 → IsUnit (Ref.toNtl F (Ref.field F.byteSize) a) := fun a ha h0 => IsUnit.of_mul_eq_one _ ((har a a ha ha).2.2.1 h0)
  have hn : ¬ IsUnit (Ref.toNtl F (Ref.field F.byteSize) 0) := by
    rw [hz]; exact not_isUnit_zero
  refine ⟨fun cs hc => Ref.bytesTest_true hc, fun a b ha hb h0 => ?_, fun a ha h0 => ?_, fun b => ?_, ?_⟩
  · unfold Ref.conversionTest
    dsimp only
    rw [if_pos (hu a ha h0), (har a b ha hb).2.1, mul_comm (Ref.toNtl _ _ a), mul_assoc, Ring.mul_inverse_cancel _ (hu a ha h0), mul_one, hcv.1 b hb, decide_eq_true rfl]
  · obtain ⟨i, g1, -, -, g4, g5, -⟩ := hinv a ha
    have e : Ring.inverse (Ref.toNtl F (Ref.field F.byteSize) a) = Ref.toNtl F (Ref.field F.byteSize) (F.inverse a) := by
      have := (har a a ha ha).2.2.1 h0
      rw [← one_mul (Ref.toNtl _ _ (F.inverse a)), ← Ring.inverse_mul_cancel _ (hu a ha h0), mul_assoc, this, mul_one]
    unfold Ref.inverseTest
    dsimp only
    rw [if_pos (hu a ha h0), e, hcv.1 _ (by rw [g4]; exact g1), decide_eq_true rfl, g4, g5 h0]
    rfl
  · unfold Ref.conversionTest
    dsimp only
    rw [if_neg hn]
  · unfold Ref.inverseTest
    dsimp only
    rw [if_neg hn]

/-- C99. "NTL interpolation == custom" passes for any number of points up to the order of `x`: the points, the numbers of coefficients and all coefficients agree. -/
theorem C99_interpolation {lam : Nat} {F : FieldState} {R : Ref.Field} (h : initExtensionField lam = .ok F) (hR : Ref.initField lam = .ok R) (n : Nat) (hn : n ≤ orderX lam) : Ref.interpolationTest F R n = .ok true := by
  have hnd := (C07_points h n).2.2.2 hn
  obtain ⟨hF, rfl, _⟩ := initExtensionField_ok h
  obtain rfl := Ref.initField_ok hR
  exact Ref.interpolationTest_true n hnd

/-- The values of the tests: 100 points of GF(2^32), and the two elements of field_test.cpp:170-201. -/
example {F : FieldState} {R : Ref.Field} (h : initExtensionField 4 = .ok F) (hR : Ref.initField 4 = .ok R) : Ref.interpolationTest F R 100 = .ok true ∧
    Ref.conversionTest F R (ofCoeffs [31, 29, 28, 24, 23, 21, 19, 15, 14, 9, 8, 0]) (ofCoeffs [29, 27, 26, 25, 20, 17, 14, 11, 10, 5, 3, 2]) = .ok true ∧ Ref.bytesTest F R [29, 27, 26, 25, 20, 17, 14, 11, 10, 5, 3, 2] = true :=
  ⟨C99_interpolation h hR 100 (by decide), (C99_elements h hR).2.1 _ _ (by unfold Reduced; decide) (by unfold Reduced; decide) (by decide), (C99_elements h hR).1 _ (by decide)⟩

end Banquet.Props
