import Verif.Proofs.TestRef
import Verif.Props.Field

/-! Property theorems C94: the reference implementation of the tests (tests/utils.cpp) and the field of the library agree on all inputs. -/

namespace Banquet.Props

open Polynomial Spec

/-- C94. The two conversions between the library and the reference are inverse to each other, hence a bijection between the reduced words and the field of the reference. -/
theorem C94_convert {lam : Nat} {F : FieldState} {R : Ref.Field} (h : initExtensionField lam = .ok F) (hR : Ref.initField lam = .ok R) :
    (∀ a, Reduced lam a → Ref.ofNtl F R (Ref.toNtl F R a) = a) ∧ (∀ e, Reduced lam (Ref.ofNtl F R e) ∧ Ref.toNtl F R (Ref.ofNtl F R e) = e) ∧
    (∀ a, Reduced lam a → Ref.toNtl F R a = Ref.fromBytes R (F.toBytes a)) := by
  obtain ⟨hF, rfl, _⟩ := initExtensionField_ok h
  obtain rfl := Ref.initField_ok hR
  refine ⟨fun a ha => by rw [Ref.toNtl_val ha, Ref.ofNtl_val ha], Ref.toNtl_ofNtl, fun a _ => ?_⟩
  unfold Ref.toNtl Ref.fromBytes
  congr 1
  ext i
  rw [Ref.coeff_bytesPoly, Ref.coeff_bytesPoly, List.getD_eq_getElem?_getD, List.getD_eq_getElem?_getD]
  by_cases hi : i / 8 < (F.toBytes a).length
  · rw [List.getElem?_append_left hi]
  · rw [List.getElem?_append_right (by omega), List.getElem?_eq_none (l := F.toBytes a) (by omega)]
    congr 1
    rw [List.getElem?_replicate]
    split <;> simp

/-- C94. Sum, product and inverse of the library are those of the reference. -/
theorem C94_arith {lam : Nat} {F : FieldState} {R : Ref.Field} (h : initExtensionField lam = .ok F) (hR : Ref.initField lam = .ok R) (a b : W64) (ha : Reduced lam a) (hb : Reduced lam b) :
    Ref.toNtl F R (gfAdd a b) = Ref.toNtl F R a + Ref.toNtl F R b ∧ Ref.toNtl F R (F.mul a b) = Ref.toNtl F R a * Ref.toNtl F R b ∧
    (a ≠ 0 → Ref.toNtl F R a * Ref.toNtl F R (F.inverse a) = 1) ∧ (b ≠ 0 → Ref.toNtl F R (F.mul a (F.inverse b)) = Ref.toNtl F R a * Ring.inverse (Ref.toNtl F R b)) := by
  obtain ⟨hF, rfl, _⟩ := initExtensionField_ok h
  obtain rfl := Ref.initField_ok hR
  have hinv : ∀ b : W64, Reduced F.byteSize b → b ≠ 0 → Reduced F.byteSize (F.inverse b) ∧ val F.byteSize b * val F.byteSize (F.inverse b) = 1 := fun b hb h0 => by
    obtain ⟨i, h1, -, -, h4, h5, -⟩ := C03_inverse h b hb
    rw [h4]
    refine ⟨h1, ?_⟩
    rw [← FieldOk.val_mul hb h1, h5 h0, FieldOk.val_one]
  refine ⟨?_, ?_, fun h0 => ?_, fun h0 => ?_⟩
  · rw [Ref.toNtl_val (C01_add a b ha hb).1, Ref.toNtl_val ha, Ref.toNtl_val hb, FieldOk.val_add]
  · rw [Ref.toNtl_val (FieldOk.reduced_mul a b), Ref.toNtl_val ha, Ref.toNtl_val hb, FieldOk.val_mul ha hb]
  · rw [Ref.toNtl_val ha, Ref.toNtl_val (hinv a ha h0).1, (hinv a ha h0).2]
  · rw [Ref.toNtl_val (FieldOk.reduced_mul _ _), Ref.toNtl_val ha, Ref.toNtl_val hb, FieldOk.val_mul ha (hinv b hb h0).1, Ring.inverse_eq_inv', eq_inv_of_mul_eq_one_right (hinv b hb h0).2]

/-- C94. The lifting tables have the same 256 entries. -/
theorem C94_lift {lam : Nat} {F : FieldState} {R : Ref.Field} (h : initExtensionField lam = .ok F) (hR : Ref.initField lam = .ok R) (b : Byte) :
    Ref.lift R b = Ref.toNtl F R (F.lift b) ∧ Ref.ofNtl F R (Ref.lift R b) = F.lift b := by
  obtain ⟨hF, rfl, _⟩ := initExtensionField_ok h
  obtain rfl := Ref.initField_ok hR
  rw [Ref.lift_eq, Ref.toNtl_val (reduced_lift b), Ref.ofNtl_val (reduced_lift b)]
  exact ⟨rfl, rfl⟩

/-- C94. The points, for any number of them. -/
theorem C94_firstN {lam : Nat} {F : FieldState} {R : Ref.Field} (h : initExtensionField lam = .ok F) (hR : Ref.initField lam = .ok R) (n : Nat) :
    Ref.firstN R n = (F.firstN n).map (Ref.toNtl F R) ∧ (Ref.firstN R n).map (Ref.ofNtl F R) = F.firstN n := by
  obtain ⟨hF, rfl, _⟩ := initExtensionField_ok h
  obtain rfl := Ref.initField_ok hR
  have hr : AllRed F.byteSize (F.firstN n) := by
    rw [firstN_eq]
    intro x hx
    obtain ⟨i, -, rfl⟩ := List.mem_map.1 hx
    exact (val_iter i).1
  rw [Ref.map_toNtl hr, Ref.firstN_map, List.map_map]
  refine ⟨rfl, ?_⟩
  conv_rhs => rw [← List.map_id (F.firstN n)]
  exact List.map_congr_left fun x hx => Ref.ofNtl_val (hr x hx)

/-- C94. The polynomial with given roots: every coefficient, for any list of roots. -/
theorem C94_roots {lam : Nat} {F : FieldState} {R : Ref.Field} (h : initExtensionField lam = .ok F) (hR : Ref.initField lam = .ok R) (xs : List W64) (hx : ∀ x ∈ xs, Reduced lam x) (j : Nat) :
    Ref.ofNtl F R ((Ref.buildFromRoots R (xs.map (Ref.toNtl F R))).coeff j) = (F.buildFromRoots xs).getD j 0 := by
  obtain ⟨hF, rfl, _⟩ := initExtensionField_ok h
  obtain rfl := Ref.initField_ok hR
  rw [Ref.map_toNtl hx, Ref.roots_eq hx]
  exact Ref.coeff_ofNtl (buildFromRoots_ok xs hx).2.1 j

/-- C94. For distinct points the reference does not abort, and every coefficient of every Lagrange polynomial agrees, although the reference divides the full product where the library multiplies the other factors. -/
theorem C94_lagrange {lam : Nat} {F : FieldState} {R : Ref.Field} (h : initExtensionField lam = .ok F) (hR : Ref.initField lam = .ok R) (xs : List W64) (hx : ∀ x ∈ xs, Reduced lam x) (hd : xs.Nodup) :
    ∃ ps, Ref.precomputeLagrange R (xs.map (Ref.toNtl F R)) = .ok ps ∧ ps.length = xs.length ∧ (F.precomputeLagrange xs).length = xs.length ∧
      ∀ i j, Ref.ofNtl F R ((ps.getD i 0).coeff j) = ((F.precomputeLagrange xs).getD i []).getD j 0 := by
  obtain ⟨hF, rfl, _⟩ := initExtensionField_ok h
  obtain rfl := Ref.initField_ok hR
  have hl : (F.precomputeLagrange xs).length = xs.length := by simp [FieldState.precomputeLagrange]
  refine ⟨_, (congrArg _ (Ref.map_toNtl hx)).trans (Ref.precompute_ok hx hd), by rw [List.length_map, hl], hl, fun i j => ?_⟩
  by_cases hi : i < (F.precomputeLagrange xs).length
  · rw [getD_of_lt (by rw [List.length_map]; exact hi), List.getElem_map, getD_of_lt hi]
    exact Ref.coeff_ofNtl (precompute_pre hx _ (List.getElem_mem hi)).2 j
  · rw [List.getD_eq_getElem?_getD, List.getElem?_eq_none (by rw [List.length_map]; omega), List.getD_eq_getElem?_getD (l := F.precomputeLagrange xs), List.getElem?_eq_none (by omega)]
    exact (congrArg (Ref.ofNtl F _) (coeff_zero j)).trans Ref.ofNtl_zero

/-- C94. Interpolation through any number of distinct points: both succeed, with the same coefficients. -/
theorem C94_interpolate {lam : Nat} {F : FieldState} {R : Ref.Field} (h : initExtensionField lam = .ok F) (hR : Ref.initField lam = .ok R) (xs ys : List W64) (hlen : xs.length = ys.length)
    (hn : 1 ≤ xs.length) (hx : ∀ x ∈ xs, Reduced lam x) (hy : ∀ y ∈ ys, Reduced lam y) (hd : xs.Nodup) :
    ∃ p q, F.interpolate (F.precomputeLagrange xs) ys = .ok p ∧
      (Ref.precomputeLagrange R (xs.map (Ref.toNtl F R)) >>= fun pre => Ref.interpolate R pre (ys.map (Ref.toNtl F R))) = .ok q ∧ ∀ j, Ref.ofNtl F R (q.coeff j) = p.getD j 0 := by
  obtain ⟨hF, rfl, _⟩ := initExtensionField_ok h
  obtain rfl := Ref.initField_ok hR
  have hl : (F.precomputeLagrange xs).length = ys.length := by simp [FieldState.precomputeLagrange, hlen]
  obtain ⟨p, h1, -, h3, h4⟩ := interpolate_ok (F := F) hl (by rintro rfl; rw [List.length_nil] at hlen; omega) (precompute_pre hx) hy
  refine ⟨p, coeffPoly F.byteSize p, h1, ?_, fun j => Ref.coeff_ofNtl h3 j⟩
  rw [Ref.map_toNtl hx, Ref.map_toNtl hy]
  refine (congrArg (· >>= _) (Ref.precompute_ok hx hd)).trans ?_
  refine (Ref.interpolate_map hl).trans ?_
  rw [h4]

/-- C94. Where they differ. With a repeated point the reference aborts, the library goes on (C05). With the wrong number of values both throw. For λ = 2, which the library accepts, the reference throws. -/
theorem C94_differences {lam : Nat} {F : FieldState} {R : Ref.Field} (h : initExtensionField lam = .ok F) (hR : Ref.initField lam = .ok R) :
    (∀ xs : List W64, (∀ x ∈ xs, Reduced lam x) → ¬ xs.Nodup → Ref.precomputeLagrange R (xs.map (Ref.toNtl F R)) = .error .abort) ∧
    (∀ (pre : List (Ref.Elem R)[X]) (ys : List (Ref.Elem R)), pre.length ≠ ys.length → Ref.interpolate R pre ys = .error .thrown) ∧
    (Ref.initField 2).isOk = false ∧ (initExtensionField 2).isOk = true := by
  obtain ⟨hF, rfl, _⟩ := initExtensionField_ok h
  obtain rfl := Ref.initField_ok hR
  refine ⟨fun xs hx hd => (congrArg _ (Ref.map_toNtl hx)).trans (Ref.precompute_abort hd), fun pre ys hl => ?_, rfl, by decide +kernel⟩
  unfold Ref.interpolate
  rw [if_pos hl]

/-- The hypotheses of C94 hold for the three fields of the reference, with points as in the tests. -/
example : (∃ F R, initExtensionField 4 = .ok F ∧ Ref.initField 4 = .ok R) ∧ (∃ F R, initExtensionField 5 = .ok F ∧ Ref.initField 5 = .ok R) ∧
    (∃ F R, initExtensionField 6 = .ok F ∧ Ref.initField 6 = .ok R) ∧ (∀ x ∈ ([2, 4, 8, 0x9abcdef0] : List W64), Reduced 4 x) ∧ ([2, 4, 8, 0x9abcdef0] : List W64).Nodup :=
  ⟨Ref.both_ok 4 (by decide) (by decide +kernel), Ref.both_ok 5 (by decide) (by decide +kernel), Ref.both_ok 6 (by decide) (by decide +kernel), fun x hx => by
      simp only [List.mem_cons, List.not_mem_nil, or_false] at hx
      rcases hx with rfl | rfl | rfl | rfl <;> (unfold Reduced; decide), by decide⟩

/-- What C94 says about one product that needs reduction. -/
example {F : FieldState} {R : Ref.Field} (h : initExtensionField 5 = .ok F) (hR : Ref.initField 5 = .ok R) : Ref.toNtl F R 0x8000000000 * Ref.toNtl F R 2 = Ref.toNtl F R 0x39 := by
  rw [← (C94_arith h hR 0x8000000000 2 (by unfold Reduced; decide) (by unfold Reduced; decide)).2.1]
  have e : (initExtensionField 5).toOption.map (fun F => F.mul 0x8000000000 2) = some 0x39 := by decide +kernel
  rw [h] at e
  exact congrArg _ (Option.some.inj e)

end Banquet.Props
