import Verif.Model.TestRest
import Verif.Props.Aes
import Verif.Props.TestRef

/-! Property theorems C100: what the test cases on fixed values decide. -/

namespace Banquet.Props

open Polynomial Spec Spec.Aes

/-- C100. The AES test cases pass exactly for the keys without a zero S-box input and the ciphertext of FIPS 197; the second kind of test adds nothing to the first for the three numbers of S-boxes. -/
theorem C100_aes (nk blocks n : Nat) (hv : Variant nk blocks n) (key pt expected : Bytes) :
    (Ref.aesTest (4 * nk) key pt expected = true ↔ 0 ∉ sboxInputs nk blocks key pt ∧ expected = encrypt nk blocks key pt) ∧
    (Ref.aesSaveTest (4 * nk) n key pt expected = true ↔ 0 ∉ sboxInputs nk blocks key pt ∧ expected = encrypt nk blocks key pt) := by
  have h := C32_aes nk blocks n hv key pt
  unfold Ref.aesTest Ref.aesSaveTest
  cases e : aesPlain (4 * nk) key pt with
  | none =>
    have hn : ¬ (0 ∉ sboxInputs nk blocks key pt ∧ expected = encrypt nk blocks key pt) := fun c => by
      rw [(h expected).2 c] at e
      exact absurd e (by simp)
    exact ⟨⟨fun c => absurd c (by simp), fun c => absurd c hn⟩, ⟨fun c => absurd c (by simp), fun c => absurd c hn⟩⟩
  | some ct =>
    obtain ⟨h0, rfl⟩ := (h ct).1 e
    obtain ⟨s, t, hs, hl, ht, -⟩ := C33_pairs nk blocks n hv key pt h0
    dsimp only
    rw [hs]
    refine ⟨⟨fun c => ⟨h0, (of_decide_eq_true c).symm⟩, fun c => decide_eq_true c.2.symm⟩, ⟨fun c => ?_, fun c => ?_⟩⟩
    · rw [Bool.and_eq_true, Bool.and_eq_true, Bool.and_eq_true] at c
      exact ⟨h0, (of_decide_eq_true c.1.1.1).symm⟩
    · rw [Bool.and_eq_true, Bool.and_eq_true, Bool.and_eq_true]
      exact ⟨⟨⟨decide_eq_true c.2.symm, decide_eq_true rfl⟩, decide_eq_true hl⟩, decide_eq_true ht⟩

/-- The known answer test for AES-128, and a wrong byte in it. -/
example : Ref.aesTest 16 (List.replicate 16 0xff) ([1, 1, 1, 1] ++ List.replicate 12 0) [11, 90, 129, 77, 149, 96, 28, 199, 239, 231, 18, 40, 62, 5, 239, 143] = true ∧
    Ref.aesTest 16 (List.replicate 16 0xff) ([1, 1, 1, 1] ++ List.replicate 12 0) [11, 90, 129, 77, 149, 96, 28, 199, 239, 231, 18, 40, 62, 5, 239, 142] = false := by
  unfold Ref.aesTest
  rw [kat_usable]
  decide

/-- C100. The basic test passes in all four fields of the library; the tests for products pass exactly for the remainders modulo the field polynomial. -/
theorem C100_field {lam : Nat} {F : FieldState} (h : initExtensionField lam = .ok F) :
    Ref.basicTest F = true ∧
    ∀ a b ab aa bb, Reduced lam a → Reduced lam b → (Ref.modularTest F a b ab aa bb = true ↔
      wordPoly ab = (wordPoly a * wordPoly b) %ₘ fieldPoly lam ∧ wordPoly aa = (wordPoly a * wordPoly a) %ₘ fieldPoly lam ∧ wordPoly bb = (wordPoly b * wordPoly b) %ₘ fieldPoly lam) := by
  constructor
  · obtain ⟨-, -, hs⟩ := initExtensionField_ok h
    have key : ∀ l, Supported l → (initExtensionField l).map Ref.basicTest = .ok true := by
      rintro l (rfl | rfl | rfl | rfl) <;> decide +kernel
    have := key lam hs
    rw [h] at this
    exact Except.ok.inj this
  · intro a b ab aa bb ha hb
    have step : ∀ x y z, Reduced lam x → Reduced lam y → (F.mul x y = z ↔ wordPoly z = (wordPoly x * wordPoly y) %ₘ fieldPoly lam) := fun x y z hx hy => by
      rw [← (C01_mul h x y hx hy).2]
      exact ⟨fun e => by rw [e], fun e => (wordPoly_injective e).symm⟩
    unfold Ref.modularTest
    rw [Bool.and_eq_true, Bool.and_eq_true, decide_eq_true_iff, decide_eq_true_iff, decide_eq_true_iff, step a b ab ha hb, step a a aa ha ha, step b b bb hb hb, and_assoc]

/-- The values of the three tests. -/
example : (initExtensionField 4).map (fun F => Ref.modularTest F 2980627201 772951084 3895706975 2846443116 234130046) = .ok true ∧
    (initExtensionField 5).map (fun F => Ref.modularTest F 683080732428 437065243549 916833885315 224904587486 153370336291) = .ok true ∧
    (initExtensionField 6).map (fun F => Ref.modularTest F 94834555057164 119504161027501 130190305526807 187414204277907 119412372920018) = .ok true := by decide +kernel

/-- C100. The lifting test passes exactly if the two bytes are inverse to each other and lifted to the given elements. -/
theorem C100_lift {lam : Nat} {F : FieldState} {R : Ref.Field} (h : initExtensionField lam = .ok F) (hR : Ref.initField lam = .ok R) (a b : Byte) (ca cb : List Nat)
    (ha : ∀ c ∈ ca, c < 8 * lam) (hb : ∀ c ∈ cb, c < 8 * lam) :
    Ref.liftTest R a b ca cb = true ↔ F.lift a = ofCoeffs ca ∧ F.lift b = ofCoeffs cb ∧ mul a b = 1 := by
  have hl := C04_lift h
  obtain ⟨hF, rfl, _⟩ := initExtensionField_ok h
  obtain rfl := Ref.initField_ok hR
  have h7 := FieldOk.le7 (F := F)
  have red : ∀ cs : List Nat, (∀ c ∈ cs, c < 8 * F.byteSize) → Reduced F.byteSize (ofCoeffs cs) := fun cs hc => by
    refine Nat.lt_pow_two_of_testBit _ fun i hi => ?_
    rw [← BitVec.getLsbD, ofCoeffs, Ref.getLsbD_ofCoeffs cs (fun c h => by have := hc c h; omega)]
    have : i ∉ cs := fun h => by have := hc i h; omega
    simp [this]
  have eq : ∀ (x : Byte) (cs : List Nat), (∀ c ∈ cs, c < 8 * F.byteSize) → (Ref.lift (Ref.field F.byteSize) x = AdjoinRoot.mk _ (Ref.setCoeffs cs) ↔ F.lift x = ofCoeffs cs) := fun x cs hc => by
    rw [Ref.setCoeffs_eq cs (fun c h => by have := hc c h; omega), Ref.lift_eq]
    exact ⟨fun e => FieldOk.val_inj (hl x x).1 (red cs hc) e, fun e => by rw [e]; rfl⟩
  unfold Ref.liftTest
  dsimp only
  rw [Bool.and_eq_true, Bool.and_eq_true, decide_eq_true_iff, decide_eq_true_iff, decide_eq_true_iff, and_assoc]
  have e1 := eq a ca ha
  have e2 := eq b cb hb
  constructor
  · rintro ⟨g1, g2, g3⟩
    refine ⟨e1.1 g1, e2.1 g2, ?_⟩
    rw [← g1, ← g2] at g3
    rw [← aesMul_eq]
    have hm : val F.byteSize (F.lift a) * val F.byteSize (F.lift b) = 1 := by
      rw [← Ref.lift_eq, ← Ref.lift_eq]; exact g3
    rw [← FieldOk.val_mul (hl a a).1 (hl b b).1, ← FieldOk.val_one, ← (hl a b).2.2.1, ← (hl a b).2.2.2.1] at hm
    exact (hl _ _).2.2.2.2.2 (FieldOk.val_inj (hl _ 0).1 (hl _ 0).1 hm)
  · rintro ⟨g1, g2, g3⟩
    refine ⟨e1.2 g1, e2.2 g2, ?_⟩
    rw [← e1.2 g1, ← e2.2 g2]
    have hm : val F.byteSize (F.lift a) * val F.byteSize (F.lift b) = 1 := by
      rw [← FieldOk.val_mul (hl a a).1 (hl b b).1, ← (hl a b).2.2.1, aesMul_eq, g3, (hl a b).2.2.2.1, FieldOk.val_one]
    rw [← Ref.lift_eq, ← Ref.lift_eq] at hm
    exact hm

/-- The values of the test. -/
example {F : FieldState} {R : Ref.Field} (h : initExtensionField 4 = .ok F) (hR : Ref.initField 4 = .ok R) :
    Ref.liftTest R 3 246 [30, 23, 21, 18, 14, 13, 11, 9, 7, 6, 5, 4, 3, 1, 0] [30, 29, 27, 26, 25, 19, 18, 17, 14, 13, 12, 10, 8, 7, 4, 2, 1] = true := by
  rw [C100_lift h hR _ _ _ _ (by decide) (by decide)]
  have e : (initExtensionField 4).map (fun F => (F.lift 3, F.lift 246)) = .ok (ofCoeffs [30, 23, 21, 18, 14, 13, 11, 9, 7, 6, 5, 4, 3, 1, 0], ofCoeffs [30, 29, 27, 26, 25, 19, 18, 17, 14, 13, 12, 10, 8, 7, 4, 2, 1]) := by decide +kernel
  rw [h] at e
  have e := Except.ok.inj e
  exact ⟨congrArg Prod.fst e, congrArg Prod.snd e, by decide +kernel⟩

end Banquet.Props
