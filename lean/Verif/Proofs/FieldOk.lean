import Verif.Proofs.GfInst
import Verif.Proofs.Euclid
import Mathlib.Algebra.CharP.Algebra

/-! The interface between the word level and the field: everything later proofs need to know about a properly initialised `FieldState`. -/

namespace Banquet

open Polynomial Spec

/-- `F` is a state that `init_extension_field` leaves behind. -/
class FieldOk (F : FieldState) : Prop where
  red : ReduceOk (8 * F.byteSize) F.modulus F.reducer.apply
  modulus : wordPoly F.modulus = fieldPoly F.byteSize
  monic : (fieldPoly F.byteSize).Monic
  natDegree : (fieldPoly F.byteSize).natDegree = 8 * F.byteSize
  irreducible : Irreducible (fieldPoly F.byteSize)
  orderX : 21845 ≤ orderOf (val F.byteSize (2 : W64))
  lut : ∃ gen : W64, F.lut = initLiftingLut F.reducer gen ∧ Reduced F.byteSize gen ∧
    aeval (val F.byteSize gen) aesPoly = 0 ∧ wordPoly gen = aesRoot F.byteSize

variable {F : FieldState} [hF : FieldOk F]

instance : Fact (Irreducible (fieldPoly F.byteSize)) := ⟨hF.irreducible⟩

namespace FieldOk

theorem pos : 0 < F.byteSize := by have := hF.red.npos; omega
theorem le7 : F.byteSize ≤ 7 := by have := hF.red.nlt; omega

theorem val_xor {n : Nat} (a b : BitVec n) : val F.byteSize (a ^^^ b) = val F.byteSize a + val F.byteSize b := by
  simp [val, wordPoly_xor]

theorem val_add (a b : W64) : val F.byteSize (gfAdd a b) = val F.byteSize a + val F.byteSize b := val_xor a b

theorem val_zero : val F.byteSize (0 : W64) = 0 := by simp only [val, wordPoly_zero, map_zero]
theorem val_one : val F.byteSize (1 : W64) = 1 := by
  rw [val, show (1 : W64) = 1#64 from rfl, wordPoly_one (by norm_num), map_one]

omit hF in
theorem reduced_zero : Reduced F.byteSize (0 : W64) := by
  show (0 : W64).toNat < _
  simp

theorem reduced_one : Reduced F.byteSize (1 : W64) := by
  have := pos (F := F)
  exact Nat.one_lt_two_pow (by omega)

theorem reduced_two : Reduced F.byteSize (2 : W64) := by
  have := pos (F := F)
  show 2 < 2 ^ (8 * F.byteSize)
  calc 2 = 2 ^ 1 := rfl
    _ < _ := Nat.pow_lt_pow_right (by norm_num) (by omega)

omit hF in
theorem reduced_xor {a b : W64} (ha : Reduced F.byteSize a) (hb : Reduced F.byteSize b) : Reduced F.byteSize (a ^^^ b) := by
  unfold Reduced at *
  rw [BitVec.toNat_xor]
  exact Nat.xor_lt_two_pow ha hb

omit hF in
theorem reduced_add {a b : W64} (ha : Reduced F.byteSize a) (hb : Reduced F.byteSize b) : Reduced F.byteSize (gfAdd a b) := reduced_xor ha hb

theorem reduced_apply (x : W128) : Reduced F.byteSize (F.reducer.apply x) := hF.red.lt x

theorem reduced_mul (a b : W64) : Reduced F.byteSize (F.mul a b) := hF.red.lt _

theorem apply_xor (x y : W128) : F.reducer.apply (x ^^^ y) = F.reducer.apply x ^^^ F.reducer.apply y := hF.red.xor x y
theorem apply_zero : F.reducer.apply 0 = 0 := hF.red.zero

theorem val_mul {a b : W64} (ha : Reduced F.byteSize a) (hb : Reduced F.byteSize b) :
    val F.byteSize (F.mul a b) = val F.byteSize a * val F.byteSize b := by
  unfold val
  rw [← map_mul]
  apply AdjoinRoot.mk_eq_mk.2
  have h := ReduceOk.mul_dvd (a := a) (b := b) hF.red ha hb
  rewrite [hF.modulus] at h
  rw [FieldState.mul]
  convert h

theorem degree_eq : (fieldPoly F.byteSize).degree = (8 * F.byteSize : ℕ) := by
  rw [degree_eq_natDegree hF.monic.ne_zero, hF.natDegree]

theorem val_inj {a b : W64} (ha : Reduced F.byteSize a) (hb : Reduced F.byteSize b) (h : val F.byteSize a = val F.byteSize b) : a = b := by
  have h' : wcls F.modulus a = wcls F.modulus b := by
    apply AdjoinRoot.mk_eq_mk.2
    rewrite [hF.modulus]
    exact AdjoinRoot.mk_eq_mk.1 h
  exact wcls_inj (p := F.modulus) (by rw [hF.modulus]; exact hF.monic) (by rw [hF.modulus]; exact hF.natDegree) ha hb h'

theorem val_eq_zero {a : W64} (ha : Reduced F.byteSize a) : val F.byteSize a = 0 ↔ a = 0 := by
  constructor
  · intro h
    exact val_inj ha reduced_zero (h.trans val_zero.symm)
  · rintro rfl; exact val_zero

theorem val_surj (k : GF F.byteSize) : ∃ w : W64, Reduced F.byteSize w ∧ val F.byteSize w = k := by
  obtain ⟨q, rfl⟩ := AdjoinRoot.mk_surjective k
  obtain ⟨w, hw, h⟩ := exists_word (n := 8 * F.byteSize) (q %ₘ fieldPoly F.byteSize) (by have := le7 (F := F); omega)
    (by rw [← degree_eq]; exact degree_modByMonic_lt _ hF.monic)
  refine ⟨w, hw, ?_⟩
  rw [val, h, AdjoinRoot.mk_eq_mk]
  refine ⟨-(q /ₘ fieldPoly F.byteSize), ?_⟩
  have := modByMonic_add_div q (fieldPoly F.byteSize)
  calc q %ₘ fieldPoly F.byteSize - q = q %ₘ fieldPoly F.byteSize - (q %ₘ fieldPoly F.byteSize + fieldPoly F.byteSize * (q /ₘ fieldPoly F.byteSize)) := by rw [this]
    _ = _ := by ring

instance : CharP (GF F.byteSize) 2 := charP_of_injective_algebraMap (algebraMap (ZMod 2) (GF F.byteSize)).injective 2

/-- Termination and value of `mod_inverse`, for every value of `clzl(0)`. -/
theorem modInverse_some (a : W64) (ha : Reduced F.byteSize a) :
    ∃ s : W64, (∀ z, modInverse z a F.modulus = some s) ∧ Reduced F.byteSize s ∧ val F.byteSize s = (val F.byteSize a)⁻¹ := by
  by_cases h0 : a = 0
  · subst h0
    refine ⟨0, fun z => by simp [modInverse, modInverseLoop], reduced_zero, ?_⟩
    rw [val_zero, inv_zero]
  · obtain ⟨s, h1, h2, h3⟩ := modInverse_spec hF.red.nlt F.modulus a (by rw [hF.modulus]; exact hF.natDegree) (by rw [hF.modulus]; exact hF.irreducible) ha h0
    refine ⟨s, h1, h2, ?_⟩
    rw [hF.modulus] at h3
    have h4 : val F.byteSize s * val F.byteSize a = 1 := by
      unfold val
      rw [← map_mul, ← map_one (AdjoinRoot.mk _), AdjoinRoot.mk_eq_mk]; exact h3
    exact eq_inv_of_mul_eq_one_left h4

theorem reduced_inverseZ (z : Nat) {a : W64} (ha : Reduced F.byteSize a) : Reduced F.byteSize (F.inverseZ z a) := by
  obtain ⟨s, h1, h2, _⟩ := modInverse_some a ha
  unfold FieldState.inverseZ; rw [h1 z]; exact h2

theorem val_inverseZ (z : Nat) {a : W64} (ha : Reduced F.byteSize a) : val F.byteSize (F.inverseZ z a) = (val F.byteSize a)⁻¹ := by
  obtain ⟨s, h1, _, h3⟩ := modInverse_some a ha
  unfold FieldState.inverseZ; rw [h1 z]; exact h3

theorem inverseZ_indep (z z' : Nat) {a : W64} (ha : Reduced F.byteSize a) : F.inverseZ z a = F.inverseZ z' a := by
  obtain ⟨s, h1, _, h3⟩ := modInverse_some a ha
  unfold FieldState.inverseZ; rw [h1 z, h1 z']

end FieldOk

theorem orderOf_val {lam : Nat} {p g : W64} (hp : wordPoly p = fieldPoly lam) : orderOf (val lam g) = orderOf (wcls p g) := by
  have key : ∀ P, wordPoly p = P → orderOf (AdjoinRoot.mk P (wordPoly g)) = orderOf (wcls p g) := by
    rintro _ rfl; rfl
  exact key _ hp

theorem aeval_aes (lam : Nat) (x : GF lam) : aeval x aesPoly = x ^ 8 + x ^ 4 + x ^ 3 + x + 1 := by
  simp [aesPoly]

/-- Word check for the generator of the subfield. -/
theorem gen_root {lam : Nat} {R : W128 → W64} {p gen : W64} (h : ReduceOk (8 * lam) p R) (hp : wordPoly p = fieldPoly lam) (hg : gen.toNat < 2 ^ (8 * lam))
    (hc : powW R gen 4 8 ^^^ powW R gen 4 4 ^^^ powW R gen 4 3 ^^^ gen ^^^ 1 = 0) : aeval (val lam gen) aesPoly = 0 := by
  rw [aeval_aes]
  have hpow : ∀ e < 16, val lam (powW R gen 4 e) = val lam gen ^ e := by
    intro e he
    have h2 := (wcls_pow h hg 4 e he).2
    have key : ∀ P, wordPoly p = P → AdjoinRoot.mk P (wordPoly (powW R gen 4 e)) = AdjoinRoot.mk P (wordPoly gen) ^ e := by
      rintro _ rfl; exact h2
    exact key _ hp
  have h1 : val lam (1 : W64) = 1 := by
    rw [val, show (1 : W64) = 1#64 from rfl, wordPoly_one (by norm_num), map_one]
  have hx : ∀ a b : W64, val lam (a ^^^ b) = val lam a + val lam b := by intro a b; simp [val, wordPoly_xor]
  have h0 : val lam (0 : W64) = 0 := by simp only [val, wordPoly_zero, map_zero]
  have := congrArg (val lam) hc
  rw [hx, hx, hx, hx, hpow 8 (by norm_num), hpow 4 (by norm_num), hpow 3 (by norm_num), h1, h0] at this
  exact this

set_option maxRecDepth 100000 in
theorem fieldOk2 : FieldOk ⟨.r16, 2, ofCoeffs [16, 5, 3, 1, 0], initLiftingLut .r16 (ofCoeffs [14, 8, 7, 6, 3, 2, 0])⟩ where
  red := reduce16_ok
  modulus := wordPoly_mod2
  monic := wordPoly_mod2 ▸ monic2
  natDegree := wordPoly_mod2 ▸ natDegree2
  irreducible := wordPoly_mod2 ▸ irreducible2
  orderX := by rw [orderOf_val wordPoly_mod2, order_x2]
  lut := ⟨_, rfl, (by unfold Reduced; decide +kernel), gen_root (R := reduce16) reduce16_ok wordPoly_mod2 (by decide +kernel) (by decide +kernel), wordPoly_root2⟩

set_option maxRecDepth 100000 in
theorem fieldOk4 : FieldOk ⟨.r32, 4, ofCoeffs [32, 7, 3, 2, 0], initLiftingLut .r32 (ofCoeffs [30, 23, 21, 18, 14, 13, 11, 9, 7, 6, 5, 4, 3, 1])⟩ where
  red := reduce32_ok
  modulus := wordPoly_mod4
  monic := wordPoly_mod4 ▸ monic4
  natDegree := wordPoly_mod4 ▸ natDegree4
  irreducible := wordPoly_mod4 ▸ irreducible4
  orderX := by rw [orderOf_val wordPoly_mod4, order_x4]; norm_num
  lut := ⟨_, rfl, (by unfold Reduced; decide +kernel), gen_root (R := reduce32) reduce32_ok wordPoly_mod4 (by decide +kernel) (by decide +kernel), wordPoly_root4⟩

set_option maxRecDepth 100000 in
theorem fieldOk5 : FieldOk ⟨.r40, 5, ofCoeffs [40, 5, 4, 3, 0], initLiftingLut .r40 (ofCoeffs [31, 30, 27, 25, 22, 21, 20, 18, 15, 9, 6, 4, 2])⟩ where
  red := reduce40_ok
  modulus := wordPoly_mod5
  monic := wordPoly_mod5 ▸ monic5
  natDegree := wordPoly_mod5 ▸ natDegree5
  irreducible := wordPoly_mod5 ▸ irreducible5
  orderX := by rw [orderOf_val wordPoly_mod5, order_x5]; norm_num
  lut := ⟨_, rfl, (by unfold Reduced; decide +kernel), gen_root (R := reduce40) reduce40_ok wordPoly_mod5 (by decide +kernel) (by decide +kernel), wordPoly_root5⟩

set_option maxRecDepth 100000 in
theorem fieldOk6 : FieldOk ⟨.r48, 6, ofCoeffs [48, 5, 3, 2, 0],
    initLiftingLut .r48 (ofCoeffs [45, 43, 40, 37, 36, 35, 34, 33, 31, 30, 29, 28, 24, 21, 20, 19, 16, 14, 13, 11, 10, 7, 3, 2])⟩ where
  red := reduce48_ok
  modulus := wordPoly_mod6
  monic := wordPoly_mod6 ▸ monic6
  natDegree := wordPoly_mod6 ▸ natDegree6
  irreducible := wordPoly_mod6 ▸ irreducible6
  orderX := by rw [orderOf_val wordPoly_mod6, order_x6]; norm_num
  lut := ⟨_, rfl, (by unfold Reduced; decide +kernel), gen_root (R := reduce48) reduce48_ok wordPoly_mod6 (by decide +kernel) (by decide +kernel), wordPoly_root6⟩

/-- Every state returned by `init_extension_field` is good, and its byte size is the requested one. -/
theorem initExtensionField_ok {lam : Nat} {F : FieldState} (h : initExtensionField lam = .ok F) : FieldOk F ∧ F.byteSize = lam ∧ Supported lam := by
  unfold initExtensionField at h
  split at h
  · obtain rfl := Except.ok.inj h; exact ⟨fieldOk2, rfl, Or.inl rfl⟩
  · obtain rfl := Except.ok.inj h; exact ⟨fieldOk4, rfl, Or.inr (Or.inl rfl)⟩
  · obtain rfl := Except.ok.inj h; exact ⟨fieldOk5, rfl, Or.inr (Or.inr (Or.inl rfl))⟩
  · obtain rfl := Except.ok.inj h; exact ⟨fieldOk6, rfl, Or.inr (Or.inr (Or.inr rfl))⟩
  · cases h

end Banquet
