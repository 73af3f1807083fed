import Verif.Proofs.AesByte
import Verif.Proofs.Lift
import Verif.Proofs.Soundness
import Mathlib.FieldTheory.Finite.Basic

/-! The embeddings of the AES field into the extension fields. -/

namespace Banquet

open Polynomial Spec FieldOk

theorem aesPoly_irreducible : Irreducible aesPoly := by
  rw [aesPoly_monic.irreducible_iff_natDegree']
  refine ⟨fun e => by have := aesPoly_natDegree; rw [e, natDegree_one] at this; omega, fun f g hf hg hfg hd => ?_⟩
  rw [aesPoly_natDegree, Finset.mem_Ioc] at hd
  have hsum : f.natDegree + g.natDegree = 8 := by rw [← hf.natDegree_mul hg, hfg, aesPoly_natDegree]
  have word : ∀ q : (ZMod 2)[X], q.Monic → q.natDegree < 8 → ∃ b : Byte, b ≠ 0 ∧ wordPoly b = q := fun q hq hd => by
    obtain ⟨w, h1, h2⟩ := exists_word (n := 8) q (by norm_num) (by rw [degree_eq_natDegree hq.ne_zero]; exact_mod_cast hd)
    refine ⟨w.setWidth 8, fun e => hq.ne_zero ?_, by rw [wordPoly_setWidth _ h1, h2]⟩
    rw [← h2, ← wordPoly_setWidth _ h1, e, wordPoly_zero]
  obtain ⟨a, ha, rfl⟩ := word f hf (by omega)
  obtain ⟨b, hb, rfl⟩ := word g hg (by omega)
  have h0 : aesMul a b = 0 := by
    apply wordPoly_injective
    rw [aesMul_spec, hfg, modByMonic_self aesPoly_monic, wordPoly_zero]
  obtain ⟨F, h⟩ : ∃ F, initExtensionField 2 = .ok F := ⟨_, rfl⟩
  obtain ⟨hF, -, -⟩ := initExtensionField_ok h
  have h1 := val_lift_mul (F := F) a b
  rw [h0, val_lift_zero] at h1
  rcases mul_eq_zero.1 h1.symm with e | e
  · exact ha (lift_inj (F := F) (by rw [lift_zero]; exact (val_eq_zero (reduced_lift _)).1 e))
  · exact hb (lift_inj (F := F) (by rw [lift_zero]; exact (val_eq_zero (reduced_lift _)).1 e))

instance : Fact (Irreducible aesPoly) := ⟨aesPoly_irreducible⟩

theorem finrank_aes : Module.finrank (ZMod 2) (AdjoinRoot aesPoly) = 8 := by
  rw [PowerBasis.finrank (AdjoinRoot.powerBasis aesPoly_monic.ne_zero), AdjoinRoot.powerBasis_dim, aesPoly_natDegree]

instance : Module.Finite (ZMod 2) (AdjoinRoot aesPoly) := (AdjoinRoot.powerBasis aesPoly_monic.ne_zero).finite
instance : Finite (AdjoinRoot aesPoly) := Module.finite_of_finite (ZMod 2)

variable {F : FieldState} [hF : FieldOk F]

/-- The table for any generator. -/
theorem lut_any (gen : W64) (hg : Reduced F.byteSize gen) (b : Byte) :
    Reduced F.byteSize ((initLiftingLut F.reducer gen).getD b.toNat 0) ∧
      val F.byteSize ((initLiftingLut F.reducer gen).getD b.toNat 0) = aeval (val F.byteSize gen) (wordPoly b) := by
  obtain ⟨g1, g2, g3, g4, g5⟩ := lift_loop (F := F) gen hg 7
  have hl : (initLiftingLut F.reducer gen).getD b.toNat 0 = ((List.range 7).foldl (fun st _ => liftStep F.reducer gen st) (([0, 1] : List W64), gen)).1.getD b.toNat 0 := rfl
  rw [hl]
  refine ⟨g2.getD _, ?_⟩
  rw [g5 _ b.isLt, aeval_eq_sum_range' (n := 8)]
  · apply Finset.sum_congr rfl
    intro j hj
    rw [coeff_wordPoly]
    have : b.getLsbD j = b.toNat.testBit j := rfl
    rw [this]
    split <;> simp
  · by_cases hz : wordPoly b = 0
    · rw [hz]; simp
    · rw [natDegree_lt_iff_degree_lt hz]
      exact (degree_wordPoly_lt b 8).2 b.isLt

/-- A ring homomorphism between algebras over GF(2) as a homomorphism of algebras. -/
def zmodHom {A B : Type*} [Ring A] [Ring B] [Algebra (ZMod 2) A] [Algebra (ZMod 2) B] (φ : A →+* B) : A →ₐ[ZMod 2] B :=
  { φ with commutes' := fun r => RingHom.congr_fun (Subsingleton.elim (φ.comp (algebraMap (ZMod 2) A)) (algebraMap (ZMod 2) B)) r }

variable (F) in
/-- The library's embedding. -/
theorem exists_libHom : ∃ φ : AdjoinRoot aesPoly →ₐ[ZMod 2] GF F.byteSize, ∀ b : Byte, φ (AdjoinRoot.mk aesPoly (wordPoly b)) = val F.byteSize (F.lift b) := by
  obtain ⟨gen, _, h2, h3⟩ := lut_spec (F := F)
  exact ⟨AdjoinRoot.liftAlgHom aesPoly (Algebra.ofId _ _) (val F.byteSize gen) h2, fun b => (h3 b).2.symm⟩

/-- The eight homomorphisms are those of the library followed by a power of the Frobenius map. -/
theorem conj_bijective (φ : AdjoinRoot aesPoly →ₐ[ZMod 2] GF F.byteSize) :
    Function.Bijective fun i : Fin 8 => φ.comp (FiniteField.frobeniusAlgHom (ZMod 2) (AdjoinRoot aesPoly) ^ i.val) := by
  have hinj : Function.Injective fun i : Fin 8 => φ.comp (FiniteField.frobeniusAlgHom (ZMod 2) (AdjoinRoot aesPoly) ^ i.val) := by
    intro i j h
    have hb := (FiniteField.bijective_frobeniusAlgHom_pow (ZMod 2) (AdjoinRoot aesPoly)).1
    have e : FiniteField.frobeniusAlgHom (ZMod 2) (AdjoinRoot aesPoly) ^ i.val = FiniteField.frobeniusAlgHom (ZMod 2) (AdjoinRoot aesPoly) ^ j.val := by
      ext1
      exact φ.toRingHom.injective (DFunLike.congr_fun h _)
    have := @hb ⟨i.val, by rw [finrank_aes]; exact i.2⟩ ⟨j.val, by rw [finrank_aes]; exact j.2⟩ e
    exact Fin.ext (Fin.mk.inj this)
  have : Finite (AdjoinRoot aesPoly →ₐ[ZMod 2] GF F.byteSize) := Finite.of_injective (fun ψ => (ψ : AdjoinRoot aesPoly → GF F.byteSize)) DFunLike.coe_injective
  refine hinj.bijective_of_nat_card_le ?_
  refine (card_algHom_le_finrank (ZMod 2) (AdjoinRoot aesPoly) (GF F.byteSize)).trans ?_
  rw [finrank_aes, Nat.card_eq_fintype_card, Fintype.card_fin]

theorem conj_apply (φ : AdjoinRoot aesPoly →ₐ[ZMod 2] GF F.byteSize) (i : Nat) (x : AdjoinRoot aesPoly) :
    φ.comp (FiniteField.frobeniusAlgHom (ZMod 2) (AdjoinRoot aesPoly) ^ i) x = φ x ^ 2 ^ i := by
  rw [AlgHom.comp_apply, AlgHom.coe_pow, FiniteField.coe_frobeniusAlgHom, pow_iterate, ZMod.card, map_pow]

end Banquet
