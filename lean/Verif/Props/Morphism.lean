import Verif.Model.Morphism
import Verif.Proofs.Morphism
import Verif.Proofs.Shared

/-! Property theorems C97: the script tools/morphism.sage and the generators of field.cpp. -/

namespace Banquet.Props

open Polynomial Spec FieldOk

private theorem modulus_eq {lam : Nat} (h : Supported lam) : Sage.modulus lam = fieldPoly lam := by
  rcases h with rfl | rfl | rfl | rfl <;> rfl

private theorem root_eq : AdjoinRoot.root aesPoly = AdjoinRoot.mk aesPoly (wordPoly (2 : Byte)) := by
  rw [show (2 : Byte) = 1#8 <<< 1 by decide, wordPoly_twoPow (n := 8) 1 (by norm_num), pow_one]
  rfl

private theorem gf_ok {n : Nat} {m : (ZMod 2)[X]} (h1 : m.natDegree = n) (h2 : Irreducible m) : Sage.gf n m = .ok () := by
  classical
  unfold Sage.gf
  rw [decide_eq_true (show m.natDegree = n ∧ Irreducible m from ⟨h1, h2⟩)]
  rfl

private theorem hom_mk {F : FieldState} [hF : FieldOk F] (φ : AdjoinRoot aesPoly →+* GF F.byteSize) (p : (ZMod 2)[X]) : aeval (φ (AdjoinRoot.root aesPoly)) p = φ (AdjoinRoot.mk aesPoly p) := by
  have : aeval (zmodHom φ (AdjoinRoot.root aesPoly)) p = zmodHom φ (AdjoinRoot.mk aesPoly p) := by
    rw [aeval_algHom_apply, AdjoinRoot.aeval_eq]
  exact this

private theorem script_cons {F : FieldState} [hF : FieldOk F] (φ : Sage.K →+* GF F.byteSize) (l : List (Sage.K →+* GF F.byteSize)) :
    Sage.script (8 * F.byteSize) (fieldPoly F.byteSize) (φ :: l) = .ok (φ (AdjoinRoot.root aesPoly)) := by
  unfold Sage.script
  rw [gf_ok (m := Sage.baseModulus) aesPoly_natDegree aesPoly_irreducible, gf_ok hF.natDegree hF.irreducible]
  rfl

private theorem conj {F : FieldState} [hF : FieldOk F] (φ : AdjoinRoot aesPoly →+* GF F.byteSize) : ∃ i < 8, ∀ b : Byte, φ (AdjoinRoot.mk aesPoly (wordPoly b)) = val F.byteSize (F.lift b) ^ 2 ^ i := by
  obtain ⟨φ₀, h0⟩ := exists_libHom F
  obtain ⟨i, hi⟩ := (conj_bijective φ₀).2 (zmodHom φ)
  refine ⟨i.val, i.2, fun b => ?_⟩
  rw [← h0 b, ← conj_apply φ₀ i.val]
  exact (DFunLike.congr_fun hi _).symm

private theorem script_aux {F : FieldState} [hF : FieldOk F] (m : (ZMod 2)[X]) (e : m = fieldPoly F.byteSize) (l : List (Sage.K →+* AdjoinRoot m)) (hl : Sage.IsList l) :
    l.length = 8 ∧ ∃ g, Sage.script (8 * F.byteSize) m l = .ok g ∧ aeval g aesPoly = 0 ∧ ∃ i < 8, g = AdjoinRoot.mk m (wordPoly (F.lift 2)) ^ 2 ^ i := by
  subst e
  obtain ⟨φ₀, h0⟩ := exists_libHom F
  have hlen : l.length = 8 := by
    have hbij : Function.Bijective fun i : Fin 8 => (φ₀.comp (FiniteField.frobeniusAlgHom (ZMod 2) (AdjoinRoot aesPoly) ^ i.val)).toRingHom := by
      constructor
      · intro i j h
        refine (conj_bijective φ₀).1 (AlgHom.ext fun x => ?_)
        exact RingHom.congr_fun h x
      · intro φ
        obtain ⟨i, hi⟩ := (conj_bijective φ₀).2 (zmodHom φ)
        exact ⟨i, RingHom.ext fun x => DFunLike.congr_fun hi x⟩
    have hl' : Function.Bijective fun i : Fin l.length => l[i] := ⟨fun i j h => Fin.ext ((List.Nodup.getElem_inj_iff hl.nodup).1 h), fun φ => by
      obtain ⟨i, hi, e⟩ := List.getElem_of_mem (hl.complete φ)
      exact ⟨⟨i, hi⟩, e⟩⟩
    have h1 := Nat.card_eq_of_bijective _ hbij
    have h2 := Nat.card_eq_of_bijective _ hl'
    rw [Nat.card_eq_fintype_card, Fintype.card_fin] at h1 h2
    exact h2.trans h1.symm
  refine ⟨hlen, ?_⟩
  cases l with
  | nil => simp at hlen
  | cons φ l =>
    refine ⟨_, script_cons φ l, ?_, ?_⟩
    · refine (hom_mk φ aesPoly).trans ?_
      rw [AdjoinRoot.mk_self]
      exact map_zero φ
    · obtain ⟨i, hi, h⟩ := conj φ
      refine ⟨i, hi, ?_⟩
      rw [root_eq]
      exact h 2

/-- C97. For each of its four fields, which are those of the library, the script ends without error whatever the order of the list. There are eight homomorphisms. The script prints a root of the AES polynomial that is the library's generator or one
of its conjugates, that is, the generator squared up to seven times. -/
theorem C97_script {lam : Nat} {F : FieldState} (h : initExtensionField lam = .ok F) (l : List (Sage.K →+* AdjoinRoot (Sage.modulus lam))) (hl : Sage.IsList l) :
    l.length = 8 ∧ ∃ g, Sage.script (8 * lam) (Sage.modulus lam) l = .ok g ∧ aeval g aesPoly = 0 ∧ ∃ i < 8, g = AdjoinRoot.mk (Sage.modulus lam) (wordPoly (F.lift 2)) ^ 2 ^ i := by
  obtain ⟨hF, rfl, hs⟩ := initExtensionField_ok h
  exact script_aux _ (modulus_eq hs) l hl

private theorem library_aux {F : FieldState} [hF : FieldOk F] (m : (ZMod 2)[X]) (e : m = fieldPoly F.byteSize) (i : Nat) :
    ∃ l : List (Sage.K →+* AdjoinRoot m), Sage.IsList l ∧ Sage.script (8 * F.byteSize) m l = .ok (AdjoinRoot.mk m (wordPoly (F.lift 2)) ^ 2 ^ i) := by
  subst e
  classical
  obtain ⟨φ₀, h0⟩ := exists_libHom F
  have : Finite (Sage.K →+* GF F.byteSize) := by
    have : Finite Sage.K := inferInstanceAs (Finite (AdjoinRoot aesPoly))
    exact Finite.of_injective (fun ψ => (ψ : Sage.K → GF F.byteSize)) DFunLike.coe_injective
  have := Fintype.ofFinite (Sage.K →+* GF F.byteSize)
  let ψ : Sage.K →+* GF F.byteSize := (φ₀.comp (FiniteField.frobeniusAlgHom (ZMod 2) (AdjoinRoot aesPoly) ^ i)).toRingHom
  refine ⟨ψ :: (Finset.univ.toList.erase ψ), ⟨List.nodup_cons.2 ⟨(Finset.nodup_toList _).not_mem_erase, (Finset.nodup_toList _).erase _⟩, fun φ => ?_⟩, ?_⟩
  · by_cases hφ : φ = ψ
    · exact hφ ▸ List.mem_cons_self
    · exact List.mem_cons_of_mem _ ((List.mem_erase_of_ne hφ).2 (Finset.mem_toList.2 (Finset.mem_univ _)))
  · rw [script_cons]
    refine congrArg Except.ok ?_
    refine (conj_apply φ₀ i _).trans ?_
    rw [root_eq, h0 2]
    rfl

/-- C97. Each of these values is possible for some order of the list, in particular (`i = 0`) the generator in field.cpp. -/
theorem C97_library {lam : Nat} {F : FieldState} (h : initExtensionField lam = .ok F) (i : Nat) :
    ∃ l : List (Sage.K →+* AdjoinRoot (Sage.modulus lam)), Sage.IsList l ∧ Sage.script (8 * lam) (Sage.modulus lam) l = .ok (AdjoinRoot.mk (Sage.modulus lam) (wordPoly (F.lift 2)) ^ 2 ^ i) := by
  obtain ⟨hF, rfl, hs⟩ := initExtensionField_ok h
  exact library_aux _ (modulus_eq hs) i

private theorem table_aux {F : FieldState} [hF : FieldOk F] (m : (ZMod 2)[X]) (e : m = fieldPoly F.byteSize) (l : List (Sage.K →+* AdjoinRoot m)) (g : AdjoinRoot m) (hg : Sage.script (8 * F.byteSize) m l = .ok g) :
    ∃ gen : W64, Reduced F.byteSize gen ∧ AdjoinRoot.mk m (wordPoly gen) = g ∧
      ∀ T : Byte → W64, (∀ b, T b = (initLiftingLut F.reducer gen).getD b.toNat 0) → T 1 = 1 ∧ Function.Injective T ∧
        ∀ a b c, T (a ^^^ b) = gfAdd (T a) (T b) ∧ (wordPoly c = (wordPoly a * wordPoly b) %ₘ aesPoly → T c = F.mul (T a) (T b)) := by
  subst e
  cases l with
  | nil =>
    unfold Sage.script at hg
    rw [gf_ok (m := Sage.baseModulus) aesPoly_natDegree aesPoly_irreducible, gf_ok hF.natDegree hF.irreducible] at hg
    exact absurd hg nofun
  | cons φ l =>
    obtain ⟨φ, rfl⟩ : ∃ φ' : AdjoinRoot aesPoly →+* GF F.byteSize, φ' = φ := ⟨φ, rfl⟩
    replace hg := (script_cons φ l).symm.trans hg
    obtain rfl := Except.ok.inj hg
    obtain ⟨gen, h1, h2⟩ := val_surj (F := F) (φ (AdjoinRoot.root aesPoly))
    refine ⟨gen, h1, h2, fun T hT => ?_⟩
    have hr : ∀ b, Reduced F.byteSize (T b) := fun b => by rw [hT]; exact (lut_any gen h1 b).1
    have hv : ∀ b, val F.byteSize (T b) = φ (AdjoinRoot.mk aesPoly (wordPoly b)) := fun b => by
      rw [hT, (lut_any gen h1 b).2, h2, hom_mk]
    have hx : ∀ a b, T (a ^^^ b) = gfAdd (T a) (T b) := fun a b => by
      apply val_inj (hr _) (reduced_add (hr a) (hr b))
      rw [val_add, hv, hv, hv, wordPoly_xor, map_add, map_add]
    refine ⟨?_, ?_, fun a b c => ⟨hx a b, fun hc => ?_⟩⟩
    · apply val_inj (hr _) reduced_one
      rw [hv, val_one, show (1 : Byte) = 1#8 from rfl, wordPoly_one (by norm_num), map_one, map_one]
    · intro a b hab
      have e : AdjoinRoot.mk aesPoly (wordPoly a) = AdjoinRoot.mk aesPoly (wordPoly b) := by
        have : (φ : AdjoinRoot aesPoly →+* GF F.byteSize) (AdjoinRoot.mk aesPoly (wordPoly a)) = φ (AdjoinRoot.mk aesPoly (wordPoly b)) := by rw [← hv, ← hv, hab]
        exact φ.injective this
      rw [AdjoinRoot.mk_eq_mk] at e
      have hd : (wordPoly a - wordPoly b).degree < aesPoly.degree := by
        rw [aesPoly_degree]
        exact lt_of_le_of_lt (degree_sub_le _ _) (max_lt ((degree_wordPoly_lt a 8).2 a.isLt) ((degree_wordPoly_lt b 8).2 b.isLt))
      exact wordPoly_injective (sub_eq_zero.1 (eq_zero_of_dvd_of_degree_lt e hd))
    · apply val_inj (hr _) (reduced_mul _ _)
      rw [val_mul (hr _) (hr _), hv, hv, hv, ← map_mul, ← map_mul, hc]
      refine congrArg φ ?_
      rw [AdjoinRoot.mk_eq_mk]
      have := modByMonic_add_div (wordPoly a * wordPoly b) aesPoly
      refine ⟨-((wordPoly a * wordPoly b) /ₘ aesPoly), ?_⟩
      calc _ = (wordPoly a * wordPoly b) %ₘ aesPoly - ((wordPoly a * wordPoly b) %ₘ aesPoly + aesPoly * ((wordPoly a * wordPoly b) /ₘ aesPoly)) := by rw [this]
        _ = _ := by ring

/-- C97. Whichever of them the script prints, the table that `init_lifting_lut` makes from it embeds the AES field: the choice does not matter. -/
theorem C97_table {lam : Nat} {F : FieldState} (h : initExtensionField lam = .ok F) (l : List (Sage.K →+* AdjoinRoot (Sage.modulus lam))) (g : AdjoinRoot (Sage.modulus lam))
    (hg : Sage.script (8 * lam) (Sage.modulus lam) l = .ok g) :
    ∃ gen : W64, Reduced lam gen ∧ AdjoinRoot.mk (Sage.modulus lam) (wordPoly gen) = g ∧
      ∀ T : Byte → W64, (∀ b, T b = (initLiftingLut F.reducer gen).getD b.toNat 0) → T 1 = 1 ∧ Function.Injective T ∧
        ∀ a b c, T (a ^^^ b) = gfAdd (T a) (T b) ∧ (wordPoly c = (wordPoly a * wordPoly b) %ₘ aesPoly → T c = F.mul (T a) (T b)) := by
  obtain ⟨hF, rfl, hs⟩ := initExtensionField_ok h
  exact table_aux _ (modulus_eq hs) l g hg

/-- The line in use: the generator of field.cpp is a possible output, and its square another one. -/
example : ∃ l : List (Sage.K →+* AdjoinRoot (Sage.modulus 2)), Sage.IsList l ∧ Sage.script 16 (Sage.modulus 2) l = .ok (AdjoinRoot.mk (Sage.modulus 2) (wordPoly (ofCoeffs [14, 8, 7, 6, 3, 2, 0])) ^ 2 ^ 0) :=
  C97_library (lam := 2) rfl 0

/-- A table from the square of the generator: 57 * 83 = c1 as in FIPS 197. -/
example : ((initExtensionField 4).toOption.map fun F => (initLiftingLut F.reducer (F.mul (F.lift 2) (F.lift 2)), F)).map (fun p => decide (p.2.mul (p.1.getD 0x57 0) (p.1.getD 0x83 0) = p.1.getD 0xc1 0 ∧ p.1 ≠ p.2.lut)) = some true := by
  decide +kernel

end Banquet.Props
