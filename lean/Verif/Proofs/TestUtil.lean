import Verif.Model.TestUtil
import Verif.Proofs.TestRef
import Verif.Proofs.Soundness
import Verif.Props.Field
import Mathlib.Data.Fintype.CardEmbedding

/-! Lemmas for C99: the test case with random values. -/

namespace Banquet.Ref

open Polynomial Spec FieldOk

variable {F : FieldState} [hF : FieldOk F]

theorem exists_words (xs : List (GF F.byteSize)) : ∃ ws : List W64, AllRed F.byteSize ws ∧ ws.map (val F.byteSize) = xs := by
  induction xs with
  | nil => exact ⟨[], fun _ h => absurd h List.not_mem_nil, rfl⟩
  | cons x xs ih =>
    obtain ⟨ws, h1, h3⟩ := ih
    obtain ⟨w, g1, g2⟩ := val_surj (F := F) x
    exact ⟨w :: ws, List.forall_mem_cons.2 ⟨g1, h1⟩, by rw [List.map_cons, g2, h3]⟩

theorem ntlInterpolate_eq {R : Field} {xs ys : List (Elem R)} {p : (Elem R)[X]} (hlen : xs.length = ys.length) (hd : xs.Nodup)
    (hp : p.degree < xs.length ∧ ∀ (i : Nat) (x y : Elem R), xs[i]? = some x → ys[i]? = some y → p.eval x = y)
    (hu : ∀ q : (Elem R)[X], q.degree < xs.length → (∀ (i : Nat) (x y : Elem R), xs[i]? = some x → ys[i]? = some y → q.eval x = y) → q = p) : ntlInterpolate R xs ys = .ok p := by
  unfold ntlInterpolate
  rw [if_pos ⟨hlen, hd⟩]
  have := Classical.epsilon_spec (p := fun p : (Elem R)[X] => p.degree < xs.length ∧ ∀ (i : Nat) (x y : Elem R), xs[i]? = some x → ys[i]? = some y → p.eval x = y) ⟨p, hp⟩
  exact congrArg _ (hu _ this.1 this.2)

theorem both_eq {xs ys : List W64} (hx : AllRed F.byteSize xs) (hy : AllRed F.byteSize ys) (hd : xs.Nodup) (hlen : xs.length = ys.length) (hne : ys ≠ []) :
    ∃ p, ntlInterpolate (field F.byteSize) (xs.map (val F.byteSize)) (ys.map (val F.byteSize)) = .ok p ∧
      interpolate (field F.byteSize) ((F.precomputeLagrange xs).map (coeffPoly F.byteSize)) (ys.map (val F.byteSize)) = .ok p := by
  have hl : (F.precomputeLagrange xs).length = ys.length := by simp [FieldState.precomputeLagrange, hlen]
  obtain ⟨r, h1, h2, h3, h4⟩ := interpolate_eval (F := F) hx hy hd hlen hne
  obtain ⟨r', g1, -, -, g4⟩ := interpolate_ok (F := F) hl hne (precompute_pre hx) hy
  obtain rfl : r = r' := Except.ok.inj (h1.symm.trans g1)
  have hnd : (xs.map (val F.byteSize)).Nodup := hd.map_on fun a ha b hb h => val_inj (hx a ha) (hx b hb) h
  have hdeg : (coeffPoly F.byteSize r).degree < (xs.map (val F.byteSize)).length := by
    rw [degree_lt_iff_coeff_zero]
    intro m hm
    rw [List.length_map] at hm
    rw [coeff_coeffPoly, List.getD_eq_getElem?_getD, List.getElem?_eq_none (by omega)]
    exact val_zero
  have hev : ∀ (i : Nat) (x y : GF F.byteSize), (xs.map (val F.byteSize))[i]? = some x → (ys.map (val F.byteSize))[i]? = some y → (coeffPoly F.byteSize r).eval x = y := by
    intro i x y hxi hyi
    rw [List.getElem?_map, Option.map_eq_some_iff] at hxi hyi
    obtain ⟨x, hxi, rfl⟩ := hxi
    obtain ⟨y, hyi, rfl⟩ := hyi
    have hi : i < xs.length := (List.getElem?_eq_some_iff.1 hxi).1
    have := h4 i hi
    rwa [List.getD_eq_getElem?_getD, List.getD_eq_getElem?_getD, hxi, hyi] at this
  refine ⟨coeffPoly F.byteSize r, ntlInterpolate_eq (R := field F.byteSize) (by rw [List.length_map, List.length_map, hlen]) hnd ⟨hdeg, hev⟩ fun q hq hqe => ?_, by rw [interpolate_map hl, g4]⟩
  refine Polynomial.eq_of_degrees_lt_of_eval_index_eq (Finset.range (xs.map (val F.byteSize)).length) (v := fun i => (xs.map (val F.byteSize)).getD i 0) ?_ (by rwa [Finset.card_range]) (by rwa [Finset.card_range]) fun i hi => ?_
  · intro i hi j hj h
    have hi := Finset.mem_range.1 (Finset.mem_coe.1 hi)
    have hj := Finset.mem_range.1 (Finset.mem_coe.1 hj)
    dsimp only at h
    rw [getD_of_lt hi, getD_of_lt hj] at h
    exact (hnd.getElem_inj_iff).1 h
  · have hi := Finset.mem_range.1 hi
    have hi' : i < (ys.map (val F.byteSize)).length := by rw [List.length_map] at hi ⊢; omega
    rw [getD_of_lt hi]
    exact (hqe i _ _ (List.getElem?_eq_getElem hi) (List.getElem?_eq_getElem hi')).trans (hev i _ _ (List.getElem?_eq_getElem hi) (List.getElem?_eq_getElem hi')).symm

omit hF in
theorem pow_le_descFactorial (q n : Nat) : 2 * (q * q ^ n) ≤ 2 * q * q.descFactorial n + n * (n - 1) * q ^ n := by
  induction n with
  | zero => simp
  | succ n ih =>
    have h1 : q * q.descFactorial n ≤ q.descFactorial (n + 1) + n * q.descFactorial n := by
      rw [Nat.descFactorial_succ, ← Nat.add_mul]
      exact Nat.mul_le_mul_right _ (by omega)
    have h2 := Nat.descFactorial_le_pow q n
    have h3 : (n + 1) * (n + 1 - 1) = n * (n - 1) + 2 * n := by cases n with
      | zero => rfl
      | succ n => simp only [Nat.add_sub_cancel]; ring
    rw [h3]
    calc 2 * (q * q ^ (n + 1)) = q * (2 * (q * q ^ n)) := by ring
      _ ≤ q * (2 * q * q.descFactorial n + n * (n - 1) * q ^ n) := Nat.mul_le_mul_left _ ih
      _ = 2 * q * (q * q.descFactorial n) + n * (n - 1) * q ^ (n + 1) := by ring
      _ ≤ 2 * q * (q.descFactorial (n + 1) + n * q.descFactorial n) + n * (n - 1) * q ^ (n + 1) := by gcongr
      _ = 2 * q * q.descFactorial (n + 1) + n * (n - 1) * q ^ (n + 1) + 2 * n * q * q.descFactorial n := by ring
      _ ≤ 2 * q * q.descFactorial (n + 1) + n * (n - 1) * q ^ (n + 1) + 2 * n * q * q ^ n := by gcongr
      _ = _ := by ring

omit hF in
theorem card_not_injective (K : Type) [Finite K] (n : Nat) : Nat.card {v : Fin n → K // ¬ Function.Injective v} * (2 * Nat.card K) ≤ n * (n - 1) * Nat.card K ^ n := by
  classical
  have : Fintype K := Fintype.ofFinite K
  have e : Nat.card {v : Fin n → K // ¬ Function.Injective v} = Nat.card K ^ n - (Nat.card K).descFactorial n := by
    rw [Nat.card_eq_fintype_card, Fintype.card_subtype_compl, Fintype.card_congr (Equiv.subtypeInjectiveEquivEmbedding (Fin n) K), Fintype.card_embedding_eq, Fintype.card_fun, Fintype.card_fin, Nat.card_eq_fintype_card]
  rw [e, Nat.sub_mul]
  have := pow_le_descFactorial (Nat.card K) n
  have a : Nat.card K ^ n * (2 * Nat.card K) = 2 * (Nat.card K * Nat.card K ^ n) := by ring
  have b : (Nat.card K).descFactorial n * (2 * Nat.card K) = 2 * Nat.card K * (Nat.card K).descFactorial n := by ring
  rw [a, b]
  omega

theorem samePoly_true {p : List W64} (h : AllRed F.byteSize p) (h0 : coeffPoly F.byteSize p ≠ 0) (hd : (coeffPoly F.byteSize p).natDegree + 1 = p.length) : samePoly F (field F.byteSize) p (coeffPoly F.byteSize p) = true := by
  unfold samePoly repLength
  rw [if_neg h0, hd, Bool.and_eq_true]
  exact ⟨by simp, List.all_eq_true.2 fun j _ => decide_eq_true (coeff_ofNtl h j).symm⟩

omit hF in
theorem prod_roots {K : Type} [Field' : _root_.Field K] (l : List K) : (l.map fun r => X - C r).prod.Monic ∧ (l.map fun r => X - C r).prod.natDegree = l.length := by
  induction l with
  | nil => exact ⟨monic_one, natDegree_one⟩
  | cons r l ih =>
    rw [List.map_cons, List.prod_cons]
    refine ⟨(monic_X_sub_C r).mul ih.1, ?_⟩
    rw [(monic_X_sub_C r).natDegree_mul ih.1, natDegree_X_sub_C, ih.2, List.length_cons, Nat.add_comm]

theorem samePoly_roots {xs : List W64} (h : AllRed F.byteSize xs) : samePoly F (field F.byteSize) (F.buildFromRoots xs) (coeffPoly F.byteSize (F.buildFromRoots xs)) = true := by
  obtain ⟨h1, h2, h3⟩ := buildFromRoots_ok (F := F) xs h
  have := prod_roots (xs.map (val F.byteSize))
  rw [List.map_map, List.length_map] at this
  exact samePoly_true h2 (by rw [h3]; exact this.1.ne_zero) (by rw [h3, h1]; exact congrArg (· + 1) this.2)

theorem samePoly_lagrange {xs : List W64} (h : AllRed F.byteSize xs) (hnd : xs.Nodup) {k : Nat} (hk : k < xs.length) :
    samePoly F (field F.byteSize) (F.lagrangePoly xs k) (coeffPoly F.byteSize (F.lagrangePoly xs k)) = true := by
  have one := eval_lagrangePoly_self h hnd hk
  have hne : coeffPoly F.byteSize (F.lagrangePoly xs k) ≠ 0 := by
    intro c
    rw [c, eval_zero] at one
    exact zero_ne_one one
  refine samePoly_true (lagrangePoly_red xs k) hne ?_
  rw [lagrangePoly_len h hk]
  rw [coeffPoly_lagrangePoly h] at hne ⊢
  have := prod_roots ((others xs k).map (val F.byteSize))
  rw [List.map_map, List.length_map, length_others xs hk] at this
  have e : (((others xs k).map fun r => X - C (val F.byteSize r)).prod).natDegree = xs.length - 1 := this.2
  rw [natDegree_mul_C (fun c => hne (by rw [c, C_0, mul_zero])), e]
  omega

theorem interpolationTest_true (n : Nat) (hnd : (F.firstN n).Nodup) : interpolationTest F (field F.byteSize) n = .ok true := by
  have hr := allRed_firstN (F := F) n
  have hl : (F.precomputeLagrange (F.firstN n)).length = (F.firstN n).length := by simp [FieldState.precomputeLagrange]
  unfold interpolationTest
  dsimp only
  rw [firstN_map, precompute_ok hr hnd, roots_eq hr]
  refine congrArg Except.ok ?_
  rw [samePoly_roots hr, List.length_map, Bool.and_eq_true, Bool.and_eq_true, Bool.and_eq_true]
  refine ⟨⟨⟨List.all_eq_true.2 fun i hi => decide_eq_true ?_, rfl⟩, by simp⟩, List.all_eq_true.2 fun i hi => ?_⟩
  · have hi := List.mem_range.1 hi
    rw [← length_firstN (F := F) n] at hi
    rw [getD_of_lt hi, getD_of_lt (by rw [List.length_map]; exact hi), List.getElem_map, ofNtl_val (hr _ (List.getElem_mem hi))]
  · have hi := List.mem_range.1 hi
    rw [getD_of_lt hi, getD_of_lt (by rw [List.length_map]; exact hi), List.getElem_map]
    have e : (F.precomputeLagrange (F.firstN n))[i] = F.lagrangePoly (F.firstN n) i := by simp [FieldState.precomputeLagrange]
    rw [e]
    exact samePoly_lagrange hr hnd (hl ▸ hi)

theorem polyBytes_rep {a : W64} (ha : Reduced F.byteSize a) : polyBytes (rep (field F.byteSize) (val F.byteSize a)) F.byteSize = F.toBytes a := by
  rw [rep_val ha]
  unfold polyBytes FieldState.toBytes
  apply List.map_congr_left
  intro i _
  apply BitVec.eq_of_getLsbD_eq
  intro j hj
  rw [BitVec.getLsbD_ofFnLE, BitVec.getLsbD_setWidth, BitVec.getLsbD_ushiftRight]
  simp only [hj, dif_pos, decide_true, Bool.true_and, coeff_wordPoly]
  cases a.getLsbD (8 * i + j) <;> simp

theorem reduced_ofCoeffs {cs : List Nat} (hc : ∀ c ∈ cs, c < 8 * F.byteSize) : Reduced F.byteSize (ofCoeffs cs) := by
  have h7 := le7 (F := F)
  unfold Reduced
  refine Nat.lt_pow_two_of_testBit _ fun i hi => ?_
  rw [← BitVec.getLsbD, ofCoeffs, getLsbD_ofCoeffs cs (fun c h => by have := hc c h; omega)]
  have : i ∉ cs := fun h => by have := hc i h; omega
  simp [this]

theorem bytesTest_true {cs : List Nat} (hc : ∀ c ∈ cs, c < 8 * F.byteSize) : bytesTest F (field F.byteSize) cs = true := by
  have h7 := le7 (F := F)
  unfold bytesTest
  rw [setCoeffs_eq cs (fun c h => by have := hc c h; omega)]
  exact decide_eq_true (polyBytes_rep (reduced_ofCoeffs hc)).symm

end Banquet.Ref
