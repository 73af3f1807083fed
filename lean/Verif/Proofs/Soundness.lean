import Verif.Proofs.Sign
import Mathlib.Data.Set.Card
import Mathlib.SetTheory.Cardinal.Finite
import Mathlib.Algebra.Polynomial.Roots

/-! Counting challenges for which a wrong proof passes. -/

namespace Banquet

open Spec Polynomial FieldOk

section
variable {F : FieldState} [hF : FieldOk F]

/-- Number of elements of the field. -/
theorem card_gf : Nat.card (GF F.byteSize) = 2 ^ (8 * F.byteSize) := by
  have hle := le7 (F := F)
  have hlt : 2 ^ (8 * F.byteSize) ≤ 2 ^ 64 := Nat.pow_le_pow_right (by norm_num) (by omega)
  let f : Fin (2 ^ (8 * F.byteSize)) → GF F.byteSize := fun i => val F.byteSize (BitVec.ofNat 64 i.val)
  have hr : ∀ i : Fin (2 ^ (8 * F.byteSize)), (BitVec.ofNat 64 i.val).toNat = i.val := fun i => by
    rw [BitVec.toNat_ofNat, Nat.mod_eq_of_lt (lt_of_lt_of_le i.isLt hlt)]
  have hb : Function.Bijective f := by
    constructor
    · intro i j h
      have := val_inj (F := F) (a := BitVec.ofNat 64 i.val) (b := BitVec.ofNat 64 j.val) (by unfold Reduced; rw [hr]; exact i.isLt) (by unfold Reduced; rw [hr]; exact j.isLt) h
      have := congrArg BitVec.toNat this
      rw [hr, hr] at this
      exact Fin.ext this
    · intro k
      obtain ⟨w, h1, h2⟩ := val_surj (F := F) k
      exact ⟨⟨w.toNat, h1⟩, by simpa [f] using h2⟩
  rw [← Nat.card_eq_of_bijective f hb, Nat.card_eq_fintype_card, Fintype.card_fin]

instance : Finite (GF F.byteSize) := Nat.finite_of_card_ne_zero (by rw [card_gf]; positivity)

/-- Degree of a sum of products. -/
theorem degree_sum_mul {m1 m2 : Nat} {S T : Nat → (GF F.byteSize)[X]} (hS : ∀ j < m1, (S j).degree < (m2 + 1 : Nat)) (hT : ∀ j < m1, (T j).degree < (m2 + 1 : Nat)) :
    (∑ j ∈ Finset.range m1, S j * T j).degree < (2 * m2 + 1 : Nat) := by
  refine mem_degreeLT.1 (Submodule.sum_mem _ fun j hj => mem_degreeLT.2 ?_)
  have hj := Finset.mem_range.1 hj
  have nd : ∀ P : (GF F.byteSize)[X], P.degree < (m2 + 1 : Nat) → P.natDegree ≤ m2 := fun P d => by
    by_cases h : P = 0
    · rw [h]; simp
    · exact Nat.lt_succ_iff.1 ((natDegree_lt_iff_degree_lt h).2 d)
  have n1 := nd _ (hS j hj)
  have n2 := nd _ (hT j hj)
  refine lt_of_le_of_lt degree_le_natDegree ?_
  have := natDegree_mul_le (p := S j) (q := T j)
  exact_mod_cast (by omega : (S j * T j).natDegree < 2 * m2 + 1)

/-- Two different polynomials of degree at most `n` agree at no more than `n` points. -/
theorem agree_card {n : Nat} {P Q : (GF F.byteSize)[X]} (hP : P.degree < (n + 1 : Nat)) (hQ : Q.degree < (n + 1 : Nat)) (hne : P ≠ Q) : {x | P.eval x = Q.eval x}.ncard ≤ n := by
  classical
  have h0 : P - Q ≠ 0 := sub_ne_zero.2 hne
  have e : {x | P.eval x = Q.eval x} = ((P - Q).roots.toFinset : Set (GF F.byteSize)) := by
    ext x
    simp only [Set.mem_ofPred_eq, Finset.mem_coe, Multiset.mem_toFinset, mem_roots h0, IsRoot, eval_sub, sub_eq_zero]
  rw [e, Set.ncard_coe_finset]
  refine (Multiset.toFinset_card_le _).trans ((card_roots' _).trans ?_)
  have hd := lt_of_le_of_lt (degree_sub_le P Q) (max_lt hP hQ)
  exact Nat.lt_succ_iff.1 ((natDegree_lt_iff_degree_lt h0).2 hd)

/-- Words are counted like field elements. -/
theorem words_card {A : Set W64} {B : Set (GF F.byteSize)} (hA : ∀ w ∈ A, Reduced F.byteSize w ∧ val F.byteSize w ∈ B) : A.ncard ≤ B.ncard := by
  refine Set.ncard_le_ncard_of_injOn (val F.byteSize) (fun w hw => (hA w hw).2) (fun a ha b hb h => val_inj (hA a ha).1 (hA b hb).1 h) (Set.toFinite _)

/-- Solutions of a non-trivial linear equation. -/
theorem hyperplane_card {m : Nat} (c : Fin m → GF F.byteSize) (j0 : Fin m) (h0 : c j0 ≠ 0) : {r : Fin m → GF F.byteSize | ∑ j, r j * c j = 0}.ncard ≤ (2 ^ (8 * F.byteSize)) ^ (m - 1) := by
  classical
  let f : (Fin m → GF F.byteSize) → ({j : Fin m // j ≠ j0} → GF F.byteSize) := fun r j => r j.val
  have hcard : Nat.card ({j : Fin m // j ≠ j0} → GF F.byteSize) = (2 ^ (8 * F.byteSize)) ^ (m - 1) := by
    rw [Nat.card_fun, card_gf, Nat.card_eq_fintype_card, Fintype.card_subtype_compl, Fintype.card_fin, Fintype.card_unique]
  rw [← hcard, ← Set.ncard_univ]
  refine Set.ncard_le_ncard_of_injOn f (fun _ _ => Set.mem_univ _) (fun r hr r' hr' h => ?_) (Set.toFinite _)
  have hj : ∀ j, j ≠ j0 → r j = r' j := fun j hj => congrFun h ⟨j, hj⟩
  have e : r j0 * c j0 = r' j0 * c j0 := by
    have h1 := Fintype.sum_eq_add_sum_compl j0 fun j => r j * c j
    have h2 := Fintype.sum_eq_add_sum_compl j0 fun j => r' j * c j
    have h3 : ∑ j ∈ {j0}ᶜ, r j * c j = ∑ j ∈ {j0}ᶜ, r' j * c j := Finset.sum_congr rfl fun j hm => by rw [hj j (by simpa using hm)]
    have e1 : ∑ j, r j * c j = 0 := hr
    have e2 : ∑ j, r' j * c j = 0 := hr'
    rw [e1] at h1
    rw [e2] at h2
    rw [h3] at h1
    exact add_right_cancel (h1.symm.trans h2)
  funext j
  by_cases h' : j = j0
  · rw [h']; exact mul_right_cancel₀ h0 e
  · exact hj j h'

/-- Vectors of words are counted like vectors over the field. -/
theorem vectors_card {m : Nat} {A : Set (List W64)} {B : Set (Fin m → GF F.byteSize)}
    (hA : ∀ l ∈ A, l.length = m ∧ AllRed F.byteSize l ∧ (fun j : Fin m => val F.byteSize (l.getD j 0)) ∈ B) : A.ncard ≤ B.ncard := by
  refine Set.ncard_le_ncard_of_injOn (fun l => fun j : Fin m => val F.byteSize (l.getD j 0)) (fun w hw => (hA w hw).2.2) (fun a ha b hb h => ?_) (Set.toFinite _)
  obtain ⟨a1, a2, _⟩ := hA a ha
  obtain ⟨b1, b2, _⟩ := hA b hb
  refine List.ext_getElem (a1.trans b1.symm) fun i h1 h2 => ?_
  have := val_inj (a2.getD i) (b2.getD i) (congrFun h ⟨i, by omega⟩)
  rwa [getD_of_lt h1, getD_of_lt h2] at this

end

end Banquet
