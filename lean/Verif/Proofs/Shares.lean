import Verif.Spec.Shares
import Verif.Proofs.Interp
import Verif.Proofs.Lift
import Verif.Proofs.View

/-! Shares of polynomial evaluations: `dot_product` with the evaluated Lagrange polynomials is evaluation of the interpolating polynomial. -/

namespace Banquet

open Polynomial Spec FieldOk

theorem sum_zipWith {α β R : Type} [AddCommMonoid R] (f : α → β → R) (da : α) (db : β) (a : List α) (b : List β) (h : a.length = b.length) :
    (List.zipWith f a b).sum = ∑ k ∈ Finset.range a.length, f (a.getD k da) (b.getD k db) := by
  induction a generalizing b with
  | nil => simp
  | cons x xs ih =>
    cases b with
    | nil => simp at h
    | cons y ys =>
      rw [List.length_cons, Finset.sum_range_succ', List.zipWith_cons_cons, List.sum_cons, ih ys (by simpa using h), add_comm]
      rfl

variable {F : FieldState} [hF : FieldOk F]

theorem reduced_dotV (a b : List W64) : Reduced F.byteSize (F.dotV a b) := reduced_apply _

theorem val_dotV {a b : List W64} (h : a.length = b.length) (ha : AllRed F.byteSize a) (hb : AllRed F.byteSize b) :
    val F.byteSize (F.dotV a b) = ∑ k ∈ Finset.range a.length, val F.byteSize (a.getD k 0) * val F.byteSize (b.getD k 0) := by
  obtain ⟨r, h1, _, h3⟩ := dot_ok (F := F) h
  rw [dot_eq F h] at h1
  rw [Except.ok.inj h1, h3 ha hb]
  exact sum_zipWith _ _ _ _ _ h

omit hF in
theorem val_two : val F.byteSize (2 : W64) = AdjoinRoot.root (fieldPoly F.byteSize) := by
  unfold val AdjoinRoot.root
  congr 1
  have : (2 : W64) = BitVec.twoPow 64 1 := by decide
  unfold wordPoly
  rw [Finset.sum_eq_single 1]
  · simp
  · intro i hi h1
    have : (2 : W64).getLsbD i = false := by
      rw [this, BitVec.getLsbD_twoPow]
      simp; omega
    rw [this]; rfl
  · simp

theorem point_eq {n k : Nat} (hk : k < n) : point F.byteSize k = val F.byteSize ((F.firstN n).getD k 0) := by
  unfold point
  rw [firstN_eq, getD_range_map _ _ _ _ hk, (val_iter k).2, val_two]

theorem point_inj {i j : Nat} (hi : i < 21845) (hj : j < 21845) (h : point F.byteSize i = point F.byteSize j) : i = j := by
  have hnd := nodup_firstN (F := F) hF.orderX
  rw [point_eq hi, point_eq hj] at h
  have := val_inj ((allRed_firstN _).getD i) ((allRed_firstN _).getD j) h
  rw [getD_of_lt (by rw [length_firstN]; omega), getD_of_lt (by rw [length_firstN]; omega)] at this
  exact (List.Nodup.getElem_inj_iff hnd).1 this

theorem interpolates_unique {n : Nat} (hn : n ≤ 21845) {y y' : Nat → GF F.byteSize} {P P' : (GF F.byteSize)[X]} (h : Interpolates F.byteSize n y P) (h' : Interpolates F.byteSize n y' P')
    (hy : ∀ k < n, y k = y' k) : P = P' := by
  refine Polynomial.eq_of_degrees_lt_of_eval_index_eq (Finset.range n) (v := point F.byteSize) ?_ (by simpa using h.1) (by simpa using h'.1) ?_
  · intro i hi j hj
    simp only [Finset.coe_range, Set.mem_Iio] at hi hj
    exact point_inj (by omega) (by omega)
  · intro k hk
    rw [h.2 k (Finset.mem_range.1 hk), h'.2 k (Finset.mem_range.1 hk), hy k (Finset.mem_range.1 hk)]

theorem evalAt_unique {n : Nat} (hn : n ≤ 21845) {y y' : Nat → GF F.byteSize} {R w w' : W64} (h : EvalAt F.byteSize n y R w) (h' : EvalAt F.byteSize n y' R w') (hy : ∀ k < n, y k = y' k) : w = w' := by
  obtain ⟨r, P, hP, e⟩ := h
  obtain ⟨r', P', hP', e'⟩ := h'
  exact val_inj r r' (by rw [e, e', interpolates_unique hn hP hP' hy])

omit hF in
theorem evalAt_congr {n : Nat} {y y' : Nat → GF F.byteSize} {R w : W64} (h : EvalAt F.byteSize n y R w) (hy : ∀ k < n, y k = y' k) : EvalAt F.byteSize n y' R w := by
  obtain ⟨r, P, hP, e⟩ := h
  exact ⟨r, P, ⟨hP.1, fun k hk => (hP.2 k hk).trans (hy k hk)⟩, e⟩

/-- The polynomial behind `dot_product`. -/
noncomputable def interpPoly (F : FieldState) (n : Nat) (ys : List W64) : (GF F.byteSize)[X] :=
  ∑ k ∈ Finset.range n, coeffPoly F.byteSize (F.lagrangePoly (F.firstN n) k) * C (val F.byteSize (ys.getD k 0))

theorem interpPoly_ok {n : Nat} (hn : n ≤ 21845) (ys : List W64) : Interpolates F.byteSize n (fun k => val F.byteSize (ys.getD k 0)) (interpPoly F n ys) := by
  have hx := allRed_firstN (F := F) n
  have hnd := nodup_firstN (F := F) (hn.trans hF.orderX)
  have hl := length_firstN (F := F) n
  constructor
  · unfold interpPoly
    refine mem_degreeLT.1 (Submodule.sum_mem _ fun k hk => mem_degreeLT.2 ?_)
    refine lt_of_le_of_lt (degree_mul_le _ _) ?_
    have h1 := degree_coeffPoly_lt (F := F) (F.lagrangePoly (F.firstN n) k)
    rw [lagrangePoly_len hx (by rw [hl]; exact Finset.mem_range.1 hk), hl] at h1
    calc _ ≤ (coeffPoly F.byteSize (F.lagrangePoly (F.firstN n) k)).degree + 0 := by gcongr; exact degree_C_le
      _ < n := by simpa using h1
  · intro i hi
    unfold interpPoly
    rw [eval_finsetSum, Finset.sum_eq_single i, point_eq hi]
    · rw [eval_mul, eval_C, eval_lagrangePoly_self hx hnd (by omega), one_mul]
    · intro k hk hki
      rw [eval_mul, point_eq hi, eval_lagrangePoly_other hx (by omega) hki, zero_mul]
    · intro h; exact absurd (Finset.mem_range.2 hi) h

theorem allRed_lagAt (n : Nat) (R : W64) : AllRed F.byteSize (lagAt F (F.precomputeLagrange (F.firstN n)) n R) := by
  intro x hx
  obtain ⟨k, hk, rfl⟩ := List.mem_map.1 hx
  refine reduced_eval _ _ ?_
  rw [getD_precompute _ (by rw [length_firstN]; exact List.mem_range.1 hk)]
  exact lagrangePoly_red _ _

theorem val_dot_lagAt {n : Nat} {ys : List W64} (hl : ys.length = n) (hy : AllRed F.byteSize ys) {R : W64} (hR : Reduced F.byteSize R) :
    val F.byteSize (F.dotV (lagAt F (F.precomputeLagrange (F.firstN n)) n R) ys) = (interpPoly F n ys).eval (val F.byteSize R) := by
  rw [val_dotV (by rw [length_lagAt, hl]) (allRed_lagAt n R) hy, length_lagAt, interpPoly, eval_finsetSum]
  refine Finset.sum_congr rfl fun k hk => ?_
  have hk := Finset.mem_range.1 hk
  rw [eval_mul, eval_C]
  congr 1
  unfold lagAt
  rw [getD_range_map _ _ _ _ hk, getD_precompute _ (by rw [length_firstN]; exact hk), val_eval _ _ (lagrangePoly_red _ _) hR]

/-- `dot_product` with the evaluated Lagrange polynomials. -/
theorem evalAt_dot {n : Nat} (hn : n ≤ 21845) {ys : List W64} (hl : ys.length = n) (hy : AllRed F.byteSize ys) {R : W64} (hR : Reduced F.byteSize R) :
    EvalAt F.byteSize n (fun k => val F.byteSize (ys.getD k 0)) R (F.dotV (lagAt F (F.precomputeLagrange (F.firstN n)) n R) ys) :=
  ⟨reduced_dotV _ _, interpPoly F n ys, interpPoly_ok hn ys, val_dot_lagAt hl hy hR⟩

/-! ## Sums over parties -/

theorem val_sum {α : Type} (l : List α) (f : α → W64) (x : W64) : val F.byteSize (l.foldl (fun acc p => gfAdd acc (f p)) x) = val F.byteSize x + (l.map fun p => val F.byteSize (f p)).sum := by
  induction l generalizing x with
  | nil => simp
  | cons y ys ih =>
    rw [List.foldl_cons, ih, val_add, List.map_cons, List.sum_cons]
    ring

theorem list_sum_range {R : Type} [AddCommMonoid R] (n : Nat) (f : Nat → R) : ((List.range n).map f).sum = ∑ k ∈ Finset.range n, f k := by
  induction n with
  | zero => simp
  | succ n ih => rw [List.range_succ, List.map_append, List.sum_append, ih, Finset.sum_range_succ]; simp

theorem val_sum_range (n : Nat) (f : Nat → W64) (x : W64) : val F.byteSize ((List.range n).foldl (fun acc p => gfAdd acc (f p)) x) = val F.byteSize x + ∑ p ∈ Finset.range n, val F.byteSize (f p) := by
  rw [val_sum, list_sum_range]

omit hF in
theorem reduced_sum {α : Type} (l : List α) (f : α → W64) (x : W64) (hx : Reduced F.byteSize x) (hf : ∀ p ∈ l, Reduced F.byteSize (f p)) :
    Reduced F.byteSize (l.foldl (fun acc p => gfAdd acc (f p)) x) := by
  induction l generalizing x with
  | nil => exact hx
  | cons y ys ih => exact ih _ (reduced_add hx (hf y (by simp))) fun p hp => hf p (by simp [hp])

theorem list_sum_filter {R : Type} [AddCommMonoid R] (n m : Nat) (hm : m < n) (f : Nat → R) : f m + (((List.range n).filter (· ≠ m)).map f).sum = ∑ k ∈ Finset.range n, f k := by
  induction n with
  | zero => omega
  | succ n ih =>
    rw [List.range_succ, List.filter_append, List.map_append, List.sum_append, Finset.sum_range_succ]
    by_cases h : m = n
    · subst h
      have e : (List.range m).filter (· ≠ m) = List.range m := by
        rw [List.filter_eq_self]
        intro a ha
        have := List.mem_range.1 ha
        simp; omega
      rw [e, list_sum_range]
      simp [add_comm]
    · rw [← ih (by omega)]
      have : [n].filter (· ≠ m) = [n] := by simp [Ne.symm h]
      rw [this]
      simp [add_assoc]

end Banquet
