import Verif.Proofs.FieldPoly

/-! Lagrange interpolation. -/

set_option linter.unusedSectionVars false

namespace Banquet

open Polynomial Spec FieldOk

variable {F : FieldState} [hF : FieldOk F]

attribute [local irreducible] clmul

/-- Entries of `xs` other than number `k`. -/
def others (xs : List W64) (k : Nat) : List W64 := ((List.range xs.length).filter (fun j => k ≠ j)).map (fun j => xs.getD j 0)

theorem foldl_mul_red (x : W64) (l : List W64) (d : W64) (hd : Reduced F.byteSize d) :
    Reduced F.byteSize (l.foldl (fun d y => F.mul d (gfAdd x y)) d) := by
  induction l generalizing d with
  | nil => exact hd
  | cons y ys ih => exact ih _ (reduced_mul _ _)

theorem val_foldl_mul (x : W64) (hx : Reduced F.byteSize x) (l : List W64) (hl : AllRed F.byteSize l) (d : W64) (hd : Reduced F.byteSize d) :
    val F.byteSize (l.foldl (fun d y => F.mul d (gfAdd x y)) d) = val F.byteSize d * (l.map fun y => val F.byteSize x - val F.byteSize y).prod := by
  induction l generalizing d with
  | nil => simp
  | cons y ys ih =>
    have hy := hl y List.mem_cons_self
    rw [List.foldl_cons, ih (fun w hw => hl w (List.mem_cons_of_mem _ hw)) _ (reduced_mul _ _), val_mul hd (reduced_add hx hy), val_add, List.map_cons, List.prod_cons,
      CharTwo.sub_eq_add, mul_assoc]

theorem allRed_others {xs : List W64} (h : AllRed F.byteSize xs) (k : Nat) : AllRed F.byteSize (others xs k) := by
  intro w hw
  obtain ⟨j, _, rfl⟩ := List.mem_map.1 hw
  exact h.getD j

theorem length_others (xs : List W64) {k : Nat} (hk : k < xs.length) : (others xs k).length = xs.length - 1 := by
  have key : ∀ n, k < n → ((List.range n).filter (fun j => k ≠ j)).length = n - 1 := by
    intro n hn
    induction n with
    | zero => omega
    | succ n ih =>
      rw [List.range_succ, List.filter_append, List.length_append]
      by_cases h : k = n
      · subst h
        have h1 : (List.range k).filter (fun j => k ≠ j) = List.range k := by
          rw [List.filter_eq_self]
          intro a ha
          have := List.mem_range.1 ha
          simp; omega
        rw [h1]; simp
      · rw [ih (by omega)]
        have : (List.filter (fun j => decide (k ≠ j)) [n]).length = 1 := by simp [h]
        rw [this]; omega
  rw [others, List.length_map, key _ hk]

theorem mem_others {xs : List W64} {k j : Nat} (hj : j < xs.length) (hkj : k ≠ j) : xs.getD j 0 ∈ others xs k := by
  apply List.mem_map.2
  exact ⟨j, List.mem_filter.2 ⟨List.mem_range.2 hj, by simpa using hkj⟩, rfl⟩

omit hF in
theorem lagrangePoly_eq (xs : List W64) (k : Nat) :
    F.lagrangePoly xs k = F.vecScale (F.buildFromRoots (others xs k)) (F.inverse ((others xs k).foldl (fun d y => F.mul d (gfAdd (xs.getD k 0) y)) 1)) := by
  unfold FieldState.lagrangePoly others
  rw [List.foldl_map]

theorem lagrangePoly_len {xs : List W64} (h : AllRed F.byteSize xs) {k : Nat} (hk : k < xs.length) : (F.lagrangePoly xs k).length = xs.length := by
  rw [lagrangePoly_eq, FieldState.vecScale, List.length_map, (buildFromRoots_ok _ (allRed_others h k)).1, length_others _ hk]
  omega

theorem lagrangePoly_red (xs : List W64) (k : Nat) : AllRed F.byteSize (F.lagrangePoly xs k) := by
  rw [lagrangePoly_eq]; exact allRed_vecScale _ _

theorem coeffPoly_lagrangePoly {xs : List W64} (h : AllRed F.byteSize xs) (k : Nat) :
    coeffPoly F.byteSize (F.lagrangePoly xs k) = ((others xs k).map fun r => X - C (val F.byteSize r)).prod *
      C (((others xs k).map fun r => val F.byteSize (xs.getD k 0) - val F.byteSize r).prod)⁻¹ := by
  have ho := allRed_others h k
  have hd := foldl_mul_red (F := F) (xs.getD k 0) (others xs k) 1 reduced_one
  rw [lagrangePoly_eq, FieldState.inverse, coeffPoly_vecScale (buildFromRoots_ok _ ho).2.1 (reduced_inverseZ _ hd), (buildFromRoots_ok _ ho).2.2]
  congr 2
  rw [val_inverseZ _ hd, val_foldl_mul _ (h.getD k) _ ho _ reduced_one, val_one, one_mul]

/-- The basis polynomial is 1 at its own point. -/
theorem eval_lagrangePoly_self {xs : List W64} (h : AllRed F.byteSize xs) (hnd : xs.Nodup) {k : Nat} (hk : k < xs.length) :
    (coeffPoly F.byteSize (F.lagrangePoly xs k)).eval (val F.byteSize (xs.getD k 0)) = 1 := by
  rw [coeffPoly_lagrangePoly h, eval_mul, eval_C, eval_list_prod, List.map_map]
  have : (eval (val F.byteSize (xs.getD k 0)) ∘ fun r : W64 => X - C (val F.byteSize r)) = fun r : W64 => val F.byteSize (xs.getD k 0) - val F.byteSize r := by
    funext r; simp
  rw [this]
  apply mul_inv_cancel₀
  intro hz0
  have h0 := List.prod_eq_zero_iff.1 hz0
  obtain ⟨r, hr, hz⟩ := List.mem_map.1 h0
  obtain ⟨j, hj, rfl⟩ := List.mem_map.1 hr
  rw [List.mem_filter] at hj
  have hjl := List.mem_range.1 hj.1
  have hkj : k ≠ j := by simpa using hj.2
  have := val_inj (h.getD k) (h.getD j) (sub_eq_zero.1 hz)
  rw [List.getD_eq_getElem?_getD, List.getD_eq_getElem?_getD, List.getElem?_eq_getElem hk, List.getElem?_eq_getElem hjl] at this
  exact hkj ((List.Nodup.getElem_inj_iff hnd).1 this)

/-- and 0 at the other points. -/
theorem eval_lagrangePoly_other {xs : List W64} (h : AllRed F.byteSize xs) {k j : Nat} (hj : j < xs.length) (hkj : k ≠ j) :
    (coeffPoly F.byteSize (F.lagrangePoly xs k)).eval (val F.byteSize (xs.getD j 0)) = 0 := by
  rw [coeffPoly_lagrangePoly h, eval_mul, eval_list_prod, List.map_map]
  have h0 : (0 : GF F.byteSize) ∈ (List.map ((fun p => eval (val F.byteSize (xs.getD j 0)) p) ∘ fun r => X - C (val F.byteSize r)) (others xs k)) := by
    apply List.mem_map.2
    exact ⟨xs.getD j 0, mem_others hj hkj, by simp⟩
  rw [List.prod_eq_zero h0, zero_mul]

/-- The sum computed by `interpolate_with_precomputation`. -/
theorem interpolate_ok {pre : List (List W64)} {ys : List W64} {n : Nat} (hlen : pre.length = ys.length) (hne : ys ≠ [])
    (hpre : ∀ p ∈ pre, p.length = n ∧ AllRed F.byteSize p) (hys : AllRed F.byteSize ys) :
    ∃ r, F.interpolate pre ys = .ok r ∧ r.length = n ∧ AllRed F.byteSize r ∧
      coeffPoly F.byteSize r = ∑ k ∈ Finset.range ys.length, coeffPoly F.byteSize (pre.getD k []) * C (val F.byteSize (ys.getD k 0)) := by
  have hpos : 0 < ys.length := List.length_pos_iff.2 hne
  have hget : ∀ k < ys.length, (pre.getD k []).length = n ∧ AllRed F.byteSize (pre.getD k []) := by
    intro k hk
    rw [List.getD_eq_getElem?_getD, List.getElem?_eq_getElem (by omega)]
    exact hpre _ (List.getElem_mem _)
  rw [FieldState.interpolate, if_neg (by tauto), (hget 0 hpos).1]
  suffices hs : ∀ m ≤ ys.length, ∃ r,
      (List.range m).foldlM (fun res k => vecAdd res (F.vecScale (pre.getD k []) (ys.getD k 0))) (List.replicate n 0) = (.ok r : M (List W64)) ∧ r.length = n ∧
      AllRed F.byteSize r ∧ coeffPoly F.byteSize r = ∑ k ∈ Finset.range m, coeffPoly F.byteSize (pre.getD k []) * C (val F.byteSize (ys.getD k 0)) from
    hs _ le_rfl
  intro m hm
  induction m with
  | zero =>
    refine ⟨List.replicate n 0, rfl, by simp, allRed_replicate_zero _, ?_⟩
    rw [Finset.range_zero, Finset.sum_empty]; exact coeffPoly_replicate_zero _
  | succ m ih =>
    obtain ⟨r, h1, h2, h3, h4⟩ := ih (by omega)
    have hg := hget m (by omega)
    have hsl : (F.vecScale (pre.getD m []) (ys.getD m 0)).length = n := by rw [FieldState.vecScale, List.length_map, hg.1]
    refine ⟨List.zipWith gfAdd r (F.vecScale (pre.getD m []) (ys.getD m 0)), ?_, ?_, ?_, ?_⟩
    · rw [List.range_succ, List.foldlM_append, h1]
      show (List.foldlM (fun res k => vecAdd res (F.vecScale (pre.getD k []) (ys.getD k 0))) r [m] : M (List W64)) = _
      simp only [List.foldlM_cons, List.foldlM_nil, vecAdd, h2, hsl, ne_eq, not_true_eq_false, if_false]
      rfl
    · rw [List.length_zipWith, h2, hsl, Nat.min_self]
    · exact allRed_zipWith_add h3 (allRed_vecScale _ _)
    · rw [coeffPoly_add _ _ (by rw [h2, hsl]), h4, Finset.sum_range_succ, coeffPoly_vecScale hg.2 (hys.getD m)]

theorem getD_precompute (xs : List W64) {k : Nat} (hk : k < xs.length) : (F.precomputeLagrange xs).getD k [] = F.lagrangePoly xs k := by
  rw [List.getD_eq_getElem?_getD, FieldState.precomputeLagrange, List.getElem?_map, List.getElem?_range hk]; rfl

theorem precompute_pre {xs : List W64} (h : AllRed F.byteSize xs) : ∀ p ∈ F.precomputeLagrange xs, p.length = xs.length ∧ AllRed F.byteSize p := by
  intro p hp
  obtain ⟨k, hk, rfl⟩ := List.mem_map.1 hp
  exact ⟨lagrangePoly_len h (List.mem_range.1 hk), lagrangePoly_red _ _⟩

/-- Interpolation: size, reducedness and values. -/
theorem interpolate_eval {xs ys : List W64} (hx : AllRed F.byteSize xs) (hy : AllRed F.byteSize ys) (hnd : xs.Nodup) (hlen : xs.length = ys.length) (hne : ys ≠ []) :
    ∃ r, F.interpolate (F.precomputeLagrange xs) ys = .ok r ∧ r.length = xs.length ∧ AllRed F.byteSize r ∧
      ∀ i < xs.length, (coeffPoly F.byteSize r).eval (val F.byteSize (xs.getD i 0)) = val F.byteSize (ys.getD i 0) := by
  obtain ⟨r, h1, h2, h3, h4⟩ := interpolate_ok (F := F) (pre := F.precomputeLagrange xs) (ys := ys) (n := xs.length)
    (by rw [FieldState.precomputeLagrange, List.length_map, List.length_range, hlen]) hne (precompute_pre hx) hy
  refine ⟨r, h1, h2, h3, ?_⟩
  intro i hi
  rw [h4, eval_finsetSum, Finset.sum_eq_single i]
  · rw [eval_mul, eval_C, getD_precompute xs hi, eval_lagrangePoly_self hx hnd hi, one_mul]
  · intro k hk hki
    rw [eval_mul, getD_precompute xs (by rw [Finset.mem_range] at hk; omega), eval_lagrangePoly_other hx hi hki, zero_mul]
  · intro h; exact absurd (Finset.mem_range.2 (by omega)) h

/-- Two polynomials of degree below the number of points which agree on the points are equal. -/
theorem coeffPoly_unique {xs p q : List W64} (hx : AllRed F.byteSize xs) (hnd : xs.Nodup) (hp : p.length = xs.length) (hq : q.length = xs.length)
    (hpr : AllRed F.byteSize p) (hqr : AllRed F.byteSize q)
    (h : ∀ i < xs.length, (coeffPoly F.byteSize p).eval (val F.byteSize (xs.getD i 0)) = (coeffPoly F.byteSize q).eval (val F.byteSize (xs.getD i 0))) : p = q := by
  apply coeffPoly_inj hpr hqr (hp.trans hq.symm)
  apply Polynomial.eq_of_degrees_lt_of_eval_index_eq (s := Finset.range xs.length) (v := fun i => val F.byteSize (xs.getD i 0))
  · intro i hi j hj hij
    have hi' : i < xs.length := by simpa using hi
    have hj' : j < xs.length := by simpa using hj
    have := val_inj (hx.getD i) (hx.getD j) hij
    rw [List.getD_eq_getElem?_getD, List.getD_eq_getElem?_getD, List.getElem?_eq_getElem hi', List.getElem?_eq_getElem hj'] at this
    exact (List.Nodup.getElem_inj_iff hnd).1 this
  · rw [Finset.card_range, ← hp]; exact degree_coeffPoly_lt p
  · rw [Finset.card_range, ← hq]; exact degree_coeffPoly_lt q
  · intro i hi; exact h i (Finset.mem_range.1 hi)

/-! ## The points -/

omit hF in
theorem firstN_loop (n : Nat) :
    (List.range n).foldl (fun (st : List W64 × W64) _ => (st.1 ++ [st.2], F.mul st.2 2)) ([], 2)
      = ((List.range n).map (fun i => (fun w => F.mul w 2)^[i] 2), (fun w => F.mul w 2)^[n] 2) := by
  induction n with
  | zero => rfl
  | succ n ih =>
    rw [List.range_succ, List.foldl_append, ih, List.map_append]
    simp only [List.foldl_cons, List.foldl_nil, List.map_cons, List.map_nil, Function.iterate_succ_apply']

omit hF in
theorem firstN_eq (n : Nat) : F.firstN n = (List.range n).map (fun i => (fun w => F.mul w 2)^[i] 2) := by
  rw [FieldState.firstN, firstN_loop]

theorem val_iter (i : Nat) : Reduced F.byteSize ((fun w => F.mul w 2)^[i] 2) ∧ val F.byteSize ((fun w => F.mul w 2)^[i] 2) = val F.byteSize (2 : W64) ^ (i + 1) := by
  induction i with
  | zero => exact ⟨reduced_two, by simp⟩
  | succ i ih =>
    rw [Function.iterate_succ_apply']
    refine ⟨reduced_mul _ _, ?_⟩
    rw [val_mul ih.1 reduced_two, ih.2, ← pow_succ]

omit hF in
theorem length_firstN (n : Nat) : (F.firstN n).length = n := by rw [firstN_eq]; simp

theorem allRed_firstN (n : Nat) : AllRed F.byteSize (F.firstN n) := by
  rw [firstN_eq]
  intro w hw
  obtain ⟨i, _, rfl⟩ := List.mem_map.1 hw
  exact (val_iter i).1

theorem val_two_ne_zero : val F.byteSize (2 : W64) ≠ 0 := by
  intro h
  have := (val_eq_zero (F := F) reduced_two).1 h
  exact absurd this (by decide)

theorem nodup_firstN {n : Nat} (hn : n ≤ orderOf (val F.byteSize (2 : W64))) : (F.firstN n).Nodup := by
  rw [firstN_eq]
  apply (List.nodup_map_iff_inj_on List.nodup_range).2
  intro i hi j hj h
  have hi' := List.mem_range.1 hi
  have hj' := List.mem_range.1 hj
  have := congrArg (val F.byteSize) h
  rw [(val_iter i).2, (val_iter j).2, pow_succ, pow_succ] at this
  have := mul_right_cancel₀ val_two_ne_zero this
  exact pow_injOn_Iio_orderOf (by exact lt_of_lt_of_le hi' hn) (by exact lt_of_lt_of_le hj' hn) this

theorem firstN_take {m n : Nat} (h : m ≤ n) : (F.firstN n).take m = F.firstN m := by
  rw [firstN_eq, firstN_eq, ← List.map_take, List.take_range, Nat.min_eq_left h]

end Banquet
