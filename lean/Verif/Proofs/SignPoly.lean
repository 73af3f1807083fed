import Verif.Proofs.Parties

/-! The polynomial `P` of the signer. -/

namespace Banquet

open Polynomial Spec FieldOk

/-- A coefficient vector of length `n` with reduced entries for the polynomial `P`. -/
structure IsVec (F : FieldState) (n : Nat) (v : List W64) (P : (GF F.byteSize)[X]) : Prop where
  len : v.length = n
  red : AllRed F.byteSize v
  poly : coeffPoly F.byteSize v = P

variable {F : FieldState} [hF : FieldOk F]

theorem IsVec.add {n : Nat} {a b : List W64} {P Q : (GF F.byteSize)[X]} (ha : IsVec F n a P) (hb : IsVec F n b Q) : ∃ r, vecAdd a b = .ok r ∧ IsVec F n r (P + Q) := by
  refine ⟨_, by unfold vecAdd; rw [if_neg (by rw [ha.len, hb.len]; simp)], ?_, allRed_zipWith_add ha.red hb.red, ?_⟩
  · rw [List.length_zipWith, ha.len, hb.len, Nat.min_self]
  · rw [coeffPoly_add _ _ (by rw [ha.len, hb.len]), ha.poly, hb.poly]

theorem IsVec.scale {n : Nat} {a : List W64} {P : (GF F.byteSize)[X]} (ha : IsVec F n a P) {s : W64} (hs : Reduced F.byteSize s) : IsVec F n (F.vecScale a s) (P * C (val F.byteSize s)) := by
  refine ⟨?_, allRed_vecScale _ _, ?_⟩
  · rw [FieldState.vecScale, List.length_map, ha.len]
  · rw [coeffPoly_vecScale ha.red hs, ha.poly]

theorem IsVec.mul {n : Nat} {a b : List W64} {P Q : (GF F.byteSize)[X]} (ha : IsVec F (n + 1) a P) (hb : IsVec F (n + 1) b Q) : ∃ r, F.polyMul a b = .ok r ∧ IsVec F (2 * n + 1) r (P * Q) := by
  obtain ⟨r, h1, h2, h3, h4⟩ := polyMul_ok (F := F) ha.red hb.red (by rw [ha.len]; omega)
  refine ⟨r, h1, ?_, h3, ?_⟩
  · rw [h2, ha.len, hb.len]; omega
  · rw [h4, ha.poly, hb.poly]

theorem IsVec.degree {n : Nat} {a : List W64} {P : (GF F.byteSize)[X]} (ha : IsVec F n a P) : P.degree < n := by
  rw [← ha.poly, ← ha.len]
  exact degree_coeffPoly_lt a

theorem isVec_zero (n : Nat) : IsVec F n (List.replicate n 0) 0 := ⟨by simp, allRed_replicate_zero _, coeffPoly_replicate_zero _⟩

/-- The last basis polynomial. -/
noncomputable def lastPoly (F : FieldState) (I : Instance) : (GF F.byteSize)[X] := coeffPoly F.byteSize (F.lagrangePoly (F.firstN (I.m2 + 1)) I.m2)

theorem isVec_last (I : Instance) : IsVec F (I.m2 + 1) ((precomp F I).lagM2.getD I.m2 []) (lastPoly F I) := by
  have hl := length_firstN (F := F) (I.m2 + 1)
  have e : (precomp F I).lagM2.getD I.m2 [] = F.lagrangePoly (F.firstN (I.m2 + 1)) I.m2 := getD_precompute _ (by omega)
  rw [e]
  exact ⟨by rw [lagrangePoly_len (allRed_firstN _) (by omega), hl], lagrangePoly_red _ _, rfl⟩

theorem last_interp (I : Instance) (hI : 2 * I.m2 + 1 ≤ 21845) : Interpolates F.byteSize (I.m2 + 1) (fun k => if k = I.m2 then 1 else 0) (lastPoly F I) := by
  have hl := length_firstN (F := F) (I.m2 + 1)
  refine ⟨(isVec_last I).degree, fun k hk => ?_⟩
  rw [point_eq hk]
  unfold lastPoly
  dsimp only
  split
  · rename_i h
    rw [h]
    exact eval_lagrangePoly_self (allRed_firstN _) (nodup_firstN (le_trans (by omega) hF.orderX)) (by omega)
  · rename_i h
    exact eval_lagrangePoly_other (allRed_firstN _) (by omega) (Ne.symm h)

/-- The polynomial through the S-box values of column `j`, with value 0 at the last point. -/
noncomputable def basePoly (F : FieldState) (I : Instance) (vals : Bytes) (j : Nat) : (GF F.byteSize)[X] :=
  interpPoly F (I.m2 + 1) (((List.range I.m2).map fun k => F.lift (vals.getD (j + I.m1 * k) 0)) ++ [0])

theorem base_interp (I : Instance) (hI : 2 * I.m2 + 1 ≤ 21845) (vals : Bytes) (j : Nat) :
    Interpolates F.byteSize (I.m2 + 1) (fun k => if k < I.m2 then val F.byteSize (F.lift (vals.getD (j + I.m1 * k) 0)) else 0) (basePoly F I vals j) := by
  refine interpolates_congr (interpPoly_ok (by omega) _) fun k hk => ?_
  split
  · rename_i h
    rw [getD_append_lt _ _ _ (by simpa using h), getD_range_map _ _ _ _ h]
  · rw [getD_append_ge _ _ _ (by simp; omega)]
    have : k = I.m2 := by omega
    subst this
    simp only [List.length_map, List.length_range, Nat.sub_self]
    exact val_zero

/-- `interpolate_with_precomputation` of column `j`. -/
theorem base_vec (I : Instance) (_hI : 2 * I.m2 + 1 ≤ 21845) (vals : Bytes) (j : Nat) : ∃ r,
    F.interpolate (precomp F I).lagM2 (((List.range I.m2).map fun k => F.lift (vals.getD (j + I.m1 * k) 0)) ++ [0]) = .ok r ∧ IsVec F (I.m2 + 1) r (basePoly F I vals j) := by
  have hl := length_firstN (F := F) (I.m2 + 1)
  have hy : AllRed F.byteSize (((List.range I.m2).map fun k => F.lift (vals.getD (j + I.m1 * k) 0)) ++ [0]) := by
    intro x hx
    rcases List.mem_append.1 hx with hx | hx
    · obtain ⟨k, _, rfl⟩ := List.mem_map.1 hx
      exact reduced_lift _
    · rw [List.mem_singleton.1 hx]
      exact reduced_zero
  obtain ⟨r, h1, h2, h3, h4⟩ := interpolate_ok (F := F) (pre := F.precomputeLagrange (F.firstN (I.m2 + 1))) (n := I.m2 + 1)
    (by rw [FieldState.precomputeLagrange, List.length_map, List.length_range, hl]; simp) (by simp) (fun p hp => by
      have := precompute_pre (F := F) (allRed_firstN (I.m2 + 1)) p hp
      rw [hl] at this
      exact this) hy
  refine ⟨r, h1, h2, h3, ?_⟩
  rw [h4]
  unfold basePoly interpPoly
  rw [List.length_append, List.length_map, List.length_range, List.length_singleton]
  refine Finset.sum_congr rfl fun k hk => ?_
  rw [getD_precompute _ (by rw [hl]; exact Finset.mem_range.1 hk)]

/-- `signProducts` -/
theorem signProducts_ok (I : Instance) (hI : 2 * I.m2 + 1 ≤ 21845) (saved : Saved) (j : Nat) : ∃ st sl tl, signProducts F I (precomp F I) saved j = .ok (st, sl, tl) ∧
    IsVec F (2 * I.m2 + 1) st (basePoly F I saved.1 j * basePoly F I saved.2 j) ∧ IsVec F (2 * I.m2 + 1) sl (basePoly F I saved.1 j * lastPoly F I) ∧
    IsVec F (2 * I.m2 + 1) tl (basePoly F I saved.2 j * lastPoly F I) := by
  obtain ⟨S, hS, vS⟩ := base_vec (F := F) I hI saved.1 j
  obtain ⟨T, hT, vT⟩ := base_vec (F := F) I hI saved.2 j
  obtain ⟨st, h1, v1⟩ := vS.mul vT
  obtain ⟨sl, h2, v2⟩ := vS.mul (isVec_last I)
  obtain ⟨tl, h3, v3⟩ := vT.mul (isVec_last I)
  refine ⟨st, sl, tl, ?_, v1, v2, v3⟩
  unfold signProducts
  dsimp only
  rw [hS, ok_bind, hT, ok_bind, h1, ok_bind, h2, ok_bind, h3, ok_bind]

/-- `P` as computed by the signer. -/
theorem signP_ok (I : Instance) (_hI : 2 * I.m2 + 1 ≤ 21845) (saved : Saved) (rs sRand tRand lastSq : List W64) (prods : List (List W64 × List W64 × List W64))
    (hrs : AllRed F.byteSize rs) (hs : AllRed F.byteSize sRand) (ht : AllRed F.byteSize tRand) (hl : IsVec F (2 * I.m2 + 1) lastSq (lastPoly F I * lastPoly F I))
    (hp : ∀ j < I.m1, IsVec F (2 * I.m2 + 1) (prods.getD j ([], [], [])).1 (basePoly F I saved.1 j * basePoly F I saved.2 j) ∧
      IsVec F (2 * I.m2 + 1) (prods.getD j ([], [], [])).2.1 (basePoly F I saved.1 j * lastPoly F I) ∧ IsVec F (2 * I.m2 + 1) (prods.getD j ([], [], [])).2.2 (basePoly F I saved.2 j * lastPoly F I)) :
    ∃ r, signP F I rs sRand tRand lastSq prods = .ok r ∧ IsVec F (2 * I.m2 + 1) r (∑ j ∈ Finset.range I.m1,
      (basePoly F I saved.1 j * C (val F.byteSize (rs.getD j 0)) + lastPoly F I * C (val F.byteSize (sRand.getD j 0))) *
      (basePoly F I saved.2 j + lastPoly F I * C (val F.byteSize (tRand.getD j 0)))) := by
  unfold signP
  suffices hh : ∀ n ≤ I.m1, ∃ r, (List.range n).foldlM (fun P j => do
      let (st, sl, tl) := prods.getD j ([], [], [])
      let r := rs.getD j 0
      let s := sRand.getD j 0
      let t := tRand.getD j 0
      let u ← vecAdd st (F.vecScale sl t)
      let v ← vecAdd (F.vecScale u r) (F.vecScale tl s)
      let w ← vecAdd v (F.vecScale (F.vecScale lastSq s) t)
      vecAdd P w) (List.replicate (2 * I.m2 + 1) 0) = (.ok r : M (List W64)) ∧ IsVec F (2 * I.m2 + 1) r (∑ j ∈ Finset.range n,
      (basePoly F I saved.1 j * C (val F.byteSize (rs.getD j 0)) + lastPoly F I * C (val F.byteSize (sRand.getD j 0))) *
      (basePoly F I saved.2 j + lastPoly F I * C (val F.byteSize (tRand.getD j 0)))) from hh _ le_rfl
  intro n hn
  induction n with
  | zero => exact ⟨_, rfl, by simpa using isVec_zero _⟩
  | succ n ih =>
    obtain ⟨r, h1, h2⟩ := ih (by omega)
    obtain ⟨p1, p2, p3⟩ := hp n (by omega)
    obtain ⟨u, hu, vu⟩ := p1.add (p2.scale (ht.getD n))
    obtain ⟨v, hv, vv⟩ := (vu.scale (hrs.getD n)).add (p3.scale (hs.getD n))
    obtain ⟨w, hw, vw⟩ := vv.add ((hl.scale (hs.getD n)).scale (ht.getD n))
    obtain ⟨z, hz, vz⟩ := h2.add vw
    refine ⟨z, ?_, ?_⟩
    · rw [List.range_succ, List.foldlM_append, h1, ok_bind]
      simp only [List.foldlM_cons, List.foldlM_nil]
      rw [hu, ok_bind, hv, ok_bind, hw, ok_bind, hz, ok_bind]
      rfl
    · rw [Finset.sum_range_succ]
      convert vz using 2
      ring

end Banquet
