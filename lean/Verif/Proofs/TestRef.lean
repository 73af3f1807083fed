import Verif.Model.TestRef
import Verif.Proofs.Interp
import Verif.Proofs.Lift
import Batteries.Data.BitVec.Lemmas

/-! Lemmas for C94: the reference implementation of the tests. -/

namespace Banquet.Ref

open Polynomial Spec FieldOk

attribute [local irreducible] clmul

theorem coeff_setCoeffs (cs : List Nat) (p : (ZMod 2)[X]) (j : Nat) : (cs.foldl (fun p i => p.update i 1) p).coeff j = if j ∈ cs then 1 else p.coeff j := by
  induction cs generalizing p with
  | nil => simp
  | cons c cs ih =>
    rw [List.foldl_cons, ih, coeff_update_apply]
    by_cases h : j ∈ cs
    · rw [if_pos h, if_pos (List.mem_cons_of_mem _ h)]
    · rw [if_neg h]
      by_cases hc : j = c
      · rw [if_pos hc, if_pos (by simp [hc])]
      · rw [if_neg hc, if_neg (by simp [hc, h])]

theorem getLsbD_ofCoeffs (cs : List Nat) (hc : ∀ c ∈ cs, c < 64) (w : W64) (j : Nat) : (cs.foldl (fun d i => d ||| (1#64 <<< i)) w).getLsbD j = (decide (j ∈ cs) || w.getLsbD j) := by
  induction cs generalizing w with
  | nil => simp
  | cons c cs ih =>
    have h64 := hc c (by simp)
    rw [List.foldl_cons, ih (fun x hx => hc x (by simp [hx])), BitVec.getLsbD_or]
    have : (1#64 <<< c).getLsbD j = decide (j = c) := by
      rw [← BitVec.twoPow_eq, BitVec.getLsbD_twoPow]
      by_cases h : j = c
      · subst h; simp [h64]
      · simp [h, Ne.symm h]
    rw [this]
    by_cases h : j = c <;> by_cases h' : j ∈ cs <;> simp [h, h']

theorem setCoeffs_eq (cs : List Nat) (hc : ∀ c ∈ cs, c < 64) : setCoeffs cs = wordPoly (ofCoeffs cs) := by
  ext j
  rw [setCoeffs, coeff_setCoeffs, coeff_wordPoly, ofCoeffs, getLsbD_ofCoeffs cs hc]
  by_cases h : j ∈ cs <;> simp [h]

theorem initField_ok {lam : Nat} {R : Field} (h : initField lam = .ok R) : R = ⟨fieldPoly lam, aesRoot lam⟩ := by
  unfold initField at h
  split at h
  · obtain rfl := Except.ok.inj h
    rw [setCoeffs_eq _ (by decide), setCoeffs_eq _ (by decide), wordPoly_mod4, wordPoly_root4]
  · obtain rfl := Except.ok.inj h
    rw [setCoeffs_eq _ (by decide), setCoeffs_eq _ (by decide), wordPoly_mod5, wordPoly_root5]
  · obtain rfl := Except.ok.inj h
    rw [setCoeffs_eq _ (by decide), setCoeffs_eq _ (by decide), wordPoly_mod6, wordPoly_root6]
  · exact absurd h (by simp)

theorem coeff_bytesPoly (bs : Bytes) (i : Nat) : (bytesPoly bs).coeff i = if (bs.getD (i / 8) 0).getLsbD (i % 8) then 1 else 0 := by
  induction bs generalizing i with
  | nil => simp [bytesPoly]
  | cons b bs ih =>
    rw [bytesPoly, coeff_add, coeff_wordPoly, coeff_X_pow_mul']
    by_cases h : 8 ≤ i
    · rw [if_pos h, ih, BitVec.getLsbD_of_ge b i h]
      obtain ⟨k, hk⟩ : ∃ k, i / 8 = k + 1 := ⟨i / 8 - 1, by omega⟩
      rw [show (i - 8) / 8 = k by omega, show (i - 8) % 8 = i % 8 by omega, hk]
      simp
    · rw [if_neg h, show i / 8 = 0 by omega, show i % 8 = i by omega]
      simp

/-- Field of the tests with the published polynomials. -/
noncomputable abbrev field (lam : Nat) : Field := ⟨fieldPoly lam, aesRoot lam⟩

variable {F : FieldState} [hF : FieldOk F]

theorem toNtl_val {a : W64} (ha : Reduced F.byteSize a) : toNtl F (field F.byteSize) a = val F.byteSize a := by
  unfold toNtl val
  have h7 := le7 (F := F)
  congr 1
  ext i
  rw [coeff_bytesPoly, coeff_wordPoly]
  congr 1
  by_cases hi : i / 8 < F.byteSize
  · rw [List.getD_eq_getElem?_getD, List.getElem?_append_left (by rw [length_toBytes]; exact hi), ← List.getD_eq_getElem?_getD, getD_toBytes a _ hi, BitVec.getLsbD_setWidth, BitVec.getLsbD_ushiftRight, show 8 * (i / 8) + i % 8 = i by omega]
    simp [Nat.mod_lt]
  · rw [List.getD_eq_getElem?_getD, List.getElem?_append_right (by rw [length_toBytes]; omega), getLsbD_of_lt a ha (by omega)]
    simp [List.getElem?_replicate]
    split <;> simp

theorem rep_val {a : W64} (ha : Reduced F.byteSize a) : rep (field F.byteSize) (val F.byteSize a) = wordPoly a := by
  unfold rep
  have h1 : AdjoinRoot.mk (fieldPoly F.byteSize) (Function.surjInv AdjoinRoot.mk_surjective (val F.byteSize a)) = AdjoinRoot.mk (fieldPoly F.byteSize) (wordPoly a) := Function.surjInv_eq _ _
  rw [AdjoinRoot.mk_eq_mk] at h1
  rw [Polynomial.modByMonic_eq_of_dvd_sub hF.monic h1, modByMonic_eq_self_iff hF.monic, degree_eq]
  exact (degree_wordPoly_lt a _).2 ha

theorem ofNtl_val {a : W64} (ha : Reduced F.byteSize a) : ofNtl F (field F.byteSize) (val F.byteSize a) = a := by
  have h7 := le7 (F := F)
  unfold ofNtl
  rw [rep_val ha]
  have e : (polyBytes (wordPoly a) 8).take F.byteSize = F.toBytes a := by
    unfold polyBytes FieldState.toBytes
    rw [← List.map_take, List.take_range, Nat.min_eq_left (by omega)]
    apply List.map_congr_left
    intro i _
    apply BitVec.eq_of_getLsbD_eq
    intro j hj
    rw [BitVec.getLsbD_ofFnLE, BitVec.getLsbD_setWidth, BitVec.getLsbD_ushiftRight]
    simp only [hj, dif_pos, decide_true, Bool.true_and, coeff_wordPoly]
    cases a.getLsbD (8 * i + j) <;> simp
  have : F.fromBytes (polyBytes (wordPoly a) 8) = F.fromBytes (F.toBytes a) := by
    rw [← e]
    unfold FieldState.fromBytes
    rw [List.take_take, Nat.min_self]
  rw [this, fromBytes_toBytes ha]

theorem toNtl_ofNtl (e : GF F.byteSize) : Reduced F.byteSize (ofNtl F (field F.byteSize) e) ∧ toNtl F (field F.byteSize) (ofNtl F (field F.byteSize) e) = e := by
  obtain ⟨a, ha, rfl⟩ := val_surj (F := F) e
  rw [ofNtl_val ha]
  exact ⟨ha, toNtl_val ha⟩

/-! ## Lifting and points -/

theorem liftFold (gen : W64) (hg : Reduced F.byteSize gen) (k : Nat) :
    let st := (List.range k).foldl (fun st _ => Banquet.liftStep F.reducer gen st) (([0, 1] : List W64), gen)
    Reduced F.byteSize st.2 ∧ (List.range k).foldl (fun st _ => liftStep (field F.byteSize) (val F.byteSize gen) st) ([0, 1], val F.byteSize gen) = (st.1.map (val F.byteSize), val F.byteSize st.2) := by
  induction k with
  | zero => exact ⟨hg, by rw [List.range_zero, List.foldl_nil, List.foldl_nil, List.map_cons, List.map_cons, List.map_nil, val_zero, val_one]⟩
  | succ k ih =>
    obtain ⟨h1, h2⟩ := ih
    rw [List.range_succ, List.foldl_append, List.foldl_append, h2]
    simp only [List.foldl_cons, List.foldl_nil]
    refine ⟨reduced_apply _, ?_⟩
    unfold liftStep Banquet.liftStep
    simp only [List.map_append, List.map_map]
    refine Prod.ext ?_ (val_mul h1 hg).symm
    exact congrArg (_ ++ ·) (List.map_congr_left fun v _ => (val_add _ _).symm)

theorem lift_eq (b : Byte) : lift (field F.byteSize) b = val F.byteSize (F.lift b) := by
  obtain ⟨gen, h1, h2, -, h4⟩ := hF.lut
  unfold lift FieldState.lift liftLut
  rw [h1, initLiftingLut, show (AdjoinRoot.mk (field F.byteSize).modulus (field F.byteSize).gen : GF F.byteSize) = val F.byteSize gen by rw [val, h4]]
  rw [(liftFold gen h2 7).2]
  simp only
  rw [List.getD_eq_getElem?_getD, List.getD_eq_getElem?_getD, List.getElem?_map]
  cases (((List.range 7).foldl (fun st _ => Banquet.liftStep F.reducer gen st) ([0, 1], gen)).1)[b.toNat]? with
  | none => exact val_zero.symm
  | some x => rfl

theorem firstN_map (n : Nat) : firstN (field F.byteSize) n = (F.firstN n).map (val F.byteSize) := by
  have key : ∀ n, (List.range n).foldl (fun (st : List (GF F.byteSize) × (ZMod 2)[X]) _ => (st.1 ++ [AdjoinRoot.mk _ st.2], st.2 * X)) ([], X) =
      ((List.range n).map (fun i => AdjoinRoot.mk _ (X ^ (i + 1))), X ^ (n + 1)) := fun n => by
    induction n with
    | zero => simp
    | succ n ih =>
      rw [List.range_succ, List.foldl_append, ih, List.map_append]
      simp only [List.foldl_cons, List.foldl_nil, List.map_cons, List.map_nil, ← pow_succ]
  have hroot : val F.byteSize (2 : W64) = AdjoinRoot.mk (fieldPoly F.byteSize) X := by
    rw [val, show (2 : W64) = 1#64 <<< 1 from rfl, wordPoly_twoPow 1 (by norm_num), pow_one]
  refine (congrArg Prod.fst (key n)).trans ?_
  rw [firstN_eq, List.map_map]
  apply List.map_congr_left
  intro i _
  simp only [Function.comp]
  rw [(val_iter i).2, hroot, map_pow]

/-! ## Polynomials -/

theorem map_toNtl {xs : List W64} (h : AllRed F.byteSize xs) : xs.map (toNtl F (field F.byteSize)) = xs.map (val F.byteSize) :=
  List.map_congr_left fun x hx => toNtl_val (h x hx)

theorem roots_eq {xs : List W64} (h : AllRed F.byteSize xs) : buildFromRoots (field F.byteSize) (xs.map (val F.byteSize)) = coeffPoly F.byteSize (F.buildFromRoots xs) := by
  rw [(buildFromRoots_ok xs h).2.2, buildFromRoots, List.map_map]
  rfl

theorem coeff_ofNtl {p : List W64} (h : AllRed F.byteSize p) (j : Nat) : ofNtl F (field F.byteSize) ((coeffPoly F.byteSize p).coeff j) = p.getD j 0 := by
  rw [coeff_coeffPoly, ofNtl_val (h.getD j)]

theorem map_others (xs : List W64) (k : Nat) (hk : k < xs.length) : (others xs k).Perm (xs.eraseIdx k) := by
  have : others xs k = ((List.range xs.length).filter (fun j => k ≠ j)).map (fun j => xs.getD j 0) := rfl
  have e : xs = (List.range xs.length).map (fun j => xs.getD j 0) := by
    apply List.ext_getElem (by simp)
    intro i h1 h2
    simp [List.getD_eq_getElem?_getD, h1]
  have h1 : xs.eraseIdx k = ((List.range xs.length).eraseIdx k).map (fun j => xs.getD j 0) := by
    conv_lhs => rw [e]
    rw [List.eraseIdx_map]
  rw [this, h1]
  apply List.Perm.map
  have hn : (List.range xs.length).Nodup := List.nodup_range
  have h2 : (List.range xs.length).eraseIdx k = (List.range xs.length).erase k := by
    have hi := List.Nodup.idxOf_getElem hn k (by simpa using hk)
    rw [List.getElem_range] at hi
    exact (List.erase_eq_eraseIdx_of_idxOf hi).symm
  rw [h2, List.Nodup.erase_eq_filter hn]
  apply List.Perm.of_eq
  apply List.filter_congr
  intro x _
  by_cases h : x = k
  · simp [h]
  · simp [h, Ne.symm h]

/-- Dividing out one of the roots leaves the product over the others. -/
theorem full_div (xs : List W64) (k : Nat) (hk : k < xs.length) :
    buildFromRoots (field F.byteSize) (xs.map (val F.byteSize)) /ₘ (X - C (val F.byteSize (xs.getD k 0))) = ((others xs k).map fun r => X - C (val F.byteSize r)).prod := by
  have hp : buildFromRoots (field F.byteSize) (xs.map (val F.byteSize)) = (X - C (val F.byteSize (xs.getD k 0))) * ((others xs k).map fun r => X - C (val F.byteSize r)).prod := by
    rw [((map_others xs k hk).map fun r => X - C (val F.byteSize r)).prod_eq, buildFromRoots, List.map_map]
    have hperm := (List.getElem_cons_eraseIdx_perm hk).map fun r => X - C (val F.byteSize r)
    have := hperm.prod_eq
    rw [List.map_cons, List.prod_cons] at this
    rw [getD_of_lt hk, this]
    rfl
  rw [hp, mul_divByMonic_cancel_left _ (monic_X_sub_C _)]

theorem lagrange_ok {xs : List W64} (h : AllRed F.byteSize xs) (hnd : xs.Nodup) (k : Nat) (hk : k < xs.length) :
    lagrangePoly (field F.byteSize) (buildFromRoots (field F.byteSize) (xs.map (val F.byteSize))) (val F.byteSize (xs.getD k 0)) = .ok (coeffPoly F.byteSize (F.lagrangePoly xs k)) := by
  have e := full_div (F := F) xs k hk
  have ev : (((others xs k).map fun r => X - C (val F.byteSize r)).prod).eval (val F.byteSize (xs.getD k 0)) = ((others xs k).map fun r => val F.byteSize (xs.getD k 0) - val F.byteSize r).prod := by
    rw [eval_list_prod, List.map_map]
    congr 1
    apply List.map_congr_left
    intro r _
    simp
  have one := eval_lagrangePoly_self h hnd hk
  rw [coeffPoly_lagrangePoly h, eval_mul, eval_C, ev] at one
  have hne : ((others xs k).map fun r => val F.byteSize (xs.getD k 0) - val F.byteSize r).prod ≠ 0 := by
    intro c
    rw [c, zero_mul] at one
    exact zero_ne_one one
  unfold lagrangePoly
  simp only
  rw [e, ev, if_pos (isUnit_iff_ne_zero.2 hne), coeffPoly_lagrangePoly h, Ring.inverse_eq_inv']

theorem mapM_ok {α β : Type} (f : α → M β) (g : α → β) (l : List α) (h : ∀ x ∈ l, f x = .ok (g x)) : l.mapM f = .ok (l.map g) := by
  induction l with
  | nil => rfl
  | cons x l ih =>
    rw [List.mapM_cons, h x (by simp), ih fun y hy => h y (by simp [hy])]
    rfl

theorem precompute_ok {xs : List W64} (h : AllRed F.byteSize xs) (hnd : xs.Nodup) :
    precomputeLagrange (field F.byteSize) (xs.map (val F.byteSize)) = .ok ((F.precomputeLagrange xs).map (coeffPoly F.byteSize)) := by
  unfold precomputeLagrange
  have e : xs.map (val F.byteSize) = (List.range xs.length).map fun k => val F.byteSize (xs.getD k 0) := by
    apply List.ext_getElem (by simp)
    intro i h1 h2
    simp at h1
    simp [List.getD_eq_getElem?_getD, h1]
  conv_lhs => arg 2; rw [e]
  rw [List.mapM_map, mapM_ok (lagrangePoly (field F.byteSize) _ ∘ _) (fun k => coeffPoly F.byteSize (F.lagrangePoly xs k)) _ fun k hk => lagrange_ok h hnd k (List.mem_range.1 hk), FieldState.precomputeLagrange, List.map_map]
  rfl

theorem ok_of_isOk {α : Type} {x : M α} (h : x.isOk = true) : ∃ a, x = .ok a := by
  cases x with
  | ok a => exact ⟨a, rfl⟩
  | error e => exact absurd h (by simp [Except.isOk, Except.toBool])

theorem initField_isOk (lam : Nat) (h : lam = 4 ∨ lam = 5 ∨ lam = 6) : ∃ R, initField lam = .ok R := by
  rcases h with rfl | rfl | rfl
  · exact ⟨_, rfl⟩
  · exact ⟨_, rfl⟩
  · exact ⟨_, rfl⟩

omit hF in
theorem both_ok (lam : Nat) (h : lam = 4 ∨ lam = 5 ∨ lam = 6) (h' : (initExtensionField lam).isOk = true) : ∃ F R, initExtensionField lam = .ok F ∧ initField lam = .ok R := by
  obtain ⟨R, hR⟩ := initField_isOk lam h
  obtain ⟨F, hF⟩ := ok_of_isOk h'
  exact ⟨F, R, hF, hR⟩

theorem ofNtl_zero : ofNtl F (field F.byteSize) 0 = 0 := by
  have h : Reduced F.byteSize (0 : W64) := by unfold Reduced; exact Nat.two_pow_pos _
  have := ofNtl_val (F := F) h
  rwa [val_zero] at this

theorem mapM_abort {α β : Type} (f : α → M β) (l : List α) (h : ∀ x ∈ l, (∃ y, f x = .ok y) ∨ f x = .error .abort) (hx : ∃ x ∈ l, f x = .error .abort) : l.mapM f = .error .abort := by
  induction l with
  | nil => obtain ⟨x, hx, _⟩ := hx; simp at hx
  | cons a l ih =>
    rw [List.mapM_cons]
    rcases h a (by simp) with ⟨y, hy⟩ | hy
    · obtain ⟨x, h1, h2⟩ := hx
      rcases List.mem_cons.1 h1 with rfl | h1
      · rw [hy] at h2; exact absurd h2 (by simp)
      · rw [hy, ih (fun z hz => h z (by simp [hz])) ⟨x, h1, h2⟩]
        rfl
    · rw [hy]; rfl

theorem precompute_abort {xs : List W64} (hnd : ¬ xs.Nodup) : precomputeLagrange (field F.byteSize) (xs.map (val F.byteSize)) = .error .abort := by
  unfold precomputeLagrange
  refine mapM_abort _ _ (fun x _ => ?_) ?_
  · unfold lagrangePoly
    simp only
    split
    · exact .inl ⟨_, rfl⟩
    · exact .inr rfl
  · rw [List.nodup_iff_injective_get, Function.Injective] at hnd
    push Not at hnd
    obtain ⟨k, j, he, hkj⟩ := hnd
    have hk := k.2
    refine ⟨val F.byteSize (xs.getD k 0), List.mem_map.2 ⟨_, by rw [getD_of_lt hk]; exact List.getElem_mem _, rfl⟩, ?_⟩
    unfold lagrangePoly
    simp only
    rw [full_div xs k hk]
    have hz : (((others xs k).map fun r => X - C (val F.byteSize r)).prod).eval (val F.byteSize (xs.getD k 0)) = 0 := by
      rw [eval_list_prod, List.map_map]
      apply List.prod_eq_zero
      refine List.mem_map.2 ⟨xs.getD j 0, mem_others j.2 (fun h => hkj (Fin.ext h)), ?_⟩
      have : xs.getD j 0 = xs.getD k 0 := by rw [getD_of_lt hk, getD_of_lt j.2]; exact he.symm
      rw [Function.comp, this, eval_sub, eval_X, eval_C, sub_self]
    rw [hz, if_neg (by simp)]

theorem interpolate_map {pre : List (List W64)} {ys : List W64} (hlen : pre.length = ys.length) :
    interpolate (field F.byteSize) (pre.map (coeffPoly F.byteSize)) (ys.map (val F.byteSize)) =
      .ok (∑ k ∈ Finset.range ys.length, coeffPoly F.byteSize (pre.getD k []) * C (val F.byteSize (ys.getD k 0))) := by
  unfold interpolate
  rw [if_neg (by simp [hlen]), List.length_map]
  congr 1
  suffices hs : ∀ m ≤ ys.length, (List.range m).foldl (fun res k => res + (pre.map (coeffPoly F.byteSize)).getD k 0 * C ((ys.map (val F.byteSize)).getD k 0)) 0 =
      ∑ k ∈ Finset.range m, coeffPoly F.byteSize (pre.getD k []) * C (val F.byteSize (ys.getD k 0)) from hs _ le_rfl
  intro m hm
  induction m with
  | zero => rfl
  | succ m ih =>
    rw [List.range_succ, List.foldl_append, ih (by omega), Finset.sum_range_succ]
    simp only [List.foldl_cons, List.foldl_nil]
    rw [getD_of_lt (by rw [List.length_map]; omega), getD_of_lt (by rw [List.length_map]; omega), List.getElem_map, List.getElem_map, getD_of_lt (by omega), getD_of_lt (by omega)]

end Banquet.Ref
