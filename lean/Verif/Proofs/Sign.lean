import Verif.Proofs.SignPoly

/-! Closed form of `signWith`. -/

namespace Banquet

open Polynomial Spec FieldOk Spec.Aes

section
variable {F : FieldState} [hF : FieldOk F]

/-- `Σ_j S_j T_j`, which is `P` for an honest signer. -/
noncomputable def Ctx.prodPoly (F : FieldState) [FieldOk F] (I : Instance) (pt : Bytes) (c : Ctx) (rs : List W64) : (GF F.byteSize)[X] := ∑ j ∈ Finset.range I.m1, c.polyS F I pt rs j * c.polyT F I j

theorem val_double (w : W64) : val F.byteSize w + val F.byteSize w = 0 := by
  rw [← val_add, show gfAdd w w = 0 from BitVec.xor_self, val_zero]

/-- Every sum of values of words doubles to zero. -/
theorem sum_double (n : Nat) (f : Nat → W64) : (∑ p ∈ Finset.range n, val F.byteSize (f p)) + ∑ p ∈ Finset.range n, val F.byteSize (f p) = 0 := by
  rw [← Finset.sum_add_distrib]
  exact Finset.sum_eq_zero fun p _ => val_double _

theorem base_combine (I : Instance) (hI : 2 * I.m2 + 1 ≤ 21845) (vals : Bytes) (j : Nat) {r s : W64} (hr : Reduced F.byteSize r) (hs : Reduced F.byteSize s) {P : (GF F.byteSize)[X]}
    (hP : Interpolates F.byteSize (I.m2 + 1) (fun k => if k < I.m2 then val F.byteSize r * val F.byteSize (F.lift (vals.getD (j + I.m1 * k) 0)) else val F.byteSize s) P) :
    P = basePoly F I vals j * C (val F.byteSize r) + lastPoly F I * C (val F.byteSize s) := by
  obtain ⟨v, _, vv⟩ := base_vec (F := F) I hI vals j
  obtain ⟨w, _, vw⟩ := (vv.scale hr).add ((isVec_last I).scale hs)
  have hb := base_interp (F := F) I hI vals j
  have hl := last_interp (F := F) I hI
  refine interpolates_unique (n := I.m2 + 1) (by omega) hP ⟨vw.degree, fun k hk => rfl⟩ fun k hk => ?_
  rw [eval_add, eval_mul, eval_mul, eval_C, eval_C, hb.2 k hk, hl.2 k hk]
  dsimp only
  split
  · rename_i h
    rw [if_neg (by omega)]
    ring
  · rw [if_pos (by omega)]
    ring

variable {I : Instance} {pt : Bytes} {c : Ctx} {rs : List W64} {saved : Saved}

omit hF in
theorem allRed_range {n : Nat} {f : Nat → W64} (h : ∀ k < n, Reduced F.byteSize (f k)) : AllRed F.byteSize ((List.range n).map f) := by
  intro x hx
  obtain ⟨k, hk, rfl⟩ := List.mem_map.1 hx
  exact h k (List.mem_range.1 hk)

theorem col_lt {I : Instance} {j k : Nat} (hj : j < I.m1) (hk : k < I.m2) : j + I.m1 * k < I.m1 * I.m2 := by
  calc j + I.m1 * k < I.m1 + I.m1 * k := by omega
    _ = I.m1 * (k + 1) := by ring
    _ ≤ I.m1 * I.m2 := Nat.mul_le_mul_left _ hk

theorem polyS_base (hI : 2 * I.m2 + 1 ≤ 21845) (hrs : AllRed F.byteSize rs) (hs : ∀ i < I.m1 * I.m2, c.sAll I pt i = saved.1.getD i 0) {j : Nat} (hj : j < I.m1) :
    c.polyS F I pt rs j = basePoly F I saved.1 j * C (val F.byteSize (rs.getD j 0)) + lastPoly F I * C (val F.byteSize ((List.range I.numParties).foldl (fun acc p => gfAdd acc (c.sExtra I F p j)) 0)) := by
  have rS : Reduced F.byteSize ((List.range I.numParties).foldl (fun acc p => gfAdd acc (c.sExtra I F p j)) 0) := reduced_sum _ _ _ reduced_zero fun p _ => reduced_fromBytes _
  have h := Ctx.polyS_interp I pt c rs hI hrs hj
  refine base_combine I hI saved.1 j (hrs.getD j) rS (interpolates_congr h fun k hk => ?_)
  split
  · rename_i h
    rw [hs _ (col_lt hj h)]
  · rw [val_sum_range, val_zero, zero_add]

theorem polyT_base (hI : 2 * I.m2 + 1 ≤ 21845) (ht : ∀ i < I.m1 * I.m2, c.tAll I i = saved.2.getD i 0) {j : Nat} (hj : j < I.m1) :
    c.polyT F I j = basePoly F I saved.2 j + lastPoly F I * C (val F.byteSize ((List.range I.numParties).foldl (fun acc p => gfAdd acc (c.tExtra I F p j)) 0)) := by
  have rT : Reduced F.byteSize ((List.range I.numParties).foldl (fun acc p => gfAdd acc (c.tExtra I F p j)) 0) := reduced_sum _ _ _ reduced_zero fun p _ => reduced_fromBytes _
  have h := Ctx.polyT_interp (F := F) I c hI hj
  have := base_combine (P := c.polyT F I j) I hI saved.2 j reduced_one rT (interpolates_congr h fun k hk => by
    rw [val_one, one_mul]
    split
    · rename_i h
      rw [ht _ (col_lt hj h)]
    · rw [val_sum_range, val_zero, zero_add])
  rw [this, val_one, C_1, mul_one]

/-- The corrections of the signer. -/
structure FitsDelta (F : FieldState) [FieldOk F] (I : Instance) (pt : Bytes) (c : Ctx) (rs d : List W64) : Prop where
  len : d.length = I.m2 + 1
  red : AllRed F.byteSize d
  vals : ∀ k < I.m2 + 1, val F.byteSize (d.getD k 0) = (c.prodPoly F I pt rs).eval (point F.byteSize (I.m2 + k)) + ∑ p ∈ Finset.range I.numParties, val F.byteSize (c.pExtra I F p k)

/-- `signRep2` -/
theorem signRep2_ok (hI : 2 * I.m2 + 1 ≤ 21845) (hrs : AllRed F.byteSize rs) (hs : ∀ i < I.m1 * I.m2, c.sAll I pt i = saved.1.getD i 0) (ht : ∀ i < I.m1 * I.m2, c.tAll I i = saved.2.getD i 0)
    {lastSq : List W64} (hl : IsVec F (2 * I.m2 + 1) lastSq (lastPoly F I * lastPoly F I)) {prods : List (List W64 × List W64 × List W64)}
    (hp : ∀ j < I.m1, IsVec F (2 * I.m2 + 1) (prods.getD j ([], [], [])).1 (basePoly F I saved.1 j * basePoly F I saved.2 j) ∧
      IsVec F (2 * I.m2 + 1) (prods.getD j ([], [], [])).2.1 (basePoly F I saved.1 j * lastPoly F I) ∧ IsVec F (2 * I.m2 + 1) (prods.getD j ([], [], [])).2.2 (basePoly F I saved.2 j * lastPoly F I))
    (r1 : SignRep1) (h1 : r1.tapes = (List.range I.numParties).map c.tape) (h2 : r1.tShares = (List.range I.numParties).map (c.t I))
    (h3 : r1.sShares = (List.range I.numParties).map fun p => (c.out I pt p).1) :
    ∃ d, FitsDelta F I pt c rs d ∧ signRep2 F I (precomp F I) lastSq prods rs r1 = .ok
      ⟨(List.range I.numParties).map (c.sPts F I pt rs), (List.range I.numParties).map (c.tPts F I), (List.range I.numParties).map ({ c with pDelta := d }.pPts F I rs), d⟩ := by
  have eS : (List.range I.numParties).map (fun p => sPrime F I rs (r1.sShares.getD p []) (r1.tapes.getD p [])) = (List.range I.numParties).map (c.sPts F I pt rs) := by
    apply List.map_congr_left
    intro p hp
    rw [h1, h3, getD_range_map _ _ _ _ (List.mem_range.1 hp), getD_range_map _ _ _ _ (List.mem_range.1 hp)]
    rfl
  have eT : (List.range I.numParties).map (fun p => tPrime F I (r1.tShares.getD p []) (r1.tapes.getD p [])) = (List.range I.numParties).map (c.tPts F I) := by
    apply List.map_congr_left
    intro p hp
    rw [h1, h2, getD_range_map _ _ _ _ (List.mem_range.1 hp), getD_range_map _ _ _ _ (List.mem_range.1 hp)]
    rfl
  have eP : (List.range I.numParties).map (fun p => pRaw F I rs p (r1.tapes.getD p [])) = (List.range I.numParties).map fun p => pRaw F I rs p (c.tape p) := by
    apply List.map_congr_left
    intro p hp
    rw [h1, getD_range_map _ _ _ _ (List.mem_range.1 hp)]
  have eSr : (List.range I.m1).map (fun j => (List.range I.numParties).foldl (fun acc p => gfAdd acc (((((List.range I.numParties).map (c.sPts F I pt rs)).getD p []).getD j []).getD I.m2 0)) 0) =
      (List.range I.m1).map fun j => (List.range I.numParties).foldl (fun acc p => gfAdd acc (c.sExtra I F p j)) 0 := by
    apply List.map_congr_left
    intro j hj
    refine foldl_congr_mem _ _ _ (fun acc p hp => ?_) _
    rw [getD_range_map _ _ _ _ (List.mem_range.1 hp), (Ctx.sPts_facts I pt c rs p (List.mem_range.1 hj)).2.2.2]
  have eTr : (List.range I.m1).map (fun j => (List.range I.numParties).foldl (fun acc p => gfAdd acc (((((List.range I.numParties).map (c.tPts F I)).getD p []).getD j []).getD I.m2 0)) 0) =
      (List.range I.m1).map fun j => (List.range I.numParties).foldl (fun acc p => gfAdd acc (c.tExtra I F p j)) 0 := by
    apply List.map_congr_left
    intro j hj
    refine foldl_congr_mem _ _ _ (fun acc p hp => ?_) _
    rw [getD_range_map _ _ _ _ (List.mem_range.1 hp), (Ctx.tPts_facts I c p (List.mem_range.1 hj)).2.2.2]
  have rS : ∀ j, Reduced F.byteSize ((List.range I.numParties).foldl (fun acc p => gfAdd acc (c.sExtra I F p j)) 0) := fun j => reduced_sum _ _ _ reduced_zero fun p _ => reduced_fromBytes _
  have rT : ∀ j, Reduced F.byteSize ((List.range I.numParties).foldl (fun acc p => gfAdd acc (c.tExtra I F p j)) 0) := fun j => reduced_sum _ _ _ reduced_zero fun p _ => reduced_fromBytes _
  obtain ⟨poly, hpoly, vpoly⟩ := signP_ok (F := F) I hI saved rs _ _ lastSq prods hrs (allRed_range (n := I.m1) fun j _ => rS j) (allRed_range (n := I.m1) fun j _ => rT j) hl hp
  have hQ : (∑ j ∈ Finset.range I.m1,
      (basePoly F I saved.1 j * C (val F.byteSize (rs.getD j 0)) + lastPoly F I * C (val F.byteSize (((List.range I.m1).map fun j => (List.range I.numParties).foldl (fun acc p => gfAdd acc (c.sExtra I F p j)) 0).getD j 0))) *
      (basePoly F I saved.2 j + lastPoly F I * C (val F.byteSize (((List.range I.m1).map fun j => (List.range I.numParties).foldl (fun acc p => gfAdd acc (c.tExtra I F p j)) 0).getD j 0)))) = c.prodPoly F I pt rs := by
    unfold Ctx.prodPoly
    refine Finset.sum_congr rfl fun j hj => ?_
    have hj := Finset.mem_range.1 hj
    rw [getD_range_map _ _ _ _ hj, getD_range_map _ _ _ _ hj, polyS_base hI hrs hs hj, polyT_base hI ht hj]
  rw [hQ] at vpoly
  have rawE : ∀ p < I.numParties, ∀ k < I.m2 + 1, (((List.range I.numParties).map fun p => pRaw F I rs p (c.tape p)).getD p []).getD (I.m2 + k) 0 = c.pExtra I F p k := by
    intro p hp k hk
    rw [getD_range_map _ _ _ _ hp, (Ctx.pRaw_facts I rs hrs p (c.tape p)).2.2 k hk]
    rfl
  refine ⟨(List.range (I.m2 + 1)).map fun k => (List.range I.numParties).foldl (fun acc p => gfAdd acc (c.pExtra I F p k)) (F.eval poly ((precomp F I).xs2.getD (I.m2 + k) 0)), ⟨?_, ?_, ?_⟩, ?_⟩
  · simp
  · exact allRed_range fun k _ => reduced_sum _ _ _ (reduced_eval _ _ vpoly.red) fun p _ => reduced_fromBytes _
  · intro k hk
    have hx : (precomp F I).xs2 = F.firstN (2 * I.m2 + 1) := rfl
    rw [getD_range_map _ _ _ _ hk, val_sum_range, hx, val_eval _ _ vpoly.red ((allRed_firstN _).getD _), vpoly.poly, point_eq (n := 2 * I.m2 + 1) (by omega)]
  · unfold signRep2
    dsimp only
    rw [eS, eT, eP, eSr, eTr, hpoly, ok_bind]
    have eD : (List.range (I.m2 + 1)).map (fun k => (List.range I.numParties).foldl (fun acc p => gfAdd acc ((((List.range I.numParties).map fun p => pRaw F I rs p (c.tape p)).getD p []).getD (I.m2 + k) 0))
        (F.eval poly ((precomp F I).xs2.getD (I.m2 + k) 0))) =
        (List.range (I.m2 + 1)).map fun k => (List.range I.numParties).foldl (fun acc p => gfAdd acc (c.pExtra I F p k)) (F.eval poly ((precomp F I).xs2.getD (I.m2 + k) 0)) := by
      apply List.map_congr_left
      intro k hk
      refine foldl_congr_mem _ _ _ (fun acc p hp => ?_) _
      rw [rawE p (List.mem_range.1 hp) k (List.mem_range.1 hk)]
    rw [eD]
    congr 2
    apply List.map_congr_left
    intro p hp
    rw [getD_range_map _ _ _ _ (List.mem_range.1 hp)]
    rfl

omit hF in
/-- `signRep3` -/
theorem signRep3_ok (R : W64) (r2 : SignRep2) (h1 : r2.sP = (List.range I.numParties).map (c.sPts F I pt rs)) (h2 : r2.tP = (List.range I.numParties).map (c.tPts F I))
    (h3 : r2.pShares = (List.range I.numParties).map (c.pPts F I rs)) : signRep3 F I (precomp F I) R r2 = .ok (c.hash3 F I pt rs R) := by
  unfold signRep3
  dsimp only
  rw [mapM_ok _ _ (fun p => (List.range I.m1).map (c.a F I pt rs R p)) fun p hp => by
    rw [h1, getD_range_map _ _ _ _ (List.mem_range.1 hp)]
    exact dots_s F I pt c rs R p]
  rw [ok_bind, mapM_ok _ _ (fun p => (List.range I.m1).map (c.b F I R p)) fun p hp => by
    rw [h2, getD_range_map _ _ _ _ (List.mem_range.1 hp)]
    exact dots_t F I c R p]
  rw [ok_bind, mapM_ok _ _ (c.pc F I rs R) fun p hp => by
    rw [h3, getD_range_map _ _ _ _ (List.mem_range.1 hp)]
    exact dot_p F I c rs R p]
  rw [ok_bind]
  unfold Ctx.hash3
  congr 2
  · rw [List.foldl_map]
    rfl
  · apply List.map_congr_left
    intro j hj
    unfold sumAt Ctx.sumA
    refine foldl_congr_mem _ _ _ (fun acc p hp => ?_) _
    rw [getD_range_map _ _ _ _ (List.mem_range.1 hp), getD_range_map _ _ _ _ (List.mem_range.1 hj)]
  · apply List.map_congr_left
    intro j hj
    unfold sumAt Ctx.sumB
    refine foldl_congr_mem _ _ _ (fun acc p hp => ?_) _
    rw [getD_range_map _ _ _ _ (List.mem_range.1 hp), getD_range_map _ _ _ _ (List.mem_range.1 hj)]

/-- For an honest signer `P` is the sum of the products. -/
theorem honest_poly (hI : 2 * I.m2 + 1 ≤ 21845) (hN : 0 < I.numParties) (hrs : AllRed F.byteSize rs) (hd : FitsDelta F I pt c rs c.pDelta)
    (hmul : ∀ i < I.m1 * I.m2, aesMul (c.sAll I pt i) (c.tAll I i) = 1) : c.prodPoly F I pt rs = c.polyP F I rs := by
  have hdeg : (c.prodPoly F I pt rs).degree < (2 * I.m2 + 1 : Nat) := by
    unfold Ctx.prodPoly
    refine mem_degreeLT.1 (Submodule.sum_mem _ fun j hj => mem_degreeLT.2 ?_)
    have hj := Finset.mem_range.1 hj
    have d1 := (Ctx.polyS_interp I pt c rs hI hrs hj).1
    have d2 := (Ctx.polyT_interp (F := F) I c hI hj).1
    have n1 : (c.polyS F I pt rs j).natDegree ≤ I.m2 := by
      by_cases h : c.polyS F I pt rs j = 0
      · rw [h]; simp
      · exact Nat.lt_succ_iff.1 ((natDegree_lt_iff_degree_lt h).2 d1)
    have n2 : (c.polyT F I j).natDegree ≤ I.m2 := by
      by_cases h : c.polyT F I j = 0
      · rw [h]; simp
      · exact Nat.lt_succ_iff.1 ((natDegree_lt_iff_degree_lt h).2 d2)
    refine lt_of_le_of_lt degree_le_natDegree ?_
    have := natDegree_mul_le (p := c.polyS F I pt rs j) (q := c.polyT F I j)
    exact_mod_cast (by omega : (c.polyS F I pt rs j * c.polyT F I j).natDegree < 2 * I.m2 + 1)
  refine interpolates_unique hI (y := fun k => (c.prodPoly F I pt rs).eval (point F.byteSize k)) ⟨hdeg, fun k _ => rfl⟩ (Ctx.polyP_interp I c rs hI hN hrs hd.red) fun k hk => ?_
  split
  · rename_i h
    unfold Ctx.prodPoly
    rw [eval_finsetSum]
    refine Finset.sum_congr rfl fun j hj => ?_
    have hj := Finset.mem_range.1 hj
    rw [eval_mul, (Ctx.polyS_interp I pt c rs hI hrs hj).2 k (by omega), (Ctx.polyT_interp (F := F) I c hI hj).2 k (by omega)]
    dsimp only
    rw [if_pos h, if_pos h, mul_assoc, ← val_lift_mul, hmul _ (col_lt hj h), val_lift_one, mul_one]
  · rename_i h
    rw [hd.vals (k - I.m2) (by omega), show I.m2 + (k - I.m2) = k by omega, add_assoc, sum_double, add_zero]

end

/-! ## First phase -/

/-- The correction of the first share for the value `x` (banquet.cpp:398-401, 419-421). -/
def signDelta (X : Xof) (I : Instance) (salt root : Bytes) (e start len : Nat) (x : Bytes) : Bytes :=
  ((List.range I.numParties).map fun p => tapeBytes (genTape X I.tapeSize (partySeed X I salt root e p) salt e p) start len).foldl (fun d s => xorBytes s d) x

/-- The run of the signer with key `sk` and S-box outputs `t`. -/
def signRun (X : Xof) (I : Instance) (sk t salt root : Bytes) (e : Nat) (d : List W64) : Run :=
  ⟨root, signDelta X I salt root e 0 I.aes.keySize sk, signDelta X I salt root e I.aes.keySize I.aes.numSboxes t, d⟩

section
variable {I : Instance} (hI : Consistent I) (X : Xof) (sk pt salt root : Bytes) (e : Nat)
include hI

theorem signTree (hr : root.length = I.seedSize) : ∃ t, SeedTree.ofSeed X root I.numParties salt e = .ok t ∧ ∀ p < I.numParties, leafValue t p = .ok (partySeed X I salt root e p) := by
  obtain ⟨b1, b2, b3, b4⟩ := parties_bounds hI
  obtain ⟨s1, s2⟩ := seed_bounds hI
  obtain ⟨k, k1, k2, hk⟩ := hI.parties
  obtain ⟨t, ht⟩ := ofSeed_ok X root salt e k1 (by omega) (by rintro rfl; simp at hr; omega) (by omega)
  rw [← hk] at ht
  refine ⟨t, ht, fun p hp => ?_⟩
  obtain ⟨f, _, hv⟩ := ofSeed_spec X root salt e b1 b3 t ht
  obtain ⟨v1, v2⟩ := hv _ (leaf_ex b1 b3 hp)
  have e1 : t.numTotal - t.numLeaves + p = leafNode I.numParties p := by rw [f.nt, f.nl, total_sub b1 b3]; rfl
  unfold leafValue SeedTree.getLeaf
  simp only [e1]
  rw [v1, v2]
  rfl

theorem signRep1_ok (t : Bytes) (hr : root.length = I.seedSize) (d : List W64) : ∃ tree, SeedTree.ofSeed X root I.numParties salt e = .ok tree ∧
    signRep1 X I sk pt t salt root e = .ok ⟨tree, (List.range I.numParties).map ((signRun X I sk t salt root e d).ctx X I salt e).tape, (List.range I.numParties).map ((signRun X I sk t salt root e d).com X I salt e),
      (signRun X I sk t salt root e d).skDelta, (signRun X I sk t salt root e d).tDelta, (List.range I.numParties).map (((signRun X I sk t salt root e d).ctx X I salt e).t I),
      (List.range I.numParties).map (fun p => (((signRun X I sk t salt root e d).ctx X I salt e).out I pt p).1), (List.range I.numParties).map (fun p => (((signRun X I sk t salt root e d).ctx X I salt e).out I pt p).2)⟩ := by
  obtain ⟨tree, h1, h2⟩ := signTree hI X salt root e hr
  refine ⟨tree, h1, ?_⟩
  unfold signRep1 signShares
  rw [h1, ok_bind, mapM_ok _ _ (partySeed X I salt root e) fun p hp => h2 p (List.mem_range.1 hp), ok_bind]
  dsimp only
  have etape : (List.range I.numParties).map (fun p => genTape X I.tapeSize (((List.range I.numParties).map (partySeed X I salt root e)).getD p []) salt e p) =
      (List.range I.numParties).map ((signRun X I sk t salt root e d).ctx X I salt e).tape := by
    apply List.map_congr_left
    intro p hp
    rw [getD_range_map _ _ _ _ (List.mem_range.1 hp)]
    rfl
  have ecom : (List.range I.numParties).map (fun p => if fourWay I p then commitLane X I (((List.range I.numParties).map (partySeed X I salt root e)).getD p []) salt e p
      else commitSingle X I (((List.range I.numParties).map (partySeed X I salt root e)).getD p []) salt e p) = (List.range I.numParties).map ((signRun X I sk t salt root e d).com X I salt e) := by
    apply List.map_congr_left
    intro p hp
    rw [getD_range_map _ _ _ _ (List.mem_range.1 hp)]
    split
    · unfold commitLane
      rw [List.take_of_length_le (by unfold partySeed; rw [seedAt_length, hr])]
      rfl
    · rfl
  rw [etape, ecom]
  have k1 : (rawShares ((List.range I.numParties).map ((signRun X I sk t salt root e d).ctx X I salt e).tape) 0 I.aes.keySize).foldl (fun d s => xorBytes s d) sk = (signRun X I sk t salt root e d).skDelta := by
    rw [rawShares_range]
    rfl
  have k2 : (rawShares ((List.range I.numParties).map ((signRun X I sk t salt root e d).ctx X I salt e).tape) I.aes.keySize I.aes.numSboxes).foldl (fun d s => xorBytes s d) t = (signRun X I sk t salt root e d).tDelta := by
    rw [rawShares_range]
    rfl
  rw [k1, k2]
  have hm := mpcAes_eq I ((signRun X I sk t salt root e d).ctx X I salt e) pt
  rw [show ((signRun X I sk t salt root e d).ctx X I salt e).skDelta = (signRun X I sk t salt root e d).skDelta from rfl,
    show ((signRun X I sk t salt root e d).ctx X I salt e).tDelta = (signRun X I sk t salt root e d).tDelta from rfl] at hm
  rw [hm, List.map_map, List.map_map]
  congr 2
  rw [rawShares_range, fixFirst_range]
  rfl

end

end Banquet
