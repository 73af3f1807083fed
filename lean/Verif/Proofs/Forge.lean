import Verif.Proofs.ForgeAes
import Verif.Proofs.Fuel

/-! A forger who does not know the secret key: it chooses the P delta that is not hashed after it has seen `R`. -/

namespace Banquet

open Polynomial Spec FieldOk

/-- P deltas that are zero but for the last. -/
def lastOnly (I : Instance) (x : W64) : List W64 := List.replicate I.m2 0 ++ [x]

section
variable {F : FieldState} [hF : FieldOk F]

omit hF in
theorem allRed_lastOnly (I : Instance) {x : W64} (hx : Reduced F.byteSize x) : AllRed F.byteSize (lastOnly I x) := by
  intro y hy
  rcases List.mem_append.1 hy with h | h
  · rw [List.eq_of_mem_replicate h]
    exact reduced_zero
  · rw [List.mem_singleton.1 h]
    exact hx

theorem val_lastOnly (I : Instance) (x : W64) {k : Nat} (hk : k < I.m2 + 1) : val F.byteSize ((lastOnly I x).getD k 0) = if k = I.m2 then val F.byteSize x else 0 := by
  unfold lastOnly
  split
  · rename_i h
    rw [getD_append_ge _ _ _ (by simp; omega)]
    simp [h]
  · rw [getD_append_lt _ _ _ (by simp; omega), List.getD_eq_getElem?_getD, List.getElem?_replicate]
    split <;> exact val_zero

variable (F) in
/-- The basis polynomial of the last point of `P`. -/
noncomputable def endPoly (I : Instance) : (GF F.byteSize)[X] := interpPoly F (2 * I.m2 + 1) (List.replicate (2 * I.m2) 0 ++ [1])

theorem endPoly_interp (I : Instance) (hI : 2 * I.m2 + 1 ≤ 21845) : Interpolates F.byteSize (2 * I.m2 + 1) (fun k => if k = 2 * I.m2 then 1 else 0) (endPoly F I) := by
  refine interpolates_congr (interpPoly_ok hI _) fun k hk => ?_
  split
  · rename_i h
    rw [getD_append_ge _ _ _ (by simp; omega)]
    simp only [h, List.length_replicate, Nat.sub_self]
    exact val_one
  · rw [getD_append_lt _ _ _ (by simp; omega), List.getD_eq_getElem?_getD, List.getElem?_replicate]
    split <;> exact val_zero

/-- It vanishes only at the other points. -/
theorem endPoly_ne_zero (I : Instance) (hI : 2 * I.m2 + 1 ≤ 21845) (r : GF F.byteSize) (hr : ∀ k < 2 * I.m2, r ≠ point F.byteSize k) : (endPoly F I).eval r ≠ 0 := by
  have h := endPoly_interp (F := F) I hI
  intro h0
  have hz : endPoly F I = 0 := by
    refine eq_zero_of_degree_lt_of_eval_finset_eq_zero (insert r ((Finset.range (2 * I.m2)).image (point F.byteSize))) ?_ ?_
    · refine lt_of_lt_of_eq h.1 ?_
      rw [Finset.card_insert_of_notMem, Finset.card_image_of_injOn, Finset.card_range]
      · intro i hi j hj e
        exact point_inj (by have := Finset.mem_range.1 hi; omega) (by have := Finset.mem_range.1 hj; omega) e
      · intro hm
        obtain ⟨k, hk, e⟩ := Finset.mem_image.1 hm
        exact hr k (Finset.mem_range.1 hk) e.symm
    · intro x hx
      rcases Finset.mem_insert.1 hx with rfl | hx
      · exact h0
      · obtain ⟨k, hk, rfl⟩ := Finset.mem_image.1 hx
        have hk := Finset.mem_range.1 hk
        rw [h.2 k (by omega)]
        dsimp only
        rw [if_neg (by omega)]
  have := h.2 (2 * I.m2) (by omega)
  rw [hz, eval_zero] at this
  dsimp only at this
  rw [if_pos rfl] at this
  exact zero_ne_one this

/-- How `P` depends on the last delta. -/
theorem polyP_lastOnly (I : Instance) (hI : 2 * I.m2 + 1 ≤ 21845) (hN : 0 < I.numParties) (c : Ctx) (rs : List W64) (hrs : AllRed F.byteSize rs) {x : W64} (hx : Reduced F.byteSize x) :
    Ctx.polyP F I { c with pDelta := lastOnly I x } rs = Ctx.polyP F I { c with pDelta := lastOnly I 0 } rs + C (val F.byteSize x) * endPoly F I := by
  have h1 := Ctx.polyP_interp I { c with pDelta := lastOnly I x } rs hI hN hrs (allRed_lastOnly I hx)
  have h0 := Ctx.polyP_interp I { c with pDelta := lastOnly I 0 } rs hI hN hrs (allRed_lastOnly I reduced_zero)
  have he := endPoly_interp (F := F) I hI
  refine interpolates_unique hI h1 ⟨?_, fun k hk => rfl⟩ fun k hk => ?_
  · refine mem_degreeLT.1 (Submodule.add_mem _ (mem_degreeLT.2 h0.1) ?_)
    rw [← smul_eq_C_mul]
    exact Submodule.smul_mem _ _ (mem_degreeLT.2 he.1)
  · have hext : ∀ p i, Ctx.pExtra I { c with pDelta := lastOnly I x } F p i = Ctx.pExtra I { c with pDelta := lastOnly I 0 } F p i := fun p i => rfl
    rw [eval_add, eval_mul, eval_C, h0.2 k hk, he.2 k hk]
    simp only [hext]
    split
    · rw [if_neg (by omega), mul_zero, add_zero]
    · rename_i h
      rw [val_lastOnly I x (by omega), val_lastOnly I 0 (by omega), val_zero]
      by_cases hk2 : k = 2 * I.m2
      · rw [if_pos (by omega), if_pos (by omega), if_pos hk2, mul_one]
        ring
      · rw [if_neg (by omega), if_neg (by omega), if_neg hk2, mul_zero, add_zero]

variable (F) in
/-- The last delta with which the product relation holds at `R`. -/
def fitLast (I : Instance) (pt : Bytes) (c : Ctx) (rs : List W64) (R : W64) : W64 :=
  let c0 := Ctx.sumC F I { c with pDelta := lastOnly I 0 } rs R
  let c1 := Ctx.sumC F I { c with pDelta := lastOnly I 1 } rs R
  let want := sumProducts F I ((List.range I.m1).map (c.sumA F I pt rs R)) ((List.range I.m1).map (c.sumB F I R))
  F.mul (gfAdd want c0) (F.inverse (gfAdd c1 c0))

/-- The fitted delta makes the product check pass. -/
theorem fitLast_ok (I : Instance) (hI : 2 * I.m2 + 1 ≤ 21845) (hN : 0 < I.numParties) (pt : Bytes) (c : Ctx) (rs : List W64) (hrs : AllRed F.byteSize rs) {R : W64} (hR : Reduced F.byteSize R)
    (hp : ∀ k < 2 * I.m2, val F.byteSize R ≠ point F.byteSize k) : Reduced F.byteSize (fitLast F I pt c rs R) ∧
    sumProducts F I ((List.range I.m1).map (c.sumA F I pt rs R)) ((List.range I.m1).map (c.sumB F I R)) = Ctx.sumC F I { c with pDelta := lastOnly I (fitLast F I pt c rs R) } rs R := by
  have hx : Reduced F.byteSize (fitLast F I pt c rs R) := reduced_apply _
  refine ⟨hx, ?_⟩
  obtain ⟨r0, v0⟩ := Ctx.val_sumC I { c with pDelta := lastOnly I 0 } rs R hR hrs (allRed_lastOnly I reduced_zero)
  obtain ⟨r1, v1⟩ := Ctx.val_sumC I { c with pDelta := lastOnly I 1 } rs R hR hrs (allRed_lastOnly I reduced_one)
  obtain ⟨rx, vx⟩ := Ctx.val_sumC I { c with pDelta := lastOnly I (fitLast F I pt c rs R) } rs R hR hrs (allRed_lastOnly I hx)
  have rw_ : Reduced F.byteSize (sumProducts F I ((List.range I.m1).map (c.sumA F I pt rs R)) ((List.range I.m1).map (c.sumB F I R))) := reduced_sum _ _ _ reduced_zero fun j _ => reduced_apply _
  refine val_inj rw_ rx ?_
  rw [vx, polyP_lastOnly I hI hN c rs hrs hx, eval_add, eval_mul, eval_C, ← v0]
  rw [polyP_lastOnly I hI hN c rs hrs reduced_one, eval_add, eval_mul, eval_C, ← v0, val_one, one_mul] at v1
  have he := endPoly_ne_zero I hI _ hp
  have hd : val F.byteSize (gfAdd (Ctx.sumC F I { c with pDelta := lastOnly I 1 } rs R) (Ctx.sumC F I { c with pDelta := lastOnly I 0 } rs R)) = (endPoly F I).eval (val F.byteSize R) := by
    rw [val_add, v1, add_right_comm, val_double, zero_add]
  have hv : val F.byteSize (fitLast F I pt c rs R) =
      (val F.byteSize (sumProducts F I ((List.range I.m1).map (c.sumA F I pt rs R)) ((List.range I.m1).map (c.sumB F I R))) + val F.byteSize (Ctx.sumC F I { c with pDelta := lastOnly I 0 } rs R)) *
        ((endPoly F I).eval (val F.byteSize R))⁻¹ := by
    unfold fitLast FieldState.inverse
    dsimp only
    rw [val_mul (reduced_add rw_ r0) (reduced_inverseZ _ (reduced_add r1 r0)), val_inverseZ _ (reduced_add r1 r0), hd, val_add]
  rw [hv, mul_assoc, inv_mul_cancel₀ he, mul_one, add_comm, add_assoc, val_double, add_zero]

end

/-! ## The forged signature -/

/-- The run of the forger in repetition `e`: all-zero key and root seed, S-box outputs leading to the ciphertext. -/
def forgeRun (X : Xof) (I : Instance) (pk salt : Bytes) (e : Nat) (last : W64) : Run :=
  signRun X I (List.replicate I.aes.keySize 0) (forgeT I.aes.keySize (slice pk 0 I.ctSize) (slice pk I.ctSize I.ctSize)) salt (List.replicate I.seedSize 0) e (lastOnly I last)

/-- A forged signature from the instance, the public key, the message and any salt. -/
def forgeWith (X : Xof) (fuel : Nat) (F : FieldState) (I : Instance) (pk salt msg : Bytes) : M Signature :=
  let runs0 := fun e => forgeRun X I pk salt e 0
  let h1 := proverH1 X I salt pk msg runs0
  let h2 := proverH2 X F I salt h1 runs0
  (phase2Expand X fuel F I h2 (F.firstN I.m2)).bind fun Rs =>
  let runs := fun e => forgeRun X I pk salt e (fitLast F I (slice pk 0 I.ctSize) ((runs0 e).ctx X I salt e) ((phase1Expand X F I h1).getD e []) (Rs.getD e 0))
  let h3 := proverH3 X F I (slice pk 0 I.ctSize) salt h1 h2 runs Rs
  (phase3Expand X fuel I h3).bind fun ms =>
  .ok (proverSig X F I (slice pk 0 I.ctSize) salt h1 h3 runs Rs ms)

/-- The forged signature is accepted unless some `R` is among the points. -/
theorem forgeWith_ok {F : FieldState} [hF : FieldOk F] {I : Instance} (hI : Consistent I) (X : Xof) (fuel : Nat) (pk salt msg : Bytes) (hpk : 2 * I.ctSize ≤ pk.length) (hsalt : salt.length = 32)
    (g2 : ∀ h, ∃ Rs, phase2Expand X fuel F I h (F.firstN I.m2) = .ok Rs ∧ ∀ R ∈ Rs, ∀ k < 2 * I.m2, val F.byteSize R ≠ point F.byteSize k) (g3 : ∀ h, ∃ ms, phase3Expand X fuel I h = .ok ms) :
    ∃ sig, forgeWith X fuel F I pk salt msg = .ok sig ∧ ∀ dummy : Bytes, dummy.length = I.seedSize → verifyWith X dummy fuel F I pk sig msg = .ok true := by
  have hN : 0 < I.numParties := by have := (parties_bounds hI).1; omega
  have hm := hI.points
  unfold forgeWith
  dsimp only
  obtain ⟨Rs, hRs, hp⟩ := g2 (proverH2 X F I salt (proverH1 X I salt pk msg fun e => forgeRun X I pk salt e 0) fun e => forgeRun X I pk salt e 0)
  rw [hRs]
  change ∃ sig, (phase3Expand X fuel I _).bind _ = _ ∧ _
  obtain ⟨Rl, hRr⟩ := phase2Expand_spec X fuel I _ _ Rs hRs
  obtain ⟨x, hx⟩ : ∃ x : Nat → W64, x = fun e => fitLast F I (slice pk 0 I.ctSize) ((forgeRun X I pk salt e 0).ctx X I salt e)
    ((phase1Expand X F I (proverH1 X I salt pk msg fun e => forgeRun X I pk salt e 0)).getD e []) (Rs.getD e 0) := ⟨_, rfl⟩
  have hx' : (fun e => forgeRun X I pk salt e (fitLast F I (slice pk 0 I.ctSize) ((forgeRun X I pk salt e 0).ctx X I salt e)
    ((phase1Expand X F I (proverH1 X I salt pk msg fun e => forgeRun X I pk salt e 0)).getD e []) (Rs.getD e 0))) = fun e => forgeRun X I pk salt e (x e) := by rw [hx]
  rw [hx']
  obtain ⟨ms, hms⟩ := g3 (proverH3 X F I (slice pk 0 I.ctSize) salt (proverH1 X I salt pk msg fun e => forgeRun X I pk salt e 0)
    (proverH2 X F I salt (proverH1 X I salt pk msg fun e => forgeRun X I pk salt e 0) fun e => forgeRun X I pk salt e 0) (fun e => forgeRun X I pk salt e (x e)) Rs)
  rw [hms]
  refine ⟨_, rfl, fun dummy hd => ?_⟩
  have hT := length_forgeT I.aes.keySize (keySize_cases hI) (slice pk 0 I.ctSize) (slice pk I.ctSize I.ctSize)
  rw [← sboxCount_eq hI] at hT
  have hk : (List.replicate I.aes.keySize (0 : Byte)).length = I.aes.keySize := List.length_replicate
  refine prover_accepted hI X F _ dummy hd fuel pk hpk msg hsalt _ (fun e _ => ⟨?_, ?_, ?_, ?_⟩) _ _ _ Rs ms rfl ?_ rfl hRs hms (fun e _ => ?_) fun e he => ?_
  · exact List.length_replicate
  · exact signDelta_length X salt _ e 0 I.aes.keySize _ hk fun p => (tape_facts X salt _ e p).1
  · exact signDelta_length X salt _ e I.aes.keySize I.aes.numSboxes _ hT fun p => (tape_facts X salt _ e p).2
  · simp [forgeRun, signRun, lastOnly]
  · unfold proverH2 phase2Commit phase2Input
    congr 3
    rw [List.flatMap_map, List.flatMap_map]
    refine List.flatMap_congr fun e _ => List.flatMap_congr fun k hk => ?_
    have hk := List.mem_range.1 hk
    unfold forgeRun signRun lastOnly
    rw [getD_append_lt _ _ _ (by simpa using hk), getD_append_lt _ _ _ (by simpa using hk)]
  · have h := (honest_sums hI X (List.replicate I.aes.keySize 0) (forgeT I.aes.keySize (slice pk 0 I.ctSize) (slice pk I.ctSize I.ctSize)) (slice pk 0 I.ctSize) salt (List.replicate I.seedSize 0) e
      (lastOnly I (x e)) hk hT).2.2
    refine h.trans (forgeT_ct _ (keySize_cases hI) _ _ ?_)
    rw [← ctSize_eq hI]
    unfold slice
    rw [List.length_take, List.length_drop]
    omega
  · have hRe : Rs.getD e 0 ∈ Rs := by
      rw [getD_of_lt (by omega)]
      exact List.getElem_mem _
    have h := (fitLast_ok I hm hN (slice pk 0 I.ctSize) ((forgeRun X I pk salt e 0).ctx X I salt e) _ (phase1Expand_red (I := I) X (proverH1 X I salt pk msg fun e => forgeRun X I pk salt e 0) e) (hRr _ hRe).1 (hp _ hRe)).2
    have hxe : x e = fitLast F I (slice pk 0 I.ctSize) ((forgeRun X I pk salt e 0).ctx X I salt e) ((phase1Expand X F I (proverH1 X I salt pk msg fun e => forgeRun X I pk salt e 0)).getD e []) (Rs.getD e 0) := by rw [hx]
    rw [← hxe] at h
    exact h

end Banquet
