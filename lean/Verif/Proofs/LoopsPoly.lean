import Verif.Proofs.LoopsSign

/-! Closed forms of the loops of phase 3 of `banquet_sign` (Model/Loops.lean). -/

namespace Banquet.Loops

variable {T : Nat}

theorem sRow_length (F : FieldState) (I : Instance) (rs : List W64) (s tape : Bytes) (j : Nat) : (sRow F I rs s tape j).length = I.m2 + 1 := by simp [sRow]

theorem tRow_length (F : FieldState) (I : Instance) (t tape : Bytes) (j : Nat) : (tRow F I t tape j).length = I.m2 + 1 := by simp [tRow]

theorem bar_length {α : Type} {z : List α} {f : Nat → List α} {n : Nat} (hz : z.length = n) (hf : ∀ j, (f j).length = n) (j : Nat) : (bar z f j).length = n := by
  cases j
  · exact hz
  · exact hf _

theorem resized_rep {α : Type} (n : Nat) (z : α) : resized [] n z = List.replicate n z := by rw [resized_nil, List.map_const', List.length_range]

/-- Sum over the first `p` parties of the last point of row `j`. -/
def lastSum (I : Instance) (row : Nat → Nat → List W64) (p j : Nat) : W64 := (List.range p).foldl (fun acc q => gfAdd acc ((row q j).getD I.m2 0)) 0

theorem lastSum_succ (I : Instance) (row : Nat → Nat → List W64) (p j : Nat) : lastSum I row (p + 1) j = gfAdd (lastSum I row p j) ((row p j).getD I.m2 0) := by
  unfold lastSum
  rw [List.range_succ, List.foldl_append]
  rfl

theorem part_row {α : Type} {n m p j : Nat} (f : Nat → List (List α)) (g : Nat → List α) (hp : p < n) (hj : j < m) :
    wr2 ((part n f [] p).set p (part m g [] j)) p j (g j) = .ok ((part n f [] p).set p (part m g [] (j + 1))) := wr2_set (by rw [part_length]; exact hp) (part_wr m g [] j hj)

/-- The loop of banquet.cpp:551-595. -/
theorem signPointsAll_ok (F : FieldState) {I : Instance} (hI : Spec.Consistent I) (hF : F.byteSize = I.lambda) (rss : List (List W64)) {e : Nat} (hr : e < rss.length) (hrl : (rss.getD e []).length = I.m1) (he : e < T)
    (tape s t : Nat → Nat → Bytes) (ht : ∀ p < I.numParties, (tape e p).length = I.tapeSize) (hs : ∀ p < I.numParties, (s e p).length = I.aes.numSboxes) (hts : ∀ p < I.numParties, (t e p).length = I.aes.numSboxes)
    {A B : List (List (List (List W64)))} {Y Z : List (List W64)} (hA : e < A.length) (hB : e < B.length) (hY : e < Y.length) (hZ : e < Z.length) :
    forTo I.numParties (signPoints F I rss (of T I.numParties I.tapeSize 0 tape) (of T I.numParties I.aes.numSboxes 0 s) (of T I.numParties I.aes.numSboxes 0 t) e)
      ⟨A.set e (resized [] I.numParties []), B.set e (resized [] I.numParties []), Y.set e (resized [] I.m1 0), Z.set e (resized [] I.m1 0)⟩ =
    .ok ⟨A.set e ((List.range I.numParties).map fun p => (List.range I.m1).map (sRow F I (rss.getD e []) (s e p) (tape e p))), B.set e ((List.range I.numParties).map fun p => (List.range I.m1).map (tRow F I (t e p) (tape e p))),
      Y.set e ((List.range I.m1).map (lastSum I (fun p => sRow F I (rss.getD e []) (s e p) (tape e p)) I.numParties)), Z.set e ((List.range I.m1).map (lastSum I (fun p => tRow F I (t e p) (tape e p)) I.numParties))⟩ := by
  set SR : Nat → Nat → List W64 := fun p => sRow F I (rss.getD e []) (s e p) (tape e p) with hSR
  set TR : Nat → Nat → List W64 := fun p => tRow F I (t e p) (tape e p) with hTR
  have hSl : ∀ p j, (SR p j).length = I.m2 + 1 := fun p j => sRow_length _ _ _ _ _ _
  have hTl : ∀ p j, (TR p j).length = I.m2 + 1 := fun p j => tRow_length _ _ _ _ _
  have hnil : ∀ {β : Type} (n : Nat) (f : Nat → β) (z : β), resized [] n z = part n f z 0 := by
    intro β n f z
    rw [resized_rep, part_zero]
  refine (forTo_state _ _ _ (fun p => ⟨A.set e (part I.numParties (fun p => (List.range I.m1).map (SR p)) [] p), B.set e (part I.numParties (fun p => (List.range I.m1).map (TR p)) [] p),
    Y.set e ((List.range I.m1).map (lastSum I SR p)), Z.set e ((List.range I.m1).map (lastSum I TR p))⟩)
    (by rw [part_zero, part_zero, resized_rep, resized_nil]; rfl) fun p hp => ?_).trans (by rw [part_full, part_full])
  unfold signPoints
  dsimp only
  rw [rd2_set _ _ hA, part_rd _ _ _ _ hp, ok_bind, wr2_set hA (wr_ok _ (by rw [part_length]; exact hp)), ok_bind, rd2_set _ _ hB, part_rd _ _ _ _ hp, ok_bind,
    wr2_set hB (wr_ok _ (by rw [part_length]; exact hp)), ok_bind, lifted_ok F I he hp s (hs p hp), ok_bind, lifted_ok F I he hp t (hts p hp), ok_bind, hnil _ (SR p)]
  conv_lhs => enter [1, 3, 1, 2]; rw [show part I.m1 (SR p) [] 0 = part I.m1 (TR p) [] 0 by rw [part_zero, part_zero]]
  rw [forTo_state _ _ _ (fun j => (⟨A.set e ((part I.numParties (fun p => (List.range I.m1).map (SR p)) [] p).set p (part I.m1 (SR p) [] j)),
      B.set e ((part I.numParties (fun p => (List.range I.m1).map (TR p)) [] p).set p (part I.m1 (TR p) [] j)), Y.set e (mix I.m1 (lastSum I SR (p + 1)) (lastSum I SR p) j),
      Z.set e (mix I.m1 (lastSum I TR (p + 1)) (lastSum I TR p) j)⟩, bar (List.replicate (I.m2 + 1) 0) (SR p) j, bar (List.replicate (I.m2 + 1) 0) (TR p) j))
    (by rw [mix_zero, mix_zero]; rfl) (fun j hj => by
      dsimp only
      rw [bars_ok F hI hF rss hr hrl he hp hj tape (ht p hp) (s e p) (t e p) _ (bar_length (by simp) (hSl p) j) (bar_length (by simp) (hTl p) j), ok_bind]
      dsimp only
      have e1 : sRow F I (rss.getD e []) (s e p) (tape e p) j = SR p j := rfl
      have e2 : tRow F I (t e p) (tape e p) j = TR p j := rfl
      rw [e1, e2]
      rw [rd2_set _ _ hY, mix_rd _ _ hj, ok_bind, rd_getD 0 (by rw [hSl]; omega), ok_bind, ← lastSum_succ, wr2_set hY (mix_wr _ _ hj), ok_bind,
        rd2_set _ _ hZ, mix_rd _ _ hj, ok_bind, rd_getD 0 (by rw [hTl]; omega), ok_bind, ← lastSum_succ, wr2_set hZ (mix_wr _ _ hj), ok_bind,
        wr3_set hA (part_row _ (SR p) hp hj), ok_bind, wr3_set hB (part_row _ (TR p) hp hj), ok_bind]
      rfl), ok_bind]
  dsimp only
  rw [part_full, part_full, mix_full, mix_full, part_set I.numParties (fun p => (List.range I.m1).map (SR p)) [] p, part_set I.numParties (fun p => (List.range I.m1).map (TR p)) [] p]

theorem signPoly_ok (F : FieldState) {I : Instance} (rss : List (List W64)) {e : Nat} (hr : e < rss.length) (hrl : (rss.getD e []).length = I.m1) (lastSq : List W64) (st sl tl : Nat → List W64) {Y Z : List (List W64)}
    (hY : e < Y.length) (hZ : e < Z.length) (y z : Nat → W64) :
    signPoly F I rss (Y.set e ((List.range I.m1).map y)) (Z.set e ((List.range I.m1).map z)) lastSq ((List.range I.m1).map st) ((List.range I.m1).map sl) ((List.range I.m1).map tl) e =
      signP F I (rss.getD e []) ((List.range I.m1).map y) ((List.range I.m1).map z) lastSq ((List.range I.m1).map fun j => (st j, sl j, tl j)) := by
  unfold signPoly
  refine forTo_congr _ _ _ _ fun j hj P => ?_
  have hrr : rd2 rss e j = .ok ((rss.getD e []).getD j 0) := by
    unfold rd2
    rw [rd_getD [] hr, ok_bind, rd_getD 0 (by omega)]
  rw [hrr, ok_bind, rd_map _ _ hj, ok_bind, rd2_set _ _ hZ, rd_map _ _ hj, ok_bind, rd_map _ _ hj, ok_bind]
  dsimp only
  rw [getD_range_map _ _ _ _ hj, getD_range_map _ _ _ _ hj, getD_range_map _ _ _ _ hj]
  dsimp only
  congr 1
  funext u
  rw [rd2_set _ _ hY, rd_map _ _ hj, ok_bind, rd_map _ _ hj, ok_bind]

/-- Row of `P` of the first party after `i` corrections. -/
def adj (I : Instance) (raw : List W64) (d : Nat → W64) (i : Nat) : List W64 := (List.range (2 * I.m2 + 1)).map fun k => if I.m2 ≤ k ∧ k < I.m2 + i then gfAdd (raw.getD k 0) (d (k - I.m2)) else raw.getD k 0

theorem adj_rd (I : Instance) (raw : List W64) (d : Nat → W64) {i : Nat} (hi : i < I.m2 + 1) : rd (adj I raw d i) (I.m2 + i) = .ok (raw.getD (I.m2 + i) 0) := by
  unfold adj
  rw [rd_map _ _ (by omega), if_neg (by omega)]

theorem adj_wr (I : Instance) (raw : List W64) (d : Nat → W64) {i : Nat} (hi : i < I.m2 + 1) : wr (adj I raw d i) (I.m2 + i) (gfAdd (raw.getD (I.m2 + i) 0) (d i)) = .ok (adj I raw d (i + 1)) := by
  unfold adj
  rw [wr_map _ _ _ (by omega)]
  congr 1
  refine List.map_congr_left fun k _ => ?_
  split_ifs <;> first | rfl | omega | (subst k; rw [Nat.add_sub_cancel_left])

theorem adj_zero (I : Instance) (raw : List W64) (d : Nat → W64) (h : raw.length = 2 * I.m2 + 1) : adj I raw d 0 = raw := by
  unfold adj
  conv_rhs => rw [eq_range_map raw _ 0 h]
  exact List.map_congr_left fun k _ => by rw [if_neg (by omega)]

theorem adj_full (I : Instance) (raw : List W64) (d : Nat → W64) : adj I raw d (I.m2 + 1) = addDeltas I ((List.range (I.m2 + 1)).map d) raw := by
  unfold adj addDeltas
  refine List.map_congr_left fun k hk => ?_
  have := List.mem_range.1 hk
  by_cases h : k < I.m2
  · rw [if_pos h, if_neg (by omega)]
  · rw [if_neg h, if_pos (by omega), getD_range_map _ _ _ _ (by omega)]

/-- The loop of banquet.cpp:540-656. -/
theorem signPolysAll_ok (F : FieldState) {I : Instance} (hI : Spec.Consistent I) (hF : F.byteSize = I.lambda) (P : Precomp) (hx : P.xs2.length = 2 * I.m2 + 1) (lastSq : List W64) (st sl tl : Nat → List W64)
    (rss : List (List W64)) (hr : rss.length = I.numRounds) (hrl : ∀ e < I.numRounds, (rss.getD e []).length = I.m1) (tape s t : Nat → Nat → Bytes)
    (ht : ∀ e < I.numRounds, ∀ p < I.numParties, (tape e p).length = I.tapeSize) (hs : ∀ e < I.numRounds, ∀ p < I.numParties, (s e p).length = I.aes.numSboxes)
    (hts : ∀ e < I.numRounds, ∀ p < I.numParties, (t e p).length = I.aes.numSboxes) (R1 : Nat → SignRep1) (R2 : Nat → SignRep2)
    (h1 : ∀ e < I.numRounds, (R1 e).tapes = (List.range I.numParties).map (tape e)) (h2 : ∀ e < I.numRounds, (R1 e).tShares = (List.range I.numParties).map (t e))
    (h3 : ∀ e < I.numRounds, (R1 e).sShares = (List.range I.numParties).map (s e))
    (hR : ∀ e < I.numRounds, signRep2 F I P lastSq ((List.range I.m1).map fun j => (st j, sl j, tl j)) (rss.getD e []) (R1 e) = .ok (R2 e)) :
    ∃ y z, forTo I.numRounds (signPolys F I P.xs2 lastSq ((List.range I.m1).map st) ((List.range I.m1).map sl) ((List.range I.m1).map tl) rss (of I.numRounds I.numParties I.tapeSize 0 tape)
        (of I.numRounds I.numParties I.aes.numSboxes 0 s) (of I.numRounds I.numParties I.aes.numSboxes 0 t)) (Polys.start I.numRounds) =
      .ok ⟨(List.range I.numRounds).map fun e => (R2 e).sP, (List.range I.numRounds).map fun e => (R2 e).tP, (List.range I.numRounds).map fun e => (R2 e).pShares,
        (List.range I.numRounds).map fun e => (R2 e).pDelta, y, z⟩ := by
  have hN : 0 < I.numParties := by have := (parties_bounds hI).1; omega
  let SR : Nat → Nat → Nat → List W64 := fun e p => sRow F I (rss.getD e []) (s e p) (tape e p)
  let TR : Nat → Nat → Nat → List W64 := fun e p => tRow F I (t e p) (tape e p)
  let y : Nat → List W64 := fun e => (List.range I.m1).map (lastSum I (SR e) I.numParties)
  let z : Nat → List W64 := fun e => (List.range I.m1).map (lastSum I (TR e) I.numParties)
  refine ⟨(List.range I.numRounds).map y, (List.range I.numRounds).map z, (forTo_state _ _ _ (fun e => ⟨part I.numRounds (fun e => (R2 e).sP) [] e, part I.numRounds (fun e => (R2 e).tP) [] e,
    part I.numRounds (fun e => (R2 e).pShares) [] e, part I.numRounds (fun e => (R2 e).pDelta) [] e, part I.numRounds y [] e, part I.numRounds z [] e⟩)
    (by simp only [part_zero]; rfl) fun e he => ?_).trans (by simp only [part_full])⟩
  have hl : ∀ {β : Type} (f : Nat → List β), e < (part I.numRounds f [] e).length := fun f => by rw [part_length]; exact he
  have hw : ∀ {β : Type} (f : Nat → List β) (x : List β), wr (part I.numRounds f [] e) e x = .ok ((part I.numRounds f [] e).set e x) := fun f x => wr_ok _ (hl f)
  -- what the repetition returns
  have hRe := hR e he
  unfold signRep2 at hRe
  dsimp only at hRe
  rw [h1 e he, h2 e he, h3 e he] at hRe
  have eS : ((List.range I.numParties).map fun p => sPrime F I (rss.getD e []) (((List.range I.numParties).map (s e)).getD p []) (((List.range I.numParties).map (tape e)).getD p [])) =
      (List.range I.numParties).map fun p => (List.range I.m1).map (SR e p) := by
    refine List.map_congr_left fun p hp => ?_
    rw [getD_range_map _ _ _ _ (List.mem_range.1 hp), getD_range_map _ _ _ _ (List.mem_range.1 hp)]
    rfl
  have eT : ((List.range I.numParties).map fun p => tPrime F I (((List.range I.numParties).map (t e)).getD p []) (((List.range I.numParties).map (tape e)).getD p [])) =
      (List.range I.numParties).map fun p => (List.range I.m1).map (TR e p) := by
    refine List.map_congr_left fun p hp => ?_
    rw [getD_range_map _ _ _ _ (List.mem_range.1 hp), getD_range_map _ _ _ _ (List.mem_range.1 hp)]
    rfl
  have eR : ((List.range I.numParties).map fun p => pRaw F I (rss.getD e []) p (((List.range I.numParties).map (tape e)).getD p [])) = (List.range I.numParties).map fun p => pRaw F I (rss.getD e []) p (tape e p) := by
    refine List.map_congr_left fun p hp => ?_
    rw [getD_range_map _ _ _ _ (List.mem_range.1 hp)]
  have eSum : ∀ row : Nat → Nat → List W64, ((List.range I.m1).map fun j =>
      (List.range I.numParties).foldl (fun acc p => gfAdd acc (((((List.range I.numParties).map fun p => (List.range I.m1).map (row p)).getD p []).getD j []).getD I.m2 0)) 0) = (List.range I.m1).map (lastSum I row I.numParties) := by
    intro row
    refine List.map_congr_left fun j hj => ?_
    unfold lastSum
    refine foldl_congr_mem _ _ _ (fun acc p hp => ?_) _
    rw [getD_range_map _ _ _ _ (List.mem_range.1 hp), getD_range_map _ _ _ _ (List.mem_range.1 hj)]
  rw [eS, eT, eR, eSum, eSum] at hRe
  have hpo := signPoly_ok F rss (by omega : e < rss.length) (hrl e he) lastSq st sl tl (hl y) (hl z) (lastSum I (SR e) I.numParties) (lastSum I (TR e) I.numParties)
  rcases hsp : signP F I (rss.getD e []) ((List.range I.m1).map (lastSum I (SR e) I.numParties)) ((List.range I.m1).map (lastSum I (TR e) I.numParties)) lastSq ((List.range I.m1).map fun j => (st j, sl j, tl j)) with _ | poly
  · rw [hsp] at hRe
    cases hRe
  rw [hsp, ok_bind] at hRe
  rw [hsp] at hpo
  injection hRe with hRe
  set raw : Nat → List W64 := fun p => pRaw F I (rss.getD e []) p (tape e p) with hraw
  have hrawl : ∀ p, (raw p).length = 2 * I.m2 + 1 := fun p => length_pRaw _ _ _ _ _
  set d : Nat → W64 := fun k => (List.range I.numParties).foldl (fun acc p => gfAdd acc ((raw p).getD (I.m2 + k) 0)) (F.eval poly (P.xs2.getD (I.m2 + k) 0)) with hd
  have eD : ((List.range (I.m2 + 1)).map fun k => (List.range I.numParties).foldl (fun acc p => gfAdd acc ((((List.range I.numParties).map raw).getD p []).getD (I.m2 + k) 0)) (F.eval poly (P.xs2.getD (I.m2 + k) 0))) =
      (List.range (I.m2 + 1)).map d := by
    refine List.map_congr_left fun k _ => ?_
    refine foldl_congr_mem _ _ _ (fun acc p hp => ?_) _
    rw [getD_range_map _ _ _ _ (List.mem_range.1 hp)]
  have eP : ((List.range I.numParties).map fun p => if p = 0 then addDeltas I ((List.range (I.m2 + 1)).map d) (((List.range I.numParties).map raw).getD p []) else ((List.range I.numParties).map raw).getD p []) =
      ((List.range I.numParties).map raw).set 0 (addDeltas I ((List.range (I.m2 + 1)).map d) (raw 0)) := by
    rw [set_range_map]
    refine List.map_congr_left fun p hp => ?_
    rw [getD_range_map _ _ _ _ (List.mem_range.1 hp)]
    split_ifs with h
    · rw [h]
    · rfl
  rw [eD, eP] at hRe
  -- the loop
  unfold signPolys
  dsimp only
  rw [part_rd _ _ _ _ he, ok_bind, hw, ok_bind, part_rd _ _ _ _ he, ok_bind, hw, ok_bind, part_rd _ _ _ _ he, ok_bind, hw, ok_bind, part_rd _ _ _ _ he, ok_bind, hw, ok_bind, part_rd _ _ _ _ he, ok_bind, hw, ok_bind,
    signPointsAll_ok F hI hF rss (by omega : e < rss.length) (hrl e he) he tape s t (ht e he) (hs e he) (hts e he) (hl _) (hl _) (hl _) (hl _), ok_bind]
  dsimp only
  rw [hpo, ok_bind, part_rd _ _ _ _ he, ok_bind, forTo_state _ _ _ (fun p => part I.numParties raw [] p) (by rw [part_zero, resized_rep]) (fun p hp => by
      rw [pParty_ok F hF rss (by omega : e < rss.length) (hrl e he) he hp tape (ht e he p hp) _ (by rw [part_length]; exact hp)]
      exact congrArg Except.ok (part_set I.numParties raw [] p)), ok_bind, part_full, forStep_one, show 2 * I.m2 + 1 - I.m2 = I.m2 + 1 by omega]
  have hraw0 : 0 < ((List.range I.numParties).map raw).length := by simpa using hN
  rw [forTo_state _ _ _ (fun i => (((List.range I.numParties).map raw).set 0 (adj I (raw 0) d i), (part I.numRounds (fun e => (R2 e).pDelta) [] e).set e (part (I.m2 + 1) d 0 i)))
    (by
      rw [adj_zero _ _ _ (hrawl 0), part_zero, resized_rep, set_range_map]
      congr 1
      refine List.map_congr_left fun p _ => ?_
      split_ifs with h
      · rw [h]
      · rfl) (fun i hi => by
      dsimp only
      rw [rd_getD 0 (by omega), ok_bind, forTo_foldl _ _ (fun acc p => gfAdd acc ((raw p).getD (I.m2 + i) 0)) _ (fun p hp acc => by
        by_cases hp0 : p = 0
        · subst hp0
          rw [rd2_set _ _ hraw0, adj_rd _ _ _ hi, ok_bind]
        · have : rd2 (((List.range I.numParties).map raw).set 0 (adj I (raw 0) d i)) p (I.m2 + i) = .ok ((raw p).getD (I.m2 + i) 0) := by
            rw [set_range_map, rd2_map _ _ _ hp, if_neg hp0, rd_getD 0 (by rw [hrawl]; omega)]
          rw [this, ok_bind]), ok_bind, Nat.add_sub_cancel_left]
      change (do
        let pDeltas ← wr2 ((part I.numRounds (fun e => (R2 e).pDelta) [] e).set e (part (I.m2 + 1) d 0 i)) e i (d i)
        let y ← rd2 (((List.range I.numParties).map raw).set 0 (adj I (raw 0) d i)) 0 (I.m2 + i)
        let ps ← wr2 (((List.range I.numParties).map raw).set 0 (adj I (raw 0) d i)) 0 (I.m2 + i) (gfAdd y (d i))
        Except.ok (ps, pDeltas)) = _
      rw [wr2_set (hl _) (part_wr _ _ _ _ hi), ok_bind, rd2_set _ _ hraw0, adj_rd _ _ _ hi, ok_bind, wr2_set hraw0 (adj_wr _ _ _ hi), ok_bind]), ok_bind]
  dsimp only
  rw [hw, ok_bind, part_full, adj_full]
  have f1 : (R2 e).sP = (List.range I.numParties).map fun p => (List.range I.m1).map (SR e p) := by rw [← hRe]
  have f2 : (R2 e).tP = (List.range I.numParties).map fun p => (List.range I.m1).map (TR e p) := by rw [← hRe]
  have f3 : (R2 e).pShares = ((List.range I.numParties).map raw).set 0 (addDeltas I ((List.range (I.m2 + 1)).map d) (raw 0)) := by rw [← hRe]
  have f4 : (R2 e).pDelta = (List.range (I.m2 + 1)).map d := by rw [← hRe]
  rw [← part_set I.numRounds (fun e => (R2 e).sP), ← part_set I.numRounds (fun e => (R2 e).tP), ← part_set I.numRounds (fun e => (R2 e).pShares), ← part_set I.numRounds (fun e => (R2 e).pDelta), ← part_set I.numRounds y,
    ← part_set I.numRounds z, ← f3, ← f4]
  congr 2
  · rw [f1]
  · rw [f2]

end Banquet.Loops
