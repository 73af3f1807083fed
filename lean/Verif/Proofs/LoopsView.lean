import Verif.Proofs.LoopsPoly

/-! Closed forms of the loops of phase 5 of `banquet_sign` (Model/Loops.lean). -/

namespace Banquet.Loops

variable {T N : Nat}

/-- Writing a slot element by element. -/
theorem spanRow_step {k e p j : Nat} (he : e < T) (hp : p < N) (hj : j < k) (f : Nat → Nat → List W64) (hf : (f e p).length = k) (g : Nat → W64) :
    spanWr (of T N k 0 (upd f e p (pre j g (f e p)))) e p j (g j) = .ok (of T N k 0 (upd f e p (pre (j + 1) g (f e p)))) := by
  rw [spanWr_of he hp hj (by rw [upd_same, pre_length _ (by omega), hf]), upd_same, upd_upd, pre_set _ (by omega)]

/-- Shares of `S_j(R)` and `T_j(R)` of one party. -/
theorem viewParty_ok (F : FieldState) (I : Instance) {e p : Nat} (he : e < T) (hp : p < N) (l1 : List W64) (sP tP : List (List (List (List W64)))) (S U : Nat → List W64) (a b : Nat → W64)
    (hS : ∀ j < I.m1, rd3 sP e p j = .ok (S j)) (hU : ∀ j < I.m1, rd3 tP e p j = .ok (U j)) (ha : ∀ j < I.m1, F.dot l1 (S j) = .ok (a j)) (hb : ∀ j < I.m1, F.dot l1 (U j) = .ok (b j))
    (f g : Nat → Nat → List W64) (hf : (f e p).length = I.m1) (hg : (g e p).length = I.m1) :
    forTo I.m1 (fun j (st : RepContainer W64 × RepContainer W64) => do
      let x ← rd3 sP e p j
      let v ← F.dot l1 x
      let aS ← spanWr st.1 e p j v
      let y ← rd3 tP e p j
      let w ← F.dot l1 y
      let bS ← spanWr st.2 e p j w
      .ok (aS, bS)) (of T N I.m1 0 f, of T N I.m1 0 g) = .ok (of T N I.m1 0 (upd f e p ((List.range I.m1).map a)), of T N I.m1 0 (upd g e p ((List.range I.m1).map b))) := by
  refine (forTo_state _ _ _ (fun j => (of T N I.m1 0 (upd f e p (pre j a (f e p))), of T N I.m1 0 (upd g e p (pre j b (g e p))))) (by rw [pre_zero, pre_zero, upd_self, upd_self]) fun j hj => ?_).trans
    (by rw [pre_full _ hf, pre_full _ hg])
  dsimp only
  rw [hS j hj, ok_bind, ha j hj, ok_bind, spanRow_step he hp hj f hf a, ok_bind, hU j hj, ok_bind, hb j hj, ok_bind, spanRow_step he hp hj g hg b, ok_bind]

/-- Sum over the first `p` parties. -/
def psum (x : Nat → W64) (p : Nat) : W64 := (List.range p).foldl (fun acc q => gfAdd acc (x q)) 0

theorem psum_succ (x : Nat → W64) (p : Nat) : psum x (p + 1) = gfAdd (psum x p) (x p) := by
  unfold psum
  rw [List.range_succ, List.foldl_append]
  rfl

theorem mk_zeros (T N k : Nat) : RepContainer.mk' (0 : W64) T N k = of T N k 0 fun _ _ => List.replicate k 0 := by
  unfold RepContainer.mk' of
  congr 1
  apply List.ext_getElem?
  intro i
  simp only [List.getElem?_replicate, List.getElem?_map]
  by_cases hi : i < T * N * k
  · rw [if_pos (by simpa using hi), List.getElem?_range hi]
    simp [List.getElem?_replicate]
    split_ifs <;> rfl
  · rw [if_neg (by simpa using hi), List.getElem?_eq_none (by simpa using hi)]
    rfl

/-- The opening of the shares (banquet.cpp:710-719). -/
theorem openAll_ok (I : Instance) {e : Nat} (he : e < T) (cs : Nat → W64) (A B : Nat → Nat → List W64) (hA : ∀ p < I.numParties, (A e p).length = I.m1) (hB : ∀ p < I.numParties, (B e p).length = I.m1)
    {C : List W64} {Y Z CS : List (List W64)} (hC : e < C.length) (hY : e < Y.length) (hZ : e < Z.length) (hCS : e < CS.length) :
    forTo I.numParties (fun p (st : List W64 × List (List W64) × List (List W64)) => do
      let x ← rd st.1 e
      let dx ← rd2 (CS.set e ((List.range I.numParties).map cs)) e p
      let c ← wr st.1 e (gfAdd x dx)
      let (a, b) ← forTo I.m1 (fun j (st : List (List W64) × List (List W64)) => do
        let x ← rd2 st.1 e j
        let dx ← spanRd (of T I.numParties I.m1 0 A) e p j
        let a ← wr2 st.1 e j (gfAdd x dx)
        let y ← rd2 st.2 e j
        let dy ← spanRd (of T I.numParties I.m1 0 B) e p j
        let b ← wr2 st.2 e j (gfAdd y dy)
        .ok (a, b)) st.2
      .ok (c, a, b)) (C.set e 0, Y.set e (resized [] I.m1 0), Z.set e (resized [] I.m1 0)) =
    .ok (C.set e (psum cs I.numParties), Y.set e ((List.range I.m1).map fun j => psum (fun p => (A e p).getD j 0) I.numParties), Z.set e ((List.range I.m1).map fun j => psum (fun p => (B e p).getD j 0) I.numParties)) := by
  refine forTo_state _ _ _ (fun n => (C.set e (psum cs n), Y.set e ((List.range I.m1).map fun j => psum (fun p => (A e p).getD j 0) n), Z.set e ((List.range I.m1).map fun j => psum (fun p => (B e p).getD j 0) n)))
    (by rw [resized_nil]; rfl) fun p hp => ?_
  dsimp only
  rw [rd_set _ hC, ok_bind, rd2_set _ _ hCS, rd_map _ _ hp, ok_bind, wr_set _ _ hC, ok_bind,
    forTo_state _ _ _ (fun i => (Y.set e (mix I.m1 (fun j => psum (fun p => (A e p).getD j 0) (p + 1)) (fun j => psum (fun p => (A e p).getD j 0) p) i),
      Z.set e (mix I.m1 (fun j => psum (fun p => (B e p).getD j 0) (p + 1)) (fun j => psum (fun p => (B e p).getD j 0) p) i))) (by rw [mix_zero, mix_zero]) (fun j hj => by
      dsimp only
      rw [rd2_set _ _ hY, mix_rd _ _ hj, ok_bind, spanRd_of he hp hj (hA p hp), ok_bind, ← psum_succ (fun p => (A e p).getD j 0), wr2_set hY (mix_wr _ _ hj), ok_bind,
        rd2_set _ _ hZ, mix_rd _ _ hj, ok_bind, spanRd_of he hp hj (hB p hp), ok_bind, ← psum_succ (fun p => (B e p).getD j 0), wr2_set hZ (mix_wr _ _ hj), ok_bind]), ok_bind]
  dsimp only
  rw [mix_full, mix_full, ← psum_succ]

theorem rd3_pts {n m k e p j : Nat} (f : Nat → Nat → List (List W64)) (he : e < n) (hp : p < m) (hj : j < k) (hf : (f e p).length = k) :
    rd3 ((List.range n).map fun e => (List.range m).map (f e)) e p j = .ok ((f e p).getD j []) := by
  rw [rd3_map _ _ _ _ he, rd2_map _ _ _ hp, rd_getD [] (by omega)]

/-- The loop of banquet.cpp:691-724. -/
theorem signViewsAll_ok (F : FieldState) {I : Instance} (pt : Bytes) (c : Nat → Ctx) (rs : Nat → List W64) (Rs : List W64) (hRs : Rs.length = I.numRounds) (h1 : I.m2 + 1 ≤ (precomp F I).lagM2.length)
    (h2 : 2 * I.m2 + 1 ≤ (precomp F I).lag2M2.length) (d y z : List (List W64)) : ∃ l, forTo I.numRounds (signViews F I (precomp F I).lagM2 (precomp F I).lag2M2 Rs
      ⟨(List.range I.numRounds).map fun e => (List.range I.numParties).map ((c e).sPts F I pt (rs e)), (List.range I.numRounds).map fun e => (List.range I.numParties).map ((c e).tPts F I),
        (List.range I.numRounds).map fun e => (List.range I.numParties).map ((c e).pPts F I (rs e)), d, y, z⟩) (Views.start I, List.replicate (I.m2 + 1) 0, List.replicate (2 * I.m2 + 1) 0) =
      .ok (⟨(List.range I.numRounds).map fun e => (c e).sumC F I (rs e) (Rs.getD e 0), (List.range I.numRounds).map fun e => (List.range I.numParties).map ((c e).pc F I (rs e) (Rs.getD e 0)),
        (List.range I.numRounds).map fun e => (List.range I.m1).map ((c e).sumA F I pt (rs e) (Rs.getD e 0)), (List.range I.numRounds).map fun e => (List.range I.m1).map ((c e).sumB F I (Rs.getD e 0)),
        of I.numRounds I.numParties I.m1 0 fun e p => (List.range I.m1).map ((c e).a F I pt (rs e) (Rs.getD e 0) p), of I.numRounds I.numParties I.m1 0 fun e p => (List.range I.m1).map ((c e).b F I (Rs.getD e 0) p)⟩, l) := by
  let zr : Nat → Nat → List W64 := fun _ _ => List.replicate I.m1 0
  let A : Nat → Nat → List W64 := fun e p => (List.range I.m1).map ((c e).a F I pt (rs e) (Rs.getD e 0) p)
  let B : Nat → Nat → List W64 := fun e p => (List.range I.m1).map ((c e).b F I (Rs.getD e 0) p)
  let f1 : Nat → W64 := fun e => (c e).sumC F I (rs e) (Rs.getD e 0)
  let f2 : Nat → List W64 := fun e => (List.range I.numParties).map ((c e).pc F I (rs e) (Rs.getD e 0))
  let f3 : Nat → List W64 := fun e => (List.range I.m1).map ((c e).sumA F I pt (rs e) (Rs.getD e 0))
  let f4 : Nat → List W64 := fun e => (List.range I.m1).map ((c e).sumB F I (Rs.getD e 0))
  let L1 : Nat → List W64 := fun e => lagAt F (precomp F I).lagM2 (I.m2 + 1) (Rs.getD e 0)
  let L2 : Nat → List W64 := fun e => lagAt F (precomp F I).lag2M2 (2 * I.m2 + 1) (Rs.getD e 0)
  refine ⟨(bar (List.replicate (I.m2 + 1) 0) L1 I.numRounds, bar (List.replicate (2 * I.m2 + 1) 0) L2 I.numRounds), (forTo_state _ _ _ (fun e => ((⟨part I.numRounds f1 0 e, part I.numRounds f2 [] e, part I.numRounds f3 [] e, part I.numRounds f4 [] e, of I.numRounds I.numParties I.m1 0 (below zr e A),
    of I.numRounds I.numParties I.m1 0 (below zr e B)⟩ : Views), bar (List.replicate (I.m2 + 1) 0) L1 e, bar (List.replicate (2 * I.m2 + 1) 0) L2 e))
    (by rw [below_zero, below_zero, ← mk_zeros]; simp only [part_zero]; rfl) fun e he => ?_).trans (by rw [of_below_full, of_below_full]; simp only [part_full]; rfl)⟩
  have hl : ∀ {β : Type} (f : Nat → β) (z : β), e < (part I.numRounds f z e).length := fun f z => by rw [part_length]; exact he
  have hw : ∀ {β : Type} (f : Nat → β) (z x : β), wr (part I.numRounds f z e) e x = .ok ((part I.numRounds f z e).set e x) := fun f z x => wr_ok _ (hl f z)
  have hsp : ∀ p, ((c e).sPts F I pt (rs e) p).length = I.m1 := fun p => by simp [Ctx.sPts, sPrime]
  have htp : ∀ p, ((c e).tPts F I p).length = I.m1 := fun p => by simp [Ctx.tPts, tPrime]
  unfold signViews
  dsimp only
  rw [part_rd _ _ _ _ he, ok_bind, hw, ok_bind, part_rd _ _ _ _ he, ok_bind, hw, ok_bind, part_rd _ _ _ _ he, ok_bind, hw, ok_bind, rd_getD 0 (by omega), ok_bind,
    lags_ok F _ _ h1 _ _ (bar_length (by simp) (fun j => length_lagAt _ _ _ _) e), ok_bind, lags_ok F _ _ h2 _ _ (bar_length (by simp) (fun j => length_lagAt _ _ _ _) e), ok_bind,
    forTo_state _ _ _ (fun n => ((part I.numRounds f2 [] e).set e (part I.numParties ((c e).pc F I (rs e) (Rs.getD e 0)) 0 n), of I.numRounds I.numParties I.m1 0 (rowUpd (below zr e A) e n (A e)),
      of I.numRounds I.numParties I.m1 0 (rowUpd (below zr e B) e n (B e)))) (by rw [rowUpd_zero, rowUpd_zero, part_zero, resized_rep]) (fun p hp => by
      dsimp only
      have hz : ∀ G : Nat → Nat → List W64, (rowUpd (below zr e G) e p (G e) e p).length = I.m1 := fun G => by simp [rowUpd, below, zr]
      rw [viewParty_ok F I he hp (lagAt F (precomp F I).lagM2 (I.m2 + 1) (Rs.getD e 0)) _ _ (fun j => ((c e).sPts F I pt (rs e) p).getD j []) (fun j => ((c e).tPts F I p).getD j []) ((c e).a F I pt (rs e) (Rs.getD e 0) p)
        ((c e).b F I (Rs.getD e 0) p) (fun j hj => rd3_pts (fun e => (c e).sPts F I pt (rs e)) he hp hj (hsp p)) (fun j hj => rd3_pts (fun e => (c e).tPts F I) he hp hj (htp p))
        (fun j hj => dot_eq F (by
          rw [length_lagAt]
          unfold Ctx.sPts
          rw [getD_sPrime _ _ _ _ _ _ hj]
          simp))
        (fun j hj => dot_eq F (by
          rw [length_lagAt]
          unfold Ctx.tPts
          rw [getD_tPrime _ _ _ _ _ hj]
          simp)) _ _ (hz A) (hz B), ok_bind]
      dsimp only
      rw [rd2_map _ _ _ he, rd_map _ _ hp, ok_bind, dot_p, ok_bind, wr2_set (hl _ _) (part_wr I.numParties ((c e).pc F I (rs e) (Rs.getD e 0)) 0 p hp), ok_bind]
      rw [← rowUpd_succ _ e p (A e), ← rowUpd_succ _ e p (B e)]), ok_bind]
  dsimp only
  rw [part_full, of_below_succ zr A e, of_below_succ zr B e]
  have h0 : part I.numRounds f1 0 e = (part I.numRounds f1 0 e).set e 0 := by
    unfold part
    rw [set_range_map]
    refine List.map_congr_left fun k _ => ?_
    split_ifs with h1 h2 <;> first | rfl | omega
  have hrow : ∀ G : Nat → Nat → List W64, below zr (e + 1) G e = G e := fun G => by
    funext p
    rw [below, if_pos (Nat.lt_succ_self e)]
  rw [h0]
  have := openAll_ok (T := I.numRounds) I he ((c e).pc F I (rs e) (Rs.getD e 0)) (below zr (e + 1) A) (below zr (e + 1) B) (fun p _ => by rw [hrow]; simp [A]) (fun p _ => by rw [hrow]; simp [B])
    (C := part I.numRounds f1 0 e) (Y := part I.numRounds f3 [] e) (Z := part I.numRounds f4 [] e) (CS := part I.numRounds f2 [] e) (hl _ _) (hl _ _) (hl _ _) (hl _ _)
  rw [this, ok_bind]
  dsimp only
  rw [hrow, hrow, ← part_set I.numRounds f1, ← part_set I.numRounds f2, ← part_set I.numRounds f3, ← part_set I.numRounds f4]
  have g3 : ((List.range I.m1).map fun j => psum (fun p => (A e p).getD j 0) I.numParties) = f3 e := by
    refine List.map_congr_left fun j hj => ?_
    unfold psum Ctx.sumA
    refine foldl_congr_mem _ _ _ (fun acc p _ => ?_) _
    dsimp only [A]
    rw [getD_range_map _ _ _ _ (List.mem_range.1 hj)]
  have g4 : ((List.range I.m1).map fun j => psum (fun p => (B e p).getD j 0) I.numParties) = f4 e := by
    refine List.map_congr_left fun j hj => ?_
    unfold psum Ctx.sumB
    refine foldl_congr_mem _ _ _ (fun acc p _ => ?_) _
    dsimp only [B]
    rw [getD_range_map _ _ _ _ (List.mem_range.1 hj)]
  rw [g3, g4]
  rfl

end Banquet.Loops
