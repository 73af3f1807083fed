import Verif.Proofs.LoopsAes

/-! Closed forms of the parts of Model/Loops.lean that sign and verify share. -/

namespace Banquet.Loops

variable {α : Type}

/-- A vector of which the first `n` elements have been written. -/
def pre (n : Nat) (g : Nat → α) (v : List α) : List α := (List.range n).map g ++ v.drop n

theorem pre_zero (g : Nat → α) (v : List α) : pre 0 g v = v := by simp [pre]

theorem pre_full {n : Nat} (g : Nat → α) {v : List α} (h : v.length = n) : pre n g v = (List.range n).map g := by simp [pre, ← h]

theorem pre_length {n : Nat} (g : Nat → α) {v : List α} (h : n ≤ v.length) : (pre n g v).length = v.length := by
  simp [pre]
  omega

theorem pre_set {n : Nat} (g : Nat → α) {v : List α} (h : n < v.length) : (pre n g v).set n (g n) = pre (n + 1) g v := by
  unfold pre
  rw [List.set_append_right _ _ (by simp), range_map_succ, List.append_assoc, List.length_map, List.length_range, Nat.sub_self, List.drop_eq_getElem_cons h]
  rfl

theorem pre_wr {n : Nat} (g : Nat → α) {v : List α} (h : n < v.length) : wr (pre n g v) n (g n) = .ok (pre (n + 1) g v) := by
  rw [wr_ok _ (by rw [pre_length _ h.le]; exact h), pre_set g h]

theorem pre_rd (n : Nat) (g : Nat → α) (v : List α) : rd (pre n g v) n = rd v n := by
  unfold rd pre
  rw [List.getElem?_append_right (by simp), List.length_map, List.length_range, Nat.sub_self, List.getElem?_drop, Nat.add_zero]

theorem pre_congr {n : Nat} {g g' : Nat → α} (v : List α) (h : ∀ i < n, g i = g' i) : pre n g v = pre n g' v := by
  unfold pre
  congr 1
  exact List.map_congr_left fun i hi => h i (List.mem_range.1 hi)

variable {T N : Nat}

theorem lifted_ok (F : FieldState) (I : Instance) {e p : Nat} (he : e < T) (hp : p < N) (s : Nat → Nat → Bytes) (hs : (s e p).length = I.aes.numSboxes) :
    lifted F I (of T N I.aes.numSboxes 0 s) e p = .ok ((List.range I.aes.numSboxes).map fun i => F.lift ((s e p).getD i 0)) := by
  unfold lifted
  refine forTo_push _ _ _ fun i hi => ?_
  rw [spanRd_of he hp hi hs, ok_bind]

theorem tape_split (F : FieldState) {I : Instance} (hF : F.byteSize = I.lambda) (t : Bytes) (pos off len : Nat) (h : off + I.lambda ≤ len) (hl : pos + len ≤ t.length) :
    fromPtr F (tapeBytes t pos len) off = .ok (F.fromBytes (tapeBytes t (pos + off) I.lambda)) := by
  unfold fromPtr tapeBytes
  rw [slice_length hl, hF, decide_eq_true h, require_true, ok_bind]
  unfold FieldState.fromBytes slice
  rw [hF, List.drop_take, List.drop_drop, List.take_take, List.take_take, Nat.min_eq_left (by omega), Nat.min_self]

/-- Row `j` of `sPrime`. -/
def sRow (F : FieldState) (I : Instance) (rs : List W64) (s tape : Bytes) (j : Nat) : List W64 :=
  ((List.range I.m2).map fun k => F.mul (rs.getD j 0) (F.lift (s.getD (j + I.m1 * k) 0))) ++ [F.fromBytes (tapeBytes tape (I.pointPos j) I.lambda)]

/-- Row `j` of `tPrime`. -/
def tRow (F : FieldState) (I : Instance) (t tape : Bytes) (j : Nat) : List W64 :=
  ((List.range I.m2).map fun k => F.lift (t.getD (j + I.m1 * k) 0)) ++ [F.fromBytes (tapeBytes tape (I.pointPos j + I.lambda) I.lambda)]

theorem pre_last {n : Nat} (g : Nat → α) (x : α) {v : List α} (h : v.length = n + 1) : (pre n g v).set n x = (List.range n).map g ++ [x] := by
  have h1 : n < v.length := by omega
  have := pre_set (fun i => if i = n then x else g i) h1
  rw [if_pos rfl, pre_full _ h, range_map_succ, if_pos rfl] at this
  rw [pre_congr (g' := fun i => if i = n then x else g i) v fun i hi => by rw [if_neg (by omega)], this]
  congr 1
  exact List.map_congr_left fun i hi => by rw [if_neg (by have := List.mem_range.1 hi; omega)]

theorem bars_ok (F : FieldState) {I : Instance} (hI : Spec.Consistent I) (hF : F.byteSize = I.lambda) (rss : List (List W64)) {e p j : Nat} (hr : e < rss.length) (hrl : (rss.getD e []).length = I.m1) (he : e < T) (hp : p < N)
    (hj : j < I.m1) (tape : Nat → Nat → Bytes) (ht : (tape e p).length = I.tapeSize) (s t : Bytes) (st : List W64 × List W64)
    (h1 : st.1.length = I.m2 + 1) (h2 : st.2.length = I.m2 + 1) :
    bars F I rss (of T N I.tapeSize 0 tape) e p ((List.range I.aes.numSboxes).map fun i => F.lift (s.getD i 0)) ((List.range I.aes.numSboxes).map fun i => F.lift (t.getD i 0)) j st =
      .ok (sRow F I (rss.getD e []) s (tape e p) j, tRow F I t (tape e p) j) := by
  obtain ⟨u, w⟩ := st
  dsimp only at h1 h2
  have hpos : I.pointPos j + 2 * I.lambda ≤ I.tapeSize := by
    unfold Instance.pointPos Instance.tapeSize
    have : (j + 1) * (2 * I.lambda) ≤ I.m1 * (2 * I.lambda) := Nat.mul_le_mul_right _ hj
    have e1 : 2 * I.m1 * I.lambda = I.m1 * (2 * I.lambda) := by ring
    have e2 : j * 2 * I.lambda + 2 * I.lambda = (j + 1) * (2 * I.lambda) := by ring
    rw [e1]
    omega
  unfold bars
  have hloop : forTo I.m2 (fun k (st : List W64 × List W64) => do
      let r ← rd2 rss e j
      let x ← rd ((List.range I.aes.numSboxes).map fun i => F.lift (s.getD i 0)) (j + I.m1 * k)
      let sb ← wr st.1 k (F.mul r x)
      let y ← rd ((List.range I.aes.numSboxes).map fun i => F.lift (t.getD i 0)) (j + I.m1 * k)
      let tb ← wr st.2 k y
      .ok (sb, tb)) (u, w) = .ok (pre I.m2 (fun k => F.mul ((rss.getD e []).getD j 0) (F.lift (s.getD (j + I.m1 * k) 0))) u, pre I.m2 (fun k => F.lift (t.getD (j + I.m1 * k) 0)) w) := by
    refine forTo_state _ _ _ (fun n => (pre n (fun k => F.mul ((rss.getD e []).getD j 0) (F.lift (s.getD (j + I.m1 * k) 0))) u, pre n (fun k => F.lift (t.getD (j + I.m1 * k) 0)) w))
      (by rw [pre_zero, pre_zero]) fun k hk => ?_
    have hc : j + I.m1 * k < I.aes.numSboxes := by rw [← hI.sboxes]; exact col_lt hj hk
    have hrd : rd2 rss e j = .ok ((rss.getD e []).getD j 0) := by
      unfold rd2
      rw [rd_getD [] hr, ok_bind, rd_getD 0 (by omega)]
    dsimp only
    rw [hrd, ok_bind, rd_map _ _ hc, ok_bind, pre_wr (fun k => F.mul ((rss.getD e []).getD j 0) (F.lift (s.getD (j + I.m1 * k) 0))) (by omega), ok_bind, rd_map _ _ hc, ok_bind,
      pre_wr (fun k => F.lift (t.getD (j + I.m1 * k) 0)) (by omega), ok_bind]
  rw [hloop, ok_bind, getBytes_of he hp ht hpos, ok_bind, tape_split F hF _ _ _ _ (by omega) (by omega), ok_bind]
  dsimp only
  rw [wr_ok _ (by rw [pre_length _ (by omega)]; omega), ok_bind, tape_split F hF _ _ _ _ (by omega) (by omega), ok_bind, wr_ok _ (by rw [pre_length _ (by omega)]; omega), ok_bind,
    pre_last _ _ h1, pre_last _ _ h2]
  rfl

theorem pRaw_eq (F : FieldState) (I : Instance) (rs : List W64) (p : Nat) (tape : Bytes) : pRaw F I rs p tape = (List.range (2 * I.m2 + 1)).map fun k =>
    if k < I.m2 then (if p = 0 then (List.range I.m1).foldl (fun acc j => gfAdd acc (rs.getD j 0)) 0 else 0) else F.fromBytes (tapeBytes tape (I.pPos + (k - I.m2) * I.lambda) I.lambda) := by
  have hr : List.range (2 * I.m2 + 1) = List.range I.m2 ++ (List.range (I.m2 + 1)).map fun x => I.m2 + x := by rw [show 2 * I.m2 + 1 = I.m2 + (I.m2 + 1) by omega, List.range_add (n := I.m2) (m := I.m2 + 1)]
  unfold pRaw
  dsimp only
  rw [hr, List.map_append, List.map_map]
  congr 1
  · exact List.map_congr_left fun k hk => by rw [if_pos (List.mem_range.1 hk)]
  · refine List.map_congr_left fun k hk => ?_
    dsimp only [Function.comp]
    rw [if_neg (by omega), Nat.add_sub_cancel_left]

theorem resized_length (v : List α) (n : Nat) (z : α) : (resized v n z).length = n := by
  unfold resized
  simp
  omega

theorem pParty_ok (F : FieldState) {I : Instance} (hF : F.byteSize = I.lambda) (rss : List (List W64)) {e p : Nat} (hr : e < rss.length) (hrl : (rss.getD e []).length = I.m1) (he : e < T) (hp : p < N)
    (tape : Nat → Nat → Bytes) (ht : (tape e p).length = I.tapeSize) (ps : List (List W64)) (hps : p < ps.length) :
    pParty F I rss (of T N I.tapeSize 0 tape) e p ps = .ok (ps.set p (pRaw F I (rss.getD e []) p (tape e p))) := by
  have hpos : I.pPos + (I.m2 + 1) * I.lambda ≤ I.tapeSize := by
    unfold Instance.pPos Instance.tapeSize
    have e1 : 2 * I.m1 * I.lambda = I.m1 * 2 * I.lambda := by ring
    rw [e1]
  unfold pParty
  rw [rd_getD [] hps, ok_bind, wr_ok _ hps, ok_bind]
  generalize hv : resized (ps.getD p []) (2 * I.m2 + 1) 0 = v
  have hvl : v.length = 2 * I.m2 + 1 := by rw [← hv, resized_length]
  rw [pRaw_eq]
  generalize hg : (fun k => if k < I.m2 then (if p = 0 then (List.range I.m1).foldl (fun acc j => gfAdd acc ((rss.getD e []).getD j 0)) 0 else 0)
    else F.fromBytes (tapeBytes (tape e p) (I.pPos + (k - I.m2) * I.lambda) I.lambda)) = g
  have hg1 : ∀ k < I.m2, g k = if p = 0 then (List.range I.m1).foldl (fun acc j => gfAdd acc ((rss.getD e []).getD j 0)) 0 else 0 := fun k hk => by rw [← hg]; exact if_pos hk
  have hg2 : ∀ k, g (I.m2 + k) = F.fromBytes (tapeBytes (tape e p) (I.pPos + k * I.lambda) I.lambda) := fun k => by
    rw [← hg]
    dsimp only
    rw [if_neg (by omega), Nat.add_sub_cancel_left]
  have step : ∀ k < 2 * I.m2 + 1, wr2 (ps.set p (pre k g v)) p k (g k) = .ok (ps.set p (pre (k + 1) g v)) := fun k hk => wr2_set hps (pre_wr g (by omega))
  have first : ∀ x, (∀ k < I.m2, g k = x) → forTo I.m2 (fun k ps => wr2 ps p k x) (ps.set p v) = .ok (ps.set p (pre I.m2 g v)) := fun x hx => by
    refine forTo_state _ _ _ (fun k => ps.set p (pre k g v)) (by rw [pre_zero]) fun k hk => ?_
    have := step k (by omega)
    rwa [hx k hk] at this
  have hsum : forTo I.m1 (fun j acc => do
      let r ← rd2 rss e j
      .ok (gfAdd acc r)) (0 : W64) = .ok ((List.range I.m1).foldl (fun acc j => gfAdd acc ((rss.getD e []).getD j 0)) 0) := by
    refine forTo_foldl _ _ _ _ fun j hj acc => ?_
    unfold rd2
    rw [rd_getD [] hr, ok_bind, rd_getD 0 (by omega), ok_bind]
  have hfirst : pFirst I rss e p (ps.set p v) = .ok (ps.set p (pre I.m2 g v)) := by
    unfold pFirst
    split
    · rename_i h0
      rw [hsum, ok_bind]
      exact first _ fun k hk => by rw [hg1 k hk, if_pos h0]
    · rename_i h0
      exact first _ fun k hk => by rw [hg1 k hk, if_neg h0]
  rw [hfirst, ok_bind, getBytes_of he hp ht hpos, ok_bind, forStep_one]
  refine (forTo_state _ _ _ (fun k => ps.set p (pre (I.m2 + k) g v)) rfl fun k hk => ?_).trans ?_
  · have hk' : k < I.m2 + 1 := by omega
    have hm : k * I.lambda + I.lambda ≤ (I.m2 + 1) * I.lambda := by
      rw [← Nat.succ_mul]
      exact Nat.mul_le_mul_right _ hk'
    rw [Nat.add_sub_cancel_left, tape_split F hF _ _ _ _ hm (by omega), ok_bind, ← hg2 k]
    exact step (I.m2 + k) (by omega)
  · rw [show I.m2 + (2 * I.m2 + 1 - I.m2) = 2 * I.m2 + 1 by omega, pre_full g hvl]

theorem lags_ok (F : FieldState) (n : Nat) (polys : List (List W64)) (hp : n ≤ polys.length) (R : W64) (l : List W64) (hl : l.length = n) : lags F n polys R l = .ok (lagAt F polys n R) := by
  unfold lags lagAt
  refine (forTo_state _ _ _ (fun k => pre k (fun k => F.eval (polys.getD k []) R) l) (by rw [pre_zero]) fun k hk => ?_).trans (by rw [pre_full _ hl])
  rw [rd_getD [] (by omega), ok_bind, pre_wr (fun k => F.eval (polys.getD k []) R) (by omega)]

theorem accum_ok (F : FieldState) (I : Instance) (a b : List W64) (ha : a.length = I.m1) (hb : b.length = I.m1) : accum F I a b = .ok (sumProducts F I a b) := by
  unfold accum sumProducts
  refine forTo_foldl _ _ _ _ fun j hj acc => ?_
  rw [rd_getD 0 (by omega), ok_bind, rd_getD 0 (by omega), ok_bind]

/-! ## Hash inputs -/

theorem phase1Bytes_ok (I : Instance) (salt pk msg : Bytes) (C B : Nat → Nat → Bytes) (kd td : List Bytes) (hC : ∀ e < I.numRounds, ∀ p < I.numParties, (C e p).length = I.digestSize)
    (hB : ∀ e < I.numRounds, ∀ p < I.numParties, (B e p).length = I.ctSize) (hk : kd.length = I.numRounds) (ht : td.length = I.numRounds) :
    phase1Bytes I salt pk msg (of I.numRounds I.numParties I.digestSize 0 C) kd td (of I.numRounds I.numParties I.ctSize 0 B) =
      .ok (phase1Input I salt pk msg ((List.range I.numRounds).map fun e => ⟨(List.range I.numParties).map (C e), (List.range I.numParties).map (B e), kd.getD e [], td.getD e []⟩)) := by
  unfold phase1Bytes phase1Input
  rw [List.flatMap_map]
  refine forTo_append _ _ _ _ fun e he acc => ?_
  rw [forTo_append _ _ (fun p => C e p ++ B e p) acc fun p hp acc => by rw [get_of he hp (hC e he p hp), ok_bind, get_of he hp (hB e he p hp), ok_bind, List.append_assoc], ok_bind,
    rd_getD [] (by omega), ok_bind, rd_getD [] (by omega), ok_bind]
  unfold Rep1Hash.bytes
  dsimp only
  rw [List.append_assoc, List.append_assoc, List.append_assoc]
  congr 3
  simp only [List.flatMap_def]
  congr 1
  refine List.map_congr_left fun p hp => ?_
  rw [getD_range_map _ _ _ _ (List.mem_range.1 hp), getD_range_map _ _ _ _ (List.mem_range.1 hp)]

theorem phase2Bytes_ok (F : FieldState) (I : Instance) (salt h1 : Bytes) (d : List (List W64)) (hd : d.length = I.numRounds) (hl : ∀ x ∈ d, I.m2 ≤ x.length) :
    phase2Bytes F I salt h1 d = .ok (phase2Input F I salt h1 d) := by
  unfold phase2Bytes phase2Input
  have hdm : d.flatMap (fun d => (List.range I.m2).flatMap fun k => gfHash F (d.getD k 0)) = (List.range I.numRounds).flatMap fun e => (List.range I.m2).flatMap fun k => gfHash F ((d.getD e []).getD k 0) := by
    conv_lhs => rw [eq_range_map d I.numRounds [] hd]
    rw [List.flatMap_map]
  rw [hdm]
  refine forTo_append _ _ _ _ fun e he acc => forTo_append _ _ _ _ fun k hk acc => ?_
  have h2 := hl (d.getD e []) (by rw [getD_of_lt (by omega)]; exact List.getElem_mem _)
  unfold rd2
  rw [rd_getD [] (by omega), ok_bind, rd_getD 0 (by omega), ok_bind]

theorem phase3Bytes_ok (F : FieldState) (I : Instance) (salt h2 : Bytes) (c : Nat → W64) (cS a b : Nat → List W64) (A B : Nat → Nat → List W64)
    (hc : ∀ e < I.numRounds, (cS e).length = I.numParties) (ha : ∀ e < I.numRounds, (a e).length = I.m1) (hb : ∀ e < I.numRounds, (b e).length = I.m1)
    (hA : ∀ e < I.numRounds, ∀ p < I.numParties, (A e p).length = I.m1) (hB : ∀ e < I.numRounds, ∀ p < I.numParties, (B e p).length = I.m1) :
    phase3Bytes F I salt h2 ⟨(List.range I.numRounds).map c, (List.range I.numRounds).map cS, (List.range I.numRounds).map a, (List.range I.numRounds).map b,
      of I.numRounds I.numParties I.m1 0 A, of I.numRounds I.numParties I.m1 0 B⟩ =
      .ok (phase3Input F I salt h2 ((List.range I.numRounds).map fun e => ⟨c e, cS e, a e, b e, (List.range I.numParties).map (A e), (List.range I.numParties).map (B e)⟩)) := by
  unfold phase3Bytes phase3Input
  rw [List.flatMap_map]
  refine forTo_append _ _ _ _ fun e he acc => ?_
  dsimp only
  rw [rd_map _ _ he, ok_bind, forTo_append _ _ (fun p => gfHash F ((cS e).getD p 0)) _ fun p hp acc => by rw [rd2_map _ _ _ he, rd_getD 0 (by rw [hc e he]; exact hp), ok_bind], ok_bind,
    forTo_append _ _ (fun j => gfHash F ((a e).getD j 0) ++ gfHash F ((b e).getD j 0) ++ (List.range I.numParties).flatMap fun p => gfHash F ((A e p).getD j 0) ++ gfHash F ((B e p).getD j 0)) _ fun j hj acc => by
      rw [rd2_map _ _ _ he, rd_getD 0 (by rw [ha e he]; exact hj), ok_bind, rd2_map _ _ _ he, rd_getD 0 (by rw [hb e he]; exact hj), ok_bind,
        forTo_append _ _ (fun p => gfHash F ((A e p).getD j 0) ++ gfHash F ((B e p).getD j 0)) _ fun p hp acc => by
          rw [spanRd_of he hp hj (hA e he p hp), ok_bind, spanRd_of he hp hj (hB e he p hp), ok_bind, List.append_assoc]]
      simp only [List.append_assoc]]
  unfold Rep3.bytes
  dsimp only
  simp only [List.append_assoc]
  congr 4
  simp only [List.flatMap_def]
  congr 1
  refine List.map_congr_left fun j _ => ?_
  congr 3
  refine List.map_congr_left fun p hp => ?_
  rw [getD_range_map _ _ _ _ (List.mem_range.1 hp), getD_range_map _ _ _ _ (List.mem_range.1 hp)]

end Banquet.Loops
