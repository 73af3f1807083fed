import Verif.Proofs.LoopsVerify

/-! Closed forms of the last loops of `banquet_verify` (Model/Loops.lean). -/

namespace Banquet.Loops

open Spec

variable {T N : Nat}

theorem part_skip {α : Type} (n : Nat) (f : Nat → α) (z : α) (i : Nat) (h : f i = z) : part n f z (i + 1) = part n f z i := by
  unfold part
  refine List.map_congr_left fun k _ => ?_
  by_cases hk : k = i
  · subst hk
    rw [if_pos (by omega), if_neg (by omega), h]
  · split_ifs <;> first | rfl | omega

/-- One opened party. -/
theorem verPoints_ok (F : FieldState) {I : Instance} (hI : Consistent I) (hF : F.byteSize = I.lambda) (rss : List (List W64)) {e p : Nat} (hr : e < rss.length) (hrl : (rss.getD e []).length = I.m1) (he : e < T) (hp : p < I.numParties)
    (tape s t : Nat → Nat → Bytes) (ht : (tape e p).length = I.tapeSize) (hs : (s e p).length = I.aes.numSboxes) (hts : (t e p).length = I.aes.numSboxes)
    {A B : List (List (List (List W64)))} (hA : e < A.length) (hB : e < B.length) (f g : Nat → List (List W64)) (hf : f p = (List.range I.m1).map (sRow F I (rss.getD e []) (s e p) (tape e p)))
    (hg : g p = (List.range I.m1).map (tRow F I (t e p) (tape e p))) :
    verPoints F I rss (of T I.numParties I.tapeSize 0 tape) (of T I.numParties I.aes.numSboxes 0 s) (of T I.numParties I.aes.numSboxes 0 t) e p (A.set e (part I.numParties f [] p), B.set e (part I.numParties g [] p)) =
      .ok (A.set e (part I.numParties f [] (p + 1)), B.set e (part I.numParties g [] (p + 1))) := by
  set SR : Nat → List W64 := sRow F I (rss.getD e []) (s e p) (tape e p) with hSR
  set TR : Nat → List W64 := tRow F I (t e p) (tape e p) with hTR
  have hSl : ∀ j, (SR j).length = I.m2 + 1 := fun j => sRow_length _ _ _ _ _ _
  have hTl : ∀ j, (TR j).length = I.m2 + 1 := fun j => tRow_length _ _ _ _ _
  have hnil : ∀ {β : Type} (n : Nat) (f : Nat → β) (z : β), resized [] n z = part n f z 0 := by
    intro β n f z
    rw [resized_rep, part_zero]
  unfold verPoints
  dsimp only
  rw [rd2_set _ _ hA, part_rd _ _ _ _ hp, ok_bind, wr2_set hA (wr_ok _ (by rw [part_length]; exact hp)), ok_bind, rd2_set _ _ hB, part_rd _ _ _ _ hp, ok_bind,
    wr2_set hB (wr_ok _ (by rw [part_length]; exact hp)), ok_bind, lifted_ok F I he hp s hs, ok_bind, lifted_ok F I he hp t hts, ok_bind, hnil _ SR]
  conv_lhs => enter [1, 3, 1, 2]; rw [show part I.m1 SR [] 0 = part I.m1 TR [] 0 by rw [part_zero, part_zero]]
  rw [forTo_state _ _ _ (fun j => ((A.set e ((part I.numParties f [] p).set p (part I.m1 SR [] j)), B.set e ((part I.numParties g [] p).set p (part I.m1 TR [] j))),
      bar (List.replicate (I.m2 + 1) 0) SR j, bar (List.replicate (I.m2 + 1) 0) TR j)) (by rfl) (fun j hj => by
      dsimp only
      rw [bars_ok F hI hF rss hr hrl he hp hj tape ht (s e p) (t e p) _ (bar_length (by simp) hSl j) (bar_length (by simp) hTl j), ok_bind]
      dsimp only
      have e1 : sRow F I (rss.getD e []) (s e p) (tape e p) j = SR j := rfl
      have e2 : tRow F I (t e p) (tape e p) j = TR j := rfl
      rw [e1, e2, wr3_set hA (part_row _ SR hp hj), ok_bind, wr3_set hB (part_row _ TR hp hj), ok_bind]
      rfl), ok_bind]
  dsimp only
  rw [part_full, part_full, ← hf, ← hg, part_set, part_set]

/-- Correction of the first party's share of `P`. -/
theorem verAdjust_ok {I : Instance} (hN : 0 < I.numParties) (m : Nat) (d : List W64) (hd : d.length = I.m2 + 1) (raw : Nat → List W64) (hraw : ∀ p, (raw p).length = 2 * I.m2 + 1) :
    verAdjust I m d ((List.range I.numParties).map fun p => if p = m then [] else raw p) =
      .ok ((List.range I.numParties).map fun p => if p = m then [] else if p = 0 then addDeltas I d (raw p) else raw p) := by
  unfold verAdjust
  by_cases hm : 0 = m
  · rw [if_neg (fun h => h hm)]
    congr 1
    refine List.map_congr_left fun p _ => ?_
    split_ifs <;> first | rfl | omega
  · rw [if_pos hm, forStep_one, show 2 * I.m2 + 1 - I.m2 = I.m2 + 1 by omega]
    set v := (List.range I.numParties).map fun p => if p = m then [] else raw p with hv
    have h0 : 0 < v.length := by simpa [hv] using hN
    rw [forTo_state _ _ _ (fun i => v.set 0 (adj I (raw 0) (fun k => d.getD k 0) i)) (by
        rw [adj_zero _ _ _ (hraw 0), hv, set_range_map]
        refine List.map_congr_left fun p _ => ?_
        split_ifs with h1 h2 h2
        · omega
        · rfl
        · rw [h2]
        · rfl) (fun i hi => by
      rw [rd2_set _ _ h0, adj_rd _ _ _ hi, ok_bind, Nat.add_sub_cancel_left, rd_getD 0 (by omega), ok_bind, wr2_set h0 (adj_wr I (raw 0) (fun k => d.getD k 0) hi)]), adj_full, ← eq_range_map d _ _ hd, hv, set_range_map]
    congr 1
    refine List.map_congr_left fun p _ => ?_
    split_ifs with h1 h2 h2
    · omega
    · rw [h1]
    · rfl
    · rfl

/-- The loop of banquet.cpp:987-1086. -/
theorem verPolysAll_ok (F : FieldState) {I : Instance} (hI : Consistent I) (hF : F.byteSize = I.lambda) (pt : Bytes) (sig : Signature) (hsl : sig.proofs.length = I.numRounds) {missing : List Nat} (hml : missing.length = I.numRounds)
    (rss : List (List W64)) (hr : rss.length = I.numRounds) (hrl : ∀ e < I.numRounds, (rss.getD e []).length = I.m1) (c : Nat → Ctx)
    (ht : ∀ e < I.numRounds, ∀ p < I.numParties, ((c e).tape p).length = I.tapeSize) (hts : ∀ e < I.numRounds, ∀ p < I.numParties, ((c e).t I p).length = I.aes.numSboxes)
    (hd : ∀ e < I.numRounds, (prf sig e).pDelta = (c e).pDelta ∧ (c e).pDelta.length = I.m2 + 1) :
    forTo I.numRounds (verPolys F I sig missing rss (of I.numRounds I.numParties I.tapeSize 0 fun e p => (c e).tape p) (of I.numRounds I.numParties I.aes.numSboxes 0 fun e p => ((c e).out I pt p).1)
      (of I.numRounds I.numParties I.aes.numSboxes 0 fun e p => (c e).t I p)) (VerPolys.start I.numRounds) =
      .ok ⟨(List.range I.numRounds).map fun e => (List.range I.numParties).map fun p => if p = missing.getD e 0 then [] else (c e).sPts F I pt (rss.getD e []) p,
        (List.range I.numRounds).map fun e => (List.range I.numParties).map fun p => if p = missing.getD e 0 then [] else (c e).tPts F I p,
        (List.range I.numRounds).map fun e => (List.range I.numParties).map fun p => if p = missing.getD e 0 then [] else (c e).pPts F I (rss.getD e []) p⟩ := by
  have hN : 0 < I.numParties := by have := (parties_bounds hI).1; omega
  let a : Nat → Nat → List (List W64) := fun e p => if p = missing.getD e 0 then [] else (c e).sPts F I pt (rss.getD e []) p
  let b : Nat → Nat → List (List W64) := fun e p => if p = missing.getD e 0 then [] else (c e).tPts F I p
  let q : Nat → Nat → List W64 := fun e p => if p = missing.getD e 0 then [] else (c e).pPts F I (rss.getD e []) p
  let sP : Nat → List (List (List W64)) := fun e => (List.range I.numParties).map (a e)
  let tP : Nat → List (List (List W64)) := fun e => (List.range I.numParties).map (b e)
  let pS : Nat → List (List W64) := fun e => (List.range I.numParties).map (q e)
  refine (forTo_state _ _ _ (fun e => ⟨part I.numRounds sP [] e, part I.numRounds tP [] e, part I.numRounds pS [] e⟩) (by simp only [part_zero]; rfl) fun e he => ?_).trans (by simp only [part_full]; rfl)
  have hl : ∀ {β : Type} (f : Nat → List β), e < (part I.numRounds f [] e).length := fun f => by rw [part_length]; exact he
  have hw : ∀ {β : Type} (f : Nat → List β) (x : List β), wr (part I.numRounds f [] e) e x = .ok ((part I.numRounds f [] e).set e x) := fun f x => wr_ok _ (hl f)
  unfold verPolys
  dsimp only
  rw [rd_getD noProof (by omega), ok_bind, part_rd _ _ _ _ he, ok_bind, hw, ok_bind, part_rd _ _ _ _ he, ok_bind, hw, ok_bind, rd_getD 0 (by omega), ok_bind, (hd e he).1,
    forTo_state _ _ _ (fun p => ((part I.numRounds sP [] e).set e (part I.numParties (a e) [] p), (part I.numRounds tP [] e).set e (part I.numParties (b e) [] p))) (by rw [part_zero, part_zero, resized_rep]) (fun p hp => by
      by_cases hm : p = missing.getD e 0
      · rw [if_neg (fun h => h hm), part_skip _ _ _ _ (by simp only [a]; rw [if_pos hm]), part_skip _ _ _ _ (by simp only [b]; rw [if_pos hm])]
      · rw [if_pos hm, verPoints_ok F hI hF rss (by omega : e < rss.length) (hrl e he) he hp (fun e p => (c e).tape p) (fun e p => ((c e).out I pt p).1) (fun e p => (c e).t I p) (ht e he p hp) (out_length hI (c e) pt p).1
          (hts e he p hp) (hl _) (hl _) (a e) (b e) (by simp only [a]; rw [if_neg hm]; rfl) (by simp only [b]; rw [if_neg hm]; rfl)]), ok_bind]
  dsimp only
  let raw : Nat → List W64 := fun p => pRaw F I (rss.getD e []) p ((c e).tape p)
  rw [part_full, part_full, part_rd _ _ _ _ he, ok_bind, forTo_state _ _ _ (fun p => part I.numParties (fun p => if p = missing.getD e 0 then [] else raw p) [] p) (by rw [part_zero, resized_rep]) (fun p hp => by
      by_cases hm : p = missing.getD e 0
      · rw [if_neg (fun h => h hm), part_skip _ _ _ _ (by rw [if_pos hm])]
      · rw [if_pos hm, pParty_ok F hF rss (by omega : e < rss.length) (hrl e he) he hp (fun e p => (c e).tape p) (ht e he p hp) _ (by rw [part_length]; exact hp)]
        have := part_set I.numParties (fun p => if p = missing.getD e 0 then [] else raw p) [] p
        rw [if_neg hm] at this
        exact congrArg Except.ok this), ok_bind, part_full, verAdjust_ok hN _ _ (hd e he).2 raw (fun p => length_pRaw _ _ _ _ _), ok_bind, hw, ok_bind,
    ← part_set I.numRounds sP, ← part_set I.numRounds tP, ← part_set I.numRounds pS]
  rfl

/-! ## Opened shares -/

theorem mix_set {α : Type} {n j : Nat} (f' f : Nat → α) (h : j < n) : (mix n f' f j).set j (f' j) = mix n f' f (j + 1) := by
  have h1 := mix_wr f' f h
  rw [wr_ok _ (by simpa [mix] using h)] at h1
  injection h1

theorem mix_length {α : Type} (n : Nat) (f' f : Nat → α) (j : Nat) : (mix n f' f j).length = n := by simp [mix]

theorem mix_getD {n j : Nat} (f' f : Nat → W64) (h : j < n) : (mix n f' f j).getD j 0 = f j := by
  unfold mix
  rw [getD_range_map _ _ _ _ h, if_neg (by omega)]

theorem upd_other {α : Type} (f : Nat → Nat → List α) (e p m : Nat) (v : List α) (h : p ≠ m) : upd f e m v e p = f e p := by
  unfold upd
  rw [if_neg (fun c => h c.2)]

/-- Adding the shares of party `p` to those of party `m` (banquet.cpp:1147-1156). -/
theorem addSlot_ok (k : Nat) {e p m : Nat} (he : e < T) (hp : p < N) (hm : m < N) (hne : p ≠ m) (f g : Nat → Nat → List W64) (u d w x : Nat → W64) (h1 : f e m = (List.range k).map u) (h2 : f e p = (List.range k).map d)
    (h3 : g e m = (List.range k).map w) (h4 : g e p = (List.range k).map x) :
    forTo k (fun j (st : RepContainer W64 × RepContainer W64) => do
        let x ← spanRd st.1 e m j
        let dx ← spanRd st.1 e p j
        let aS ← spanWr st.1 e m j (gfAdd x dx)
        let y ← spanRd st.2 e m j
        let dy ← spanRd st.2 e p j
        let bS ← spanWr st.2 e m j (gfAdd y dy)
        .ok (aS, bS)) (of T N k 0 f, of T N k 0 g) =
      .ok (of T N k 0 (upd f e m ((List.range k).map fun j => gfAdd (u j) (d j))), of T N k 0 (upd g e m ((List.range k).map fun j => gfAdd (w j) (x j)))) := by
  refine (forTo_state _ _ _ (fun j => (of T N k 0 (upd f e m (mix k (fun j => gfAdd (u j) (d j)) u j)), of T N k 0 (upd g e m (mix k (fun j => gfAdd (w j) (x j)) w j))))
    (by rw [mix_zero, mix_zero, ← h1, ← h3, upd_self, upd_self]) fun j hj => ?_).trans (by rw [mix_full, mix_full])
  have step : ∀ (f : Nat → Nat → List W64) (u d : Nat → W64), f e p = (List.range k).map d → spanRd (of T N k 0 (upd f e m (mix k (fun j => gfAdd (u j) (d j)) u j))) e m j = .ok (u j) ∧
      spanRd (of T N k 0 (upd f e m (mix k (fun j => gfAdd (u j) (d j)) u j))) e p j = .ok (d j) ∧
      spanWr (of T N k 0 (upd f e m (mix k (fun j => gfAdd (u j) (d j)) u j))) e m j (gfAdd (u j) (d j)) = .ok (of T N k 0 (upd f e m (mix k (fun j => gfAdd (u j) (d j)) u (j + 1)))) := by
    intro f u d h
    refine ⟨?_, ?_, ?_⟩
    · rw [spanRd_of he hm hj (by rw [upd_same, mix_length]), upd_same, mix_getD _ _ hj]
    · rw [spanRd_of he hp hj (by rw [upd_other _ _ _ _ _ hne, h]; simp), upd_other _ _ _ _ _ hne, h, getD_range_map _ _ _ _ hj]
    · rw [spanWr_of he hm hj (by rw [upd_same, mix_length]), upd_same, upd_upd]
      exact congrArg (fun v => Except.ok (of T N k 0 (upd f e m v))) (mix_set (fun j => gfAdd (u j) (d j)) u hj)
  obtain ⟨a1, a2, a3⟩ := step f u d h2
  obtain ⟨b1, b2, b3⟩ := step g w x h4
  dsimp only
  rw [a1, ok_bind, a2, ok_bind, a3, ok_bind, b1, ok_bind, b2, ok_bind, b3, ok_bind]

/-- The loop of banquet.cpp:1103-1158. -/
theorem verViewsAll_ok (F : FieldState) {I : Instance} (pt : Bytes) (c : Nat → Ctx) (rs : Nat → List W64) (sig : Signature) (hsl : sig.proofs.length = I.numRounds)
    (hsh : ∀ e < I.numRounds, (prf sig e).sAtR.length = I.m1 ∧ (prf sig e).tAtR.length = I.m1) {missing : List Nat} (hml : missing.length = I.numRounds)
    (hlt : ∀ e < I.numRounds, missing.getD e 0 < I.numParties) (Rs : List W64) (hRs : Rs.length = I.numRounds) (h1 : I.m2 + 1 ≤ (precomp F I).lagM2.length)
    (h2 : 2 * I.m2 + 1 ≤ (precomp F I).lag2M2.length) : ∃ l, forTo I.numRounds (verViews F I sig missing (precomp F I).lagM2 (precomp F I).lag2M2 Rs
      ⟨(List.range I.numRounds).map fun e => (List.range I.numParties).map fun p => if p = missing.getD e 0 then [] else (c e).sPts F I pt (rs e) p,
        (List.range I.numRounds).map fun e => (List.range I.numParties).map fun p => if p = missing.getD e 0 then [] else (c e).tPts F I p,
        (List.range I.numRounds).map fun e => (List.range I.numParties).map fun p => if p = missing.getD e 0 then [] else (c e).pPts F I (rs e) p⟩)
      (Views.start I, List.replicate (I.m2 + 1) 0, List.replicate (2 * I.m2 + 1) 0) =
      .ok (⟨(List.range I.numRounds).map fun e => (prf sig e).pAtR, (List.range I.numRounds).map fun e => ((c e).verHash3 F I pt (rs e) (Rs.getD e 0) (prf sig e) (missing.getD e 0)).cShares,
        (List.range I.numRounds).map fun e => (prf sig e).sAtR, (List.range I.numRounds).map fun e => (prf sig e).tAtR,
        of I.numRounds I.numParties I.m1 0 fun e p => (List.range I.m1).map fun j => if p = missing.getD e 0 then
          others (fun acc q => gfAdd acc ((c e).a F I pt (rs e) (Rs.getD e 0) q j)) (missing.getD e 0) ((prf sig e).sAtR.getD j 0) I.numParties else (c e).a F I pt (rs e) (Rs.getD e 0) p j,
        of I.numRounds I.numParties I.m1 0 fun e p => (List.range I.m1).map fun j => if p = missing.getD e 0 then
          others (fun acc q => gfAdd acc ((c e).b F I (Rs.getD e 0) q j)) (missing.getD e 0) ((prf sig e).tAtR.getD j 0) I.numParties else (c e).b F I (Rs.getD e 0) p j⟩, l) := by
  let zr : Nat → Nat → List W64 := fun _ _ => List.replicate I.m1 0
  let A : Nat → Nat → List W64 := fun e p => (List.range I.m1).map fun j => if p = missing.getD e 0 then
          others (fun acc q => gfAdd acc ((c e).a F I pt (rs e) (Rs.getD e 0) q j)) (missing.getD e 0) ((prf sig e).sAtR.getD j 0) I.numParties else (c e).a F I pt (rs e) (Rs.getD e 0) p j
  let B : Nat → Nat → List W64 := fun e p => (List.range I.m1).map fun j => if p = missing.getD e 0 then
          others (fun acc q => gfAdd acc ((c e).b F I (Rs.getD e 0) q j)) (missing.getD e 0) ((prf sig e).tAtR.getD j 0) I.numParties else (c e).b F I (Rs.getD e 0) p j
  let f1 : Nat → W64 := fun e => (prf sig e).pAtR
  let f2 : Nat → List W64 := fun e => (List.range I.numParties).map fun p => if p = missing.getD e 0 then
    others (fun acc q => gfAdd acc ((c e).pc F I (rs e) (Rs.getD e 0) q)) (missing.getD e 0) (prf sig e).pAtR I.numParties else (c e).pc F I (rs e) (Rs.getD e 0) p
  let f3 : Nat → List W64 := fun e => (prf sig e).sAtR
  let f4 : Nat → List W64 := fun e => (prf sig e).tAtR
  let L1 : Nat → List W64 := fun e => lagAt F (precomp F I).lagM2 (I.m2 + 1) (Rs.getD e 0)
  let L2 : Nat → List W64 := fun e => lagAt F (precomp F I).lag2M2 (2 * I.m2 + 1) (Rs.getD e 0)
  refine ⟨(bar (List.replicate (I.m2 + 1) 0) L1 I.numRounds, bar (List.replicate (2 * I.m2 + 1) 0) L2 I.numRounds), (forTo_state _ _ _ (fun e => ((⟨part I.numRounds f1 0 e, part I.numRounds f2 [] e, part I.numRounds f3 [] e, part I.numRounds f4 [] e, of I.numRounds I.numParties I.m1 0 (below zr e A),
    of I.numRounds I.numParties I.m1 0 (below zr e B)⟩ : Views), bar (List.replicate (I.m2 + 1) 0) L1 e, bar (List.replicate (2 * I.m2 + 1) 0) L2 e))
    (by rw [below_zero, below_zero, ← mk_zeros]; simp only [part_zero]; rfl) fun e he => ?_).trans (by rw [of_below_full, of_below_full]; simp only [part_full]; rfl)⟩
  have hl : ∀ {β : Type} (f : Nat → β) (z : β), e < (part I.numRounds f z e).length := fun f z => by rw [part_length]; exact he
  have hw : ∀ {β : Type} (f : Nat → β) (z x : β), wr (part I.numRounds f z e) e x = .ok ((part I.numRounds f z e).set e x) := fun f z x => wr_ok _ (hl f z)
  have hsp : ∀ p, ((c e).sPts F I pt (rs e) p).length = I.m1 := fun p => by simp [Ctx.sPts, sPrime]
  have htp : ∀ p, ((c e).tPts F I p).length = I.m1 := fun p => by simp [Ctx.tPts, tPrime]
  have hm := hlt e he
  obtain ⟨hsA, htA⟩ := hsh e he
  set m := missing.getD e 0 with hmdef
  let ca : Nat → Nat → W64 := (c e).a F I pt (rs e) (Rs.getD e 0)
  let cb : Nat → Nat → W64 := (c e).b F I (Rs.getD e 0)
  let cc : Nat → W64 := (c e).pc F I (rs e) (Rs.getD e 0)
  let G : Nat → List W64 := fun p => if p = m then List.replicate I.m1 0 else (List.range I.m1).map (ca p)
  let H : Nat → List W64 := fun p => if p = m then List.replicate I.m1 0 else (List.range I.m1).map (cb p)
  unfold verViews
  dsimp only
  rw [rd_getD noProof (by omega), ok_bind, rd_getD 0 (by omega), ok_bind, ← hmdef, rd_getD 0 (by omega), ok_bind,
    lags_ok F _ _ h1 _ _ (bar_length (by simp) (fun j => length_lagAt _ _ _ _) e), ok_bind, lags_ok F _ _ h2 _ _ (bar_length (by simp) (fun j => length_lagAt _ _ _ _) e), ok_bind,
    part_rd _ _ _ _ he, ok_bind, hw, ok_bind, part_rd _ _ _ _ he, ok_bind, hw, ok_bind, part_rd _ _ _ _ he, ok_bind, hw, ok_bind,
    forTo_state _ _ _ (fun n => ((part I.numRounds f2 [] e).set e (part I.numParties (fun p => if p = m then 0 else cc p) 0 n), of I.numRounds I.numParties I.m1 0 (rowUpd (below zr e A) e n G),
      of I.numRounds I.numParties I.m1 0 (rowUpd (below zr e B) e n H))) (by rw [rowUpd_zero, rowUpd_zero, part_zero, resized_rep]) (fun p hp => by
      by_cases hpm : p = m
      · rw [if_neg (fun h => h hpm), part_skip _ _ _ _ (by rw [if_pos hpm]), rowUpd_skip _ _ _ _ (by simp only [G]; rw [if_pos hpm]; simp [below, zr]), rowUpd_skip _ _ _ _ (by simp only [H]; rw [if_pos hpm]; simp [below, zr])]
      rw [if_pos hpm]
      dsimp only
      have hz : ∀ G K : Nat → Nat → List W64, (rowUpd (below zr e G) e p (K e) e p).length = I.m1 := fun G K => by simp [rowUpd, below, zr]
      rw [viewParty_ok F I he hp (lagAt F (precomp F I).lagM2 (I.m2 + 1) (Rs.getD e 0)) _ _ (fun j => ((c e).sPts F I pt (rs e) p).getD j []) (fun j => ((c e).tPts F I p).getD j []) (ca p)
        (cb p) (fun j hj => by
          rw [rd3_map _ _ _ _ he, rd2_map _ _ _ hp, if_neg hpm, rd_getD [] (by rw [hsp]; exact hj)]) (fun j hj => by
          rw [rd3_map _ _ _ _ he, rd2_map _ _ _ hp, if_neg hpm, rd_getD [] (by rw [htp]; exact hj)])
        (fun j hj => dot_eq F (by
          rw [length_lagAt]
          unfold Ctx.sPts
          rw [getD_sPrime _ _ _ _ _ _ hj]
          simp))
        (fun j hj => dot_eq F (by
          rw [length_lagAt]
          unfold Ctx.tPts
          rw [getD_tPrime _ _ _ _ _ hj]
          simp)) _ _ (hz A fun _ => G) (hz B fun _ => H), ok_bind]
      dsimp only
      have hpw := part_wr I.numParties (fun p => if p = m then 0 else cc p) 0 p hp
      rw [if_neg hpm] at hpw
      rw [rd2_map _ _ _ he, rd_map _ _ hp, ok_bind, if_neg hpm, dot_p, ok_bind, wr2_set (hl _ _) hpw, ok_bind, ← rowUpd_succ _ e p G, ← rowUpd_succ _ e p H]
      simp only [G, H, if_neg hpm]), ok_bind]
  dsimp only
  have hg : rowUpd (below zr e A) e I.numParties G e m = List.replicate I.m1 0 := by rw [rowUpd_in _ _ _ _ hm]; exact if_pos rfl
  have hh : rowUpd (below zr e B) e I.numParties H e m = List.replicate I.m1 0 := by rw [rowUpd_in _ _ _ _ hm]; exact if_pos rfl
  rw [part_full, hw, ok_bind, wr2_set (hl _ _) (wr_map I.numParties _ _ hm), ok_bind,
    forTo_state _ _ _ (fun j => ((part I.numRounds f3 [] e).set e (part I.m1 (fun j => (prf sig e).sAtR.getD j 0) 0 j),
      of I.numRounds I.numParties I.m1 0 (upd (rowUpd (below zr e A) e I.numParties G) e m (pre j (fun j => (prf sig e).sAtR.getD j 0) (rowUpd (below zr e A) e I.numParties G e m))),
      (part I.numRounds f4 [] e).set e (part I.m1 (fun j => (prf sig e).tAtR.getD j 0) 0 j),
      of I.numRounds I.numParties I.m1 0 (upd (rowUpd (below zr e B) e I.numParties H) e m (pre j (fun j => (prf sig e).tAtR.getD j 0) (rowUpd (below zr e B) e I.numParties H e m)))))
      (by rw [pre_zero, pre_zero, upd_self, upd_self, part_zero, part_zero, resized_rep]) (fun j hj => by
      dsimp only
      rw [rd_getD 0 (lt_of_lt_of_eq hj hsA.symm), ok_bind, wr2_set (hl _ _) (part_wr I.m1 (fun j => (prf sig e).sAtR.getD j 0) 0 j hj), ok_bind,
        spanRow_step he hm hj _ (by rw [hg]; simp) (fun j => (prf sig e).sAtR.getD j 0), ok_bind,
        rd_getD 0 (lt_of_lt_of_eq hj htA.symm), ok_bind, wr2_set (hl _ _) (part_wr I.m1 (fun j => (prf sig e).tAtR.getD j 0) 0 j hj), ok_bind,
        spanRow_step he hm hj _ (by rw [hh]; simp) (fun j => (prf sig e).tAtR.getD j 0), ok_bind]), ok_bind]
  dsimp only
  rw [part_full, part_full, pre_full _ (by rw [hg]; simp), pre_full _ (by rw [hh]; simp), upd_rowUpd _ _ _ _ hm, upd_rowUpd _ _ _ _ hm, ← eq_range_map _ _ _ hsA, ← eq_range_map _ _ _ htA]
  let GA : Nat → Nat → List W64 := fun n p => (List.range I.m1).map fun j => if p = m then others (fun acc q => gfAdd acc (ca q j)) m ((prf sig e).sAtR.getD j 0) n else ca p j
  let GB : Nat → Nat → List W64 := fun n p => (List.range I.m1).map fun j => if p = m then others (fun acc q => gfAdd acc (cb q j)) m ((prf sig e).tAtR.getD j 0) n else cb p j
  rw [forTo_state _ _ _ (fun n => ((part I.numRounds f2 [] e).set e ((List.range I.numParties).map fun p => if p = m then others (fun acc q => gfAdd acc (cc q)) m (prf sig e).pAtR n else cc p),
      of I.numRounds I.numParties I.m1 0 (rowUpd (below zr e A) e I.numParties (GA n)), of I.numRounds I.numParties I.m1 0 (rowUpd (below zr e B) e I.numParties (GB n))))
      (by
        refine Prod.ext ?_ (Prod.ext ?_ ?_)
        · dsimp only
          congr 1
          refine List.map_congr_left fun p _ => ?_
          split_ifs <;> rfl
        · refine congrArg (of I.numRounds I.numParties I.m1 0) (rowUpd_congr _ _ _ _ _ fun p _ => ?_)
          by_cases hpm : p = m
          · simp only [GA, if_pos hpm, others_zero]
            exact eq_range_map _ _ _ hsA
          · simp only [GA, G, if_neg hpm]
        · refine congrArg (of I.numRounds I.numParties I.m1 0) (rowUpd_congr _ _ _ _ _ fun p _ => ?_)
          by_cases hpm : p = m
          · simp only [GB, if_pos hpm, others_zero]
            exact eq_range_map _ _ _ htA
          · simp only [GB, H, if_neg hpm]) (fun p hp => by
      by_cases hpm : p = m
      · rw [if_neg (fun h => h hpm)]
        subst hpm
        simp only [GA, GB, others_skip]
      rw [if_pos hpm]
      dsimp only
      rw [rd2_set _ _ (hl _ _), rd_map _ _ hm, ok_bind, rd2_set _ _ (hl _ _), rd_map _ _ hp, ok_bind, if_pos rfl, if_neg hpm, wr2_set (hl _ _) (wr_map I.numParties _ _ hm), ok_bind,
        addSlot_ok I.m1 he hp hm hpm _ _ (fun j => others (fun acc q => gfAdd acc (ca q j)) m ((prf sig e).sAtR.getD j 0) p) (ca p) (fun j => others (fun acc q => gfAdd acc (cb q j)) m ((prf sig e).tAtR.getD j 0) p) (cb p)
          (by rw [rowUpd_in _ _ _ _ hm]; simp only [GA, if_true]) (by rw [rowUpd_in _ _ _ _ hp]; simp only [GA, if_neg hpm])
          (by rw [rowUpd_in _ _ _ _ hm]; simp only [GB, if_true]) (by rw [rowUpd_in _ _ _ _ hp]; simp only [GB, if_neg hpm]), ok_bind, upd_rowUpd _ _ _ _ hm, upd_rowUpd _ _ _ _ hm]
      dsimp only
      congr 1
      refine Prod.ext ?_ (Prod.ext ?_ ?_)
      · dsimp only
        congr 1
        refine List.map_congr_left fun q _ => ?_
        split_ifs
        · rw [others_succ _ _ hpm]
        · rfl
      · refine congrArg (of I.numRounds I.numParties I.m1 0) (rowUpd_congr _ _ _ _ _ fun q _ => ?_)
        by_cases hq : q = m
        · simp only [GA, if_pos hq, others_succ _ _ hpm]
        · simp only [GA, if_neg hq]
      · refine congrArg (of I.numRounds I.numParties I.m1 0) (rowUpd_congr _ _ _ _ _ fun q _ => ?_)
        by_cases hq : q = m
        · simp only [GB, if_pos hq, others_succ _ _ hpm]
        · simp only [GB, if_neg hq]), ok_bind]
  dsimp only
  rw [← of_below_succ zr A e, ← of_below_succ zr B e, ← part_set I.numRounds f1, ← part_set I.numRounds f2, ← part_set I.numRounds f3, ← part_set I.numRounds f4]
  rfl

end Banquet.Loops
