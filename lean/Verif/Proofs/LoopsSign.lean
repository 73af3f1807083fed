import Verif.Proofs.LoopsParts

/-! Closed forms of the loops of `banquet_sign` (Model/Loops.lean). -/

namespace Banquet.Loops

variable {α : Type}

/-- A vector that is being replaced from the front. -/
def mix (n : Nat) (f' f : Nat → α) (j : Nat) : List α := (List.range n).map fun i => if i < j then f' i else f i

theorem mix_zero (n : Nat) (f' f : Nat → α) : mix n f' f 0 = (List.range n).map f := by simp [mix]

theorem mix_full (n : Nat) (f' f : Nat → α) : mix n f' f n = (List.range n).map f' := by
  unfold mix
  exact List.map_congr_left fun i hi => by rw [if_pos (List.mem_range.1 hi)]

theorem mix_rd {n j : Nat} (f' f : Nat → α) (h : j < n) : rd (mix n f' f j) j = .ok (f j) := by
  unfold mix
  rw [rd_map _ _ h, if_neg (by omega)]

theorem mix_wr {n j : Nat} (f' f : Nat → α) (h : j < n) : wr (mix n f' f j) j (f' j) = .ok (mix n f' f (j + 1)) := by
  unfold mix
  rw [wr_map _ _ _ h]
  congr 1
  refine List.map_congr_left fun k _ => ?_
  split_ifs <;> first | rfl | omega | (subst k; rfl)

/-- Contents of a vector that every iteration overwrites. -/
def bar (z : α) (f : Nat → α) : Nat → α
  | 0 => z
  | j + 1 => f j

theorem com_eq (X : Xof) (I : Instance) (seed salt : Bytes) (e p : Nat) (h : seed.length = I.seedSize) : commitLane X I seed salt e p = commitSingle X I seed salt e p := by
  unfold commitLane commitSingle
  rw [List.take_of_length_le h.le]

/-- The loop of banquet.cpp:337-369. -/
theorem signTrees_ok (X : Xof) (I : Instance) (salt : Bytes) (root : Nat → Bytes) (tree : Nat → SeedTree) (sd : Nat → Nat → Bytes)
    (ht : ∀ e < I.numRounds, SeedTree.ofSeed X (root e) I.numParties salt e = .ok (tree e)) (hl : ∀ e < I.numRounds, ∀ p < I.numParties, leafValue (tree e) p = .ok (sd e p))
    (hs : ∀ e < I.numRounds, ∀ p < I.numParties, (sd e p).length = I.seedSize) :
    forTo I.numRounds (signTree X I salt ((List.range I.numRounds).map root)) ⟨[], .mk' 0 I.numRounds I.numParties I.digestSize, .mk' 0 I.numRounds I.numParties I.tapeSize⟩ =
      .ok ⟨(List.range I.numRounds).map tree, of I.numRounds I.numParties I.digestSize 0 fun e p => commitSingle X I (sd e p) salt e p,
        of I.numRounds I.numParties I.tapeSize 0 fun e p => genTape X I.tapeSize (sd e p) salt e p⟩ := by
  refine (forTo_state _ _ _ (fun e => ⟨(List.range e).map tree, of I.numRounds I.numParties I.digestSize 0 (below (fun _ _ => []) e fun e p => commitSingle X I (sd e p) salt e p),
        of I.numRounds I.numParties I.tapeSize 0 (below (fun _ _ => []) e fun e p => genTape X I.tapeSize (sd e p) salt e p)⟩) (by rw [below_zero, below_zero, mk_of, mk_of]; rfl) fun e he => ?_).trans
    (by rw [of_below_full, of_below_full])
  have hrd : rd ((List.range e).map tree ++ [tree e]) e = .ok (tree e) := by rw [← range_map_succ, rd_map _ _ (by omega)]
  unfold signTree
  dsimp only
  rw [rd_map _ _ he, ok_bind, ht e he, ok_bind, forStep_four,
    forTo_fill4 (g := fun p => commitSingle X I (sd e p) salt e p) I.numParties le_rfl _ he (fun p _ => squeeze_len _ _ _) _ (fun i hi c => by
      have h0 := hs e he (4 * i) (by omega)
      have h1 := hs e he (4 * i + 1) (by omega)
      have h2 := hs e he (4 * i + 2) (by omega)
      have h3 := hs e he (4 * i + 3) (by omega)
      rw [hrd, ok_bind, hl e he _ (by omega), ok_bind, hl e he _ (by omega), ok_bind, hl e he _ (by omega), ok_bind, hl e he _ (by omega), ok_bind]
      unfold commit4
      rw [decide_eq_true ⟨h0.ge, h1.ge, h2.ge, h3.ge⟩, require_true, ok_bind, com_eq X I _ _ _ _ h0, com_eq X I _ _ _ _ h1, com_eq X I _ _ _ _ h2, com_eq X I _ _ _ _ h3]), ok_bind, forStep_one,
    forTo_fillRest (g := fun p => commitSingle X I (sd e p) salt e p) _ I.numParties le_rfl (by omega) _ he (fun p _ => squeeze_len _ _ _) _ (fun i hi c => by
      rw [hrd, ok_bind, hl e he _ (by omega), ok_bind]), ok_bind,
    forTo_fill (g := fun p => genTape X I.tapeSize (sd e p) salt e p) I.numParties le_rfl _ he (fun p _ => squeeze_len _ _ _) _ (fun p hp c => by
      rw [hrd, ok_bind, hl e he _ hp, ok_bind]), ok_bind,
    of_below_succ _ (fun e p => commitSingle X I (sd e p) salt e p) e, of_below_succ _ (fun e p => genTape X I.tapeSize (sd e p) salt e p) e, ← range_map_succ]

theorem fix_row {T N k : Nat} (hN : 0 < N) {z : Byte} (f : Nat → Nat → Bytes) {e : Nat} (he : e < T) (g : Nat → Bytes) (hg : ∀ p < N, (g p).length = k) {d : Bytes} (hd : d.length = k) :
    xorInto (of T N k z (rowUpd f e N g)) e 0 d = .ok (of T N k z (rowUpd f e N fun p => if p = 0 then xorBytes d (g p) else g p)) := by
  rw [xorInto_of he hN hd (by rw [rowUpd_in _ _ _ _ hN]; exact hg 0 hN), rowUpd_in _ _ _ _ hN]
  congr 2
  funext e' p'
  unfold upd rowUpd
  split_ifs <;> first | rfl | omega | (rename_i h _; rw [h.2]) | skip
  all_goals simp_all

theorem foldl_xor_length {n k : Nat} (g : Nat → Bytes) (hg : ∀ p < n, (g p).length = k) (x : Bytes) (hx : x.length = k) : ((List.range n).foldl (fun d p => xorBytes (g p) d) x).length = k := by
  induction n with
  | zero => exact hx
  | succ n ih =>
    rw [List.range_succ, List.foldl_append]
    have := ih fun p hp => hg p (by omega)
    change (xorBytes (g n) _).length = k
    rw [length_xorBytes, hg n (by omega), this, Nat.min_self]

theorem tapeBytes_len {I : Instance} {t : Bytes} (ht : t.length = I.tapeSize) {start len : Nat} (h : start + len ≤ I.tapeSize) : (tapeBytes t start len).length = len := slice_length (by omega)

/-- Sharing of one value. -/
theorem signShare_ok {I : Instance} (hN : 0 < I.numParties) {T e start len : Nat} (he : e < T) (tape : Nat → Nat → Bytes) (ht : ∀ p < I.numParties, (tape e p).length = I.tapeSize) (h : start + len ≤ I.tapeSize)
    (x : Bytes) (hx : x.length = len) (f : Nat → Nat → Bytes) {d : Bytes} (hd : (List.range I.numParties).foldl (fun d p => xorBytes (tapeBytes (tape e p) start len) d) x = d) :
    signShare I (of T I.numParties I.tapeSize 0 tape) start len e x (of T I.numParties len 0 f) =
      .ok (of T I.numParties len 0 (rowUpd f e I.numParties fun p => if p = 0 then xorBytes d (tapeBytes (tape e p) start len) else tapeBytes (tape e p) start len), d) := by
  have hl : ∀ p < I.numParties, (tapeBytes (tape e p) start len).length = len := fun p hp => tapeBytes_len (ht p hp) h
  unfold signShare
  rw [forTo_state _ _ _ (fun n => (of T I.numParties len 0 (rowUpd f e n fun p => tapeBytes (tape e p) start len), (List.range n).foldl (fun d p => xorBytes (tapeBytes (tape e p) start len) d) x))
    (by rw [rowUpd_zero]; rfl) (fun p hp => by
      have hxl := foldl_xor_length (n := p) (fun p => tapeBytes (tape e p) start len) (fun q hq => hl q (by omega)) x hx
      dsimp only
      rw [getBytes_of he hp (ht p hp) h, ok_bind, fill_of he hp (hl p hp), ok_bind, rowUpd_succ f e p (fun p => tapeBytes (tape e p) start len), get_of he hp (by rw [rowUpd_in _ _ _ _ (Nat.lt_succ_self p)]; exact hl p hp),
        ok_bind, rowUpd_in _ _ _ _ (Nat.lt_succ_self p), xorOnto_ok (by rw [hl p hp, hxl]), ok_bind, List.range_succ, List.foldl_append]
      rfl), ok_bind]
  dsimp only
  rw [hd, fix_row hN f he _ hl (by rw [← hd]; exact foldl_xor_length (fun p => tapeBytes (tape e p) start len) hl x hx), ok_bind]

/-- The loop of banquet.cpp:386-461. -/
theorem signSharesAll_ok {I : Instance} (hI : Spec.Consistent I) (sk pt t : Bytes) (hpt : I.ctSize ≤ pt.length) (hsk : sk.length = I.aes.keySize) (ht : t.length = I.aes.numSboxes) (c : Nat → Ctx)
    (hc : ∀ e < I.numRounds, ∀ p < I.numParties, ((c e).tape p).length = I.tapeSize)
    (hk : ∀ e < I.numRounds, (List.range I.numParties).foldl (fun d p => xorBytes (tapeBytes ((c e).tape p) 0 I.aes.keySize) d) sk = (c e).skDelta)
    (hd : ∀ e < I.numRounds, (List.range I.numParties).foldl (fun d p => xorBytes (tapeBytes ((c e).tape p) I.aes.keySize I.aes.numSboxes) d) t = (c e).tDelta) :
    forTo I.numRounds (signShares I sk pt t (of I.numRounds I.numParties I.tapeSize 0 fun e p => (c e).tape p))
      ⟨.mk' 0 I.numRounds I.numParties I.aes.keySize, .mk' 0 I.numRounds I.numParties I.ctSize, .mk' 0 I.numRounds I.numParties I.aes.numSboxes, .mk' 0 I.numRounds I.numParties I.aes.numSboxes, [], []⟩ =
      .ok ⟨of I.numRounds I.numParties I.aes.keySize 0 fun e p => (c e).key I p, of I.numRounds I.numParties I.ctSize 0 fun e p => ((c e).out I pt p).2,
        of I.numRounds I.numParties I.aes.numSboxes 0 fun e p => ((c e).out I pt p).1, of I.numRounds I.numParties I.aes.numSboxes 0 fun e p => (c e).t I p,
        (List.range I.numRounds).map fun e => (c e).skDelta, (List.range I.numRounds).map fun e => (c e).tDelta⟩ := by
  have hN : 0 < I.numParties := by have := (parties_bounds hI).1; omega
  have t1 : 0 + I.aes.keySize ≤ I.tapeSize := by unfold Instance.tapeSize; omega
  have t2 : I.aes.keySize + I.aes.numSboxes ≤ I.tapeSize := by unfold Instance.tapeSize; omega
  let z : Nat → Nat → Bytes := fun _ _ => []
  refine (forTo_state _ _ _ (fun e => ⟨of I.numRounds I.numParties I.aes.keySize 0 (below z e fun e p => (c e).key I p), of I.numRounds I.numParties I.ctSize 0 (below z e fun e p => ((c e).out I pt p).2),
        of I.numRounds I.numParties I.aes.numSboxes 0 (below z e fun e p => ((c e).out I pt p).1), of I.numRounds I.numParties I.aes.numSboxes 0 (below z e fun e p => (c e).t I p),
        (List.range e).map fun e => (c e).skDelta, (List.range e).map fun e => (c e).tDelta⟩)
        (by rw [below_zero, below_zero, below_zero, below_zero, mk_of, mk_of, mk_of]; rfl) fun e he => ?_).trans
    (by rw [of_below_full, of_below_full, of_below_full, of_below_full])
  have hkl : ∀ p < I.numParties, ((c e).key I p).length = I.aes.keySize := by
    intro p hp
    have h1 := tapeBytes_len (hc e he p hp) t1
    unfold Ctx.key
    split
    · rw [length_xorBytes, h1, ← hk e he, foldl_xor_length _ (fun q hq => tapeBytes_len (hc e he q hq) t1) _ hsk, Nat.min_self]
    · exact h1
  have htl : ∀ p < I.numParties, ((c e).t I p).length = I.aes.numSboxes := by
    intro p hp
    have h1 := tapeBytes_len (hc e he p hp) t2
    unfold Ctx.t
    split
    · rw [length_xorBytes, h1, ← hd e he, foldl_xor_length _ (fun q hq => tapeBytes_len (hc e he q hq) t2) _ ht, Nat.min_self]
    · exact h1
  unfold signShares
  dsimp only
  rw [of_objectSize, signShare_ok hN he (fun e p => (c e).tape p) (hc e he) t1 sk hsk _ (hk e he), ok_bind]
  dsimp only
  rw [signShare_ok hN he (fun e p => (c e).tape p) (hc e he) t2 t ht _ (hd e he), ok_bind]
  dsimp only
  rw [show (rowUpd (below z e fun e p => (c e).key I p) e I.numParties fun p => if p = 0 then xorBytes (c e).skDelta (tapeBytes ((c e).tape p) 0 I.aes.keySize) else tapeBytes ((c e).tape p) 0 I.aes.keySize) =
      rowUpd (below z e fun e p => (c e).key I p) e I.numParties ((c e).key I) from rfl,
    show (rowUpd (below z e fun e p => (c e).t I p) e I.numParties fun p => if p = 0 then xorBytes (c e).tDelta (tapeBytes ((c e).tape p) I.aes.keySize I.aes.numSboxes)
      else tapeBytes ((c e).tape p) I.aes.keySize I.aes.numSboxes) = rowUpd (below z e fun e p => (c e).t I p) e I.numParties ((c e).t I) from rfl,
    of_below_succ _ (fun e p => (c e).key I p) e, of_below_succ _ (fun e p => (c e).t I p) e]
  rw [aesRep_ok hI pt hpt he _ _ _ _ (fun p hp => by rw [below, if_pos (Nat.lt_succ_self e)]; exact hkl p hp) (fun p hp => by rw [below, if_pos (Nat.lt_succ_self e)]; exact htl p hp), ok_bind]
  dsimp only
  have r1 : (fun p => (aesParty I.aes.keySize (p == 0) (below z (e + 1) (fun e p => (c e).key I p) e p) (below z (e + 1) (fun e p => (c e).t I p) e p) pt).2) = fun p => ((c e).out I pt p).2 := by
    funext p
    rw [below, if_pos (Nat.lt_succ_self e), below, if_pos (Nat.lt_succ_self e)]
    rfl
  have r2 : (fun p => (aesParty I.aes.keySize (p == 0) (below z (e + 1) (fun e p => (c e).key I p) e p) (below z (e + 1) (fun e p => (c e).t I p) e p) pt).1) = fun p => ((c e).out I pt p).1 := by
    funext p
    rw [below, if_pos (Nat.lt_succ_self e), below, if_pos (Nat.lt_succ_self e)]
    rfl
  rw [r1, r2, of_below_succ _ (fun e p => ((c e).out I pt p).2) e, of_below_succ _ (fun e p => ((c e).out I pt p).1) e, ← range_map_succ (fun e => (c e).skDelta), ← range_map_succ (fun e => (c e).tDelta)]

/-- The loop of banquet.cpp:519-538. -/
theorem signProductsAll_ok (F : FieldState) {I : Instance} (hI : Spec.Consistent I) (P : Precomp) (saved : Saved) (h1 : saved.1.length = I.aes.numSboxes) (h2 : saved.2.length = I.aes.numSboxes)
    (st sl tl : Nat → List W64) (h : ∀ j < I.m1, signProducts F I P saved j = .ok (st j, sl j, tl j)) :
    forTo I.m1 (signProduct F I P.lagM2 (P.lagM2.getD I.m2 []) saved) (List.replicate I.m1 [], List.replicate I.m1 [], List.replicate I.m1 []) =
      .ok ((List.range I.m1).map st, (List.range I.m1).map sl, (List.range I.m1).map tl) := by
  refine (forTo_state _ _ _ (fun j => (part I.m1 st [] j, part I.m1 sl [] j, part I.m1 tl [] j)) (by rw [part_zero, part_zero, part_zero]) fun j hj => ?_).trans (by rw [part_full, part_full, part_full])
  unfold signProduct
  dsimp only
  rw [forTo_state _ _ _ (fun k => (pre k (fun k => F.lift (saved.1.getD (j + I.m1 * k) 0)) (List.replicate (I.m2 + 1) 0), pre k (fun k => F.lift (saved.2.getD (j + I.m1 * k) 0)) (List.replicate (I.m2 + 1) 0)))
    (by rw [pre_zero, pre_zero]) (fun k hk => by
      have hc : j + I.m1 * k < I.aes.numSboxes := by rw [← hI.sboxes]; exact col_lt hj hk
      dsimp only
      rw [rd_getD 0 (by omega), ok_bind, pre_wr (fun k => F.lift (saved.1.getD (j + I.m1 * k) 0)) (by simp; omega), ok_bind, rd_getD 0 (by omega), ok_bind,
        pre_wr (fun k => F.lift (saved.2.getD (j + I.m1 * k) 0)) (by simp; omega), ok_bind]), ok_bind]
  dsimp only
  rw [wr_ok _ (by rw [pre_length _ (by simp)]; simp), ok_bind, wr_ok _ (by rw [pre_length _ (by simp)]; simp), ok_bind, pre_last _ _ (by simp), pre_last _ _ (by simp)]
  have hp := h j hj
  unfold signProducts at hp
  dsimp only at hp
  generalize F.interpolate P.lagM2 (((List.range I.m2).map fun k => F.lift (saved.1.getD (j + I.m1 * k) 0)) ++ [0]) = x1 at *
  generalize F.interpolate P.lagM2 (((List.range I.m2).map fun k => F.lift (saved.2.getD (j + I.m1 * k) 0)) ++ [0]) = x2 at *
  rcases x1 with _ | S
  · cases hp
  rcases x2 with _ | W
  · cases hp
  rw [ok_bind, ok_bind] at hp
  rw [ok_bind, ok_bind]
  generalize F.polyMul S W = y1 at *
  generalize F.polyMul S (P.lagM2.getD I.m2 []) = y2 at *
  generalize F.polyMul W (P.lagM2.getD I.m2 []) = y3 at *
  rcases y1 with _ | a1
  · cases hp
  rcases y2 with _ | a2
  · cases hp
  rcases y3 with _ | a3
  · cases hp
  rw [ok_bind, ok_bind, ok_bind] at hp
  injection hp with hp
  injection hp with e1 hp
  injection hp with e2 e3
  subst e1 e2 e3
  rw [ok_bind, part_wr I.m1 st [] j hj, ok_bind, ok_bind, part_wr I.m1 sl [] j hj, ok_bind, ok_bind, part_wr I.m1 tl [] j hj, ok_bind]

end Banquet.Loops
