import Verif.Proofs.Hash
import Verif.Spec.Instance
import Verif.Proofs.Misc

/-! The per-party computations of sign and verify as pure functions of the tapes and deltas of a repetition, and closed forms of `verRep1`, `verRep3` and `verifyWith`. -/

namespace Banquet

open Spec

theorem ok_bind {α β : Type} (a : α) (f : α → M β) : (Except.ok a >>= f) = f a := rfl
theorem require_true (e : Err) : require e true = .ok () := rfl

theorem mapM_ok {α β : Type} (l : List α) (f : α → M β) (g : α → β) (h : ∀ x ∈ l, f x = .ok (g x)) : l.mapM f = .ok (l.map g) := by
  induction l with
  | nil => rfl
  | cons x xs ih =>
    rw [List.mapM_cons, h x (by simp), ih fun y hy => h y (by simp [hy])]
    rfl

theorem mapM_if {α β : Type} (l : List α) (f : α → M β) (c : α → Prop) [DecidablePred c] (g : α → β) (e : Err) (h : ∀ x ∈ l, f x = if c x then .ok (g x) else .error e) :
    l.mapM f = if ∀ x ∈ l, c x then .ok (l.map g) else .error e := by
  induction l with
  | nil => simp; rfl
  | cons x xs ih =>
    rw [List.mapM_cons, h x (by simp), ih fun y hy => h y (by simp [hy])]
    by_cases h1 : c x
    · rw [if_pos h1]
      by_cases h2 : ∀ y ∈ xs, c y
      · rw [if_pos h2, if_pos (by intro y hy; rcases List.mem_cons.1 hy with rfl | hy; exacts [h1, h2 y hy])]
        rfl
      · rw [if_neg h2, if_neg (fun hc => h2 fun y hy => hc y (by simp [hy]))]
        rfl
    · rw [if_neg h1]
      refine Eq.trans ?_ (if_neg (fun hc => h1 (hc x List.mem_cons_self))).symm
      rfl

/-- `dot` without the size check. -/
def FieldState.dotV (F : FieldState) (a b : List W64) : W64 := F.reducer.apply ((List.zipWith clmul a b).foldl (· ^^^ ·) 0)

theorem dot_eq (F : FieldState) {a b : List W64} (h : a.length = b.length) : F.dot a b = .ok (F.dotV a b) := by
  unfold FieldState.dot FieldState.dotV
  rw [if_neg (by simpa using h)]

/-- Deltas and tapes of one repetition. -/
structure Ctx where
  skDelta : Bytes
  tDelta : Bytes
  pDelta : List W64
  tape : Nat → Bytes

namespace Ctx
variable (F : FieldState) (I : Instance) (pt : Bytes) (c : Ctx) (rs : List W64) (R : W64) (p j : Nat)

/-- Key share. -/
def key : Bytes := if p = 0 then xorBytes c.skDelta (tapeBytes (c.tape p) 0 I.aes.keySize) else tapeBytes (c.tape p) 0 I.aes.keySize
/-- Share of the S-box outputs. -/
def t : Bytes := if p = 0 then xorBytes c.tDelta (tapeBytes (c.tape p) I.aes.keySize I.aes.numSboxes) else tapeBytes (c.tape p) I.aes.keySize I.aes.numSboxes
/-- Shares of the S-box inputs and of the ciphertext. -/
def out : Bytes × Bytes := aesParty I.aes.keySize (p == 0) (c.key I p) (c.t I p) pt
/-- Points of the `S_j`. -/
def sPts : List (List W64) := sPrime F I rs (c.out I pt p).1 (c.tape p)
/-- Points of the `T_j`. -/
def tPts : List (List W64) := tPrime F I (c.t I p) (c.tape p)
/-- Points of `P`. -/
def pPts : List W64 := if p = 0 then addDeltas I c.pDelta (pRaw F I rs p (c.tape p)) else pRaw F I rs p (c.tape p)
/-- Share of `S_j(R)`. -/
def a : W64 := F.dotV (lagAt F (precomp F I).lagM2 (I.m2 + 1) R) ((c.sPts F I pt rs p).getD j [])
/-- Share of `T_j(R)`. -/
def b : W64 := F.dotV (lagAt F (precomp F I).lagM2 (I.m2 + 1) R) ((c.tPts F I p).getD j [])
/-- Share of `P(R)`. -/
def pc : W64 := F.dotV (lagAt F (precomp F I).lag2M2 (2 * I.m2 + 1) R) (c.pPts F I rs p)
end Ctx

theorem length_lagAt (F : FieldState) (polys : List (List W64)) (n : Nat) (R : W64) : (lagAt F polys n R).length = n := by simp [lagAt]

theorem getD_sPrime (F : FieldState) (I : Instance) (rs : List W64) (s tape : Bytes) (j : Nat) (hj : j < I.m1) : (sPrime F I rs s tape).getD j [] =
    ((List.range I.m2).map fun k => F.mul (rs.getD j 0) (F.lift (s.getD (j + I.m1 * k) 0))) ++ [F.fromBytes (tapeBytes tape (I.pointPos j) I.lambda)] := by
  unfold sPrime
  rw [getD_range_map _ _ _ _ hj]

theorem getD_tPrime (F : FieldState) (I : Instance) (t tape : Bytes) (j : Nat) (hj : j < I.m1) : (tPrime F I t tape).getD j [] =
    ((List.range I.m2).map fun k => F.lift (t.getD (j + I.m1 * k) 0)) ++ [F.fromBytes (tapeBytes tape (I.pointPos j + I.lambda) I.lambda)] := by
  unfold tPrime
  rw [getD_range_map _ _ _ _ hj]

theorem length_pRaw (F : FieldState) (I : Instance) (rs : List W64) (p : Nat) (tape : Bytes) : (pRaw F I rs p tape).length = 2 * I.m2 + 1 := by
  unfold pRaw
  simp only [List.length_append, List.length_map, List.length_range]
  omega

theorem length_addDeltas (I : Instance) (d s : List W64) : (addDeltas I d s).length = 2 * I.m2 + 1 := by simp [addDeltas]

theorem dots_s (F : FieldState) (I : Instance) (pt : Bytes) (c : Ctx) (rs : List W64) (R : W64) (p : Nat) :
    dots F I (lagAt F (precomp F I).lagM2 (I.m2 + 1) R) (c.sPts F I pt rs p) = .ok ((List.range I.m1).map (c.a F I pt rs R p)) := by
  unfold dots
  refine mapM_ok _ _ _ fun j hj => ?_
  refine dot_eq F ?_
  rw [length_lagAt]
  unfold Ctx.sPts
  rw [getD_sPrime _ _ _ _ _ _ (List.mem_range.1 hj)]
  simp

theorem dots_t (F : FieldState) (I : Instance) (c : Ctx) (R : W64) (p : Nat) :
    dots F I (lagAt F (precomp F I).lagM2 (I.m2 + 1) R) (c.tPts F I p) = .ok ((List.range I.m1).map (c.b F I R p)) := by
  unfold dots
  refine mapM_ok _ _ _ fun j hj => ?_
  refine dot_eq F ?_
  rw [length_lagAt]
  unfold Ctx.tPts
  rw [getD_tPrime _ _ _ _ _ (List.mem_range.1 hj)]
  simp

theorem dot_p (F : FieldState) (I : Instance) (c : Ctx) (rs : List W64) (R : W64) (p : Nat) :
    F.dot (lagAt F (precomp F I).lag2M2 (2 * I.m2 + 1) R) (c.pPts F I rs p) = .ok (c.pc F I rs R p) := by
  refine dot_eq F ?_
  rw [length_lagAt]
  unfold Ctx.pPts
  split
  · rw [length_addDeltas]
  · rw [length_pRaw]

theorem rawShares_range (tape : Nat → Bytes) (n start len : Nat) : rawShares ((List.range n).map tape) start len = (List.range n).map fun p => tapeBytes (tape p) start len := by
  unfold rawShares
  rw [List.map_map]
  rfl

theorem fixFirst_range (delta : Bytes) (f : Nat → Bytes) (n : Nat) : fixFirst delta ((List.range n).map f) = (List.range n).map fun p => if p = 0 then xorBytes delta (f p) else f p := by
  cases n with
  | zero => rfl
  | succ n =>
    rw [List.range_succ_eq_map]
    simp [fixFirst]

theorem set_range_map {α : Type} (f : Nat → α) (n m : Nat) (v : α) : ((List.range n).map f).set m v = (List.range n).map fun p => if p = m then v else f p := by
  apply List.ext_getElem?
  intro i
  rw [List.getElem?_set, List.getElem?_map, List.getElem?_map]
  by_cases hi : i < n
  · rw [List.getElem?_range hi]
    by_cases hm : m = i
    · subst hm; simp [hi]
    · simp [hm, Ne.symm hm]
  · rw [List.getElem?_eq_none (by simpa using hi)]
    simp
    omega

/-- The commitments and shares of `mpcAes` in terms of `Ctx`. -/
theorem mpcAes_eq (I : Instance) (c : Ctx) (pt : Bytes) :
    mpcAes I (fixFirst c.skDelta (rawShares ((List.range I.numParties).map c.tape) 0 I.aes.keySize))
      (fixFirst c.tDelta (rawShares ((List.range I.numParties).map c.tape) I.aes.keySize I.aes.numSboxes)) pt = (List.range I.numParties).map (c.out I pt) := by
  unfold mpcAes
  apply List.map_congr_left
  intro p hp
  rw [rawShares_range, rawShares_range, fixFirst_range, fixFirst_range, getD_range_map _ _ _ _ (List.mem_range.1 hp), getD_range_map _ _ _ _ (List.mem_range.1 hp)]
  rfl

/-! ## Verifier -/

section
variable {I : Instance} (hI : Consistent I)
include hI

theorem parties_bounds : 2 ≤ I.numParties ∧ I.numParties ≤ 2 ^ 15 ∧ I.numParties ≤ 2 ^ 29 ∧ I.numParties < 2 ^ 32 := by
  obtain ⟨k, h1, h2, h3⟩ := hI.parties
  have a : 2 ^ 1 ≤ 2 ^ k := Nat.pow_le_pow_right (by norm_num) h1
  have b : 2 ^ k ≤ 2 ^ 15 := Nat.pow_le_pow_right (by norm_num) h2
  rw [h3]
  norm_num at *
  omega

theorem seed_bounds : 0 < I.seedSize ∧ I.seedSize ≤ 32 := by
  rw [hI.seed]
  rcases hI.aes with h | h | h <;> (simp only [Prod.mk.injEq] at h; omega)

theorem checkAes_ok : checkAes I.aes = .ok () := by
  have hA : I.aes = aes128Params ∨ I.aes = aes192Params ∨ I.aes = aes256Params := by
    rcases hI.aes with h | h | h
    · left
      cases hc : I.aes
      rw [hc] at h
      simp only [Prod.mk.injEq] at h
      obtain ⟨h1, h2, h3, h4⟩ := h
      subst h1 h2 h3 h4
      rfl
    · right; left
      cases hc : I.aes
      rw [hc] at h
      simp only [Prod.mk.injEq] at h
      obtain ⟨h1, h2, h3, h4⟩ := h
      subst h1 h2 h3 h4
      rfl
    · right; right
      cases hc : I.aes
      rw [hc] at h
      simp only [Prod.mk.injEq] at h
      obtain ⟨h1, h2, h3, h4⟩ := h
      subst h1 h2 h3 h4
      rfl
  unfold checkAes
  rw [if_neg (by rcases hA with h | h | h <;> rw [h] <;> decide)]
  rw [decide_eq_true hA]
  rfl

/-- Seed of an opened party. -/
def openedSeed (X : Xof) (I : Instance) (salt : Bytes) (rep : Nat) (rl : RevealList) (p : Nat) : Bytes :=
  revealV X salt rep I.seedSize (revealedAt I.numParties rl.missing rl.seeds) (leafNode I.numParties p)

omit hI in
theorem shaped_seeds {pr : Proof} (h : pr.shaped I = true) : pr.reveal.seeds.length = ceilLog2 I.numParties ∧ ∀ s ∈ pr.reveal.seeds, s.length = I.seedSize := by
  unfold Proof.shaped at h
  simp only [Bool.and_eq_true, decide_eq_true_eq, List.all_eq_true, beq_iff_eq] at h
  tauto

theorem seeds_depth {rl : RevealList} (h : rl.seeds.length = ceilLog2 I.numParties ∧ ∀ s ∈ rl.seeds, s.length = I.seedSize) :
    depth I.numParties ≤ rl.seeds.length ∧ ∀ k < depth I.numParties, (rl.seeds.getD k []).length = I.seedSize := by
  have hc : ceilLog2 I.numParties = depth I.numParties := ceilLog2_eq _ (parties_bounds hI).2.2.2
  refine ⟨by omega, fun k hk => ?_⟩
  rw [getD_of_lt (by omega)]
  exact h.2 _ (List.getElem_mem _)

theorem openedSeed_length (X : Xof) (salt : Bytes) (rep : Nat) {rl : RevealList} (h : rl.seeds.length = ceilLog2 I.numParties ∧ ∀ s ∈ rl.seeds, s.length = I.seedSize)
    (hm : rl.missing < I.numParties) (p : Nat) (hp : p < I.numParties) (hne : p ≠ rl.missing) : (openedSeed X I salt rep rl p).length = I.seedSize := by
  obtain ⟨b1, b2, b3, b4⟩ := parties_bounds hI
  exact revealV_length b1 b3 hm X salt rep I.seedSize rl.seeds (seeds_depth hI h).2 _ ((leaf_offPath b1 b3 hm p hp).2 hne)

theorem ofReveal_leaves (X : Xof) (salt : Bytes) (rep : Nat) {rl : RevealList} (h : rl.seeds.length = ceilLog2 I.numParties ∧ ∀ s ∈ rl.seeds, s.length = I.seedSize)
    (hm : rl.missing < I.numParties) : ∃ t, SeedTree.ofReveal X rl I.numParties salt rep = .ok t ∧
      ∀ p < I.numParties, t.getLeaf p = if p = rl.missing then none else some (openedSeed X I salt rep rl p) := by
  obtain ⟨b1, b2, b3, b4⟩ := parties_bounds hI
  obtain ⟨s1, s2⟩ := seed_bounds hI
  obtain ⟨d1, d2⟩ := seeds_depth hI h
  obtain ⟨r1, r2⟩ := ofReveal_spec b1 b3 hm X salt rep I.seedSize rl.seeds s1 d1 d2
  obtain ⟨t, ht⟩ := r1 s2
  refine ⟨t, ht, fun p hp => ?_⟩
  obtain ⟨f, hv⟩ := r2 t ht
  obtain ⟨v1, v2⟩ := hv _ (leaf_ex b1 b3 hp)
  rw [leaf_offPath b1 b3 hm p hp] at v1 v2
  have e : t.numTotal - t.numLeaves + p = leafNode I.numParties p := by rw [f.nt, f.nl, total_sub b1 b3]; rfl
  unfold SeedTree.getLeaf
  simp only [e]
  by_cases hc : p = rl.missing
  · rw [if_pos hc]
    have : t.hv (leafNode I.numParties p) = false := by
      by_contra hne
      exact v1.1 (by simpa using hne) hc
    rw [this]
    rfl
  · rw [if_neg hc, v1.2 hc, v2 hc]
    rfl

/-- The tapes of a repetition as seen by the verifier, with `dummy` for the hidden party. -/
def verTape (X : Xof) (I : Instance) (dummy salt : Bytes) (rep : Nat) (rl : RevealList) (p : Nat) : Bytes :=
  genTape X I.tapeSize (if p = rl.missing then dummy else openedSeed X I salt rep rl p) salt rep p

/-- Deltas of the proof and tapes of the opened parties. -/
def verCtx (X : Xof) (I : Instance) (dummy salt : Bytes) (rep : Nat) (pr : Proof) : Ctx :=
  ⟨pr.skDelta, pr.tDelta, pr.pDelta, verTape X I dummy salt rep pr.reveal⟩

omit hI in
/-- Broadcast of the hidden party. -/
def Ctx.ctMissing (I : Instance) (pt ct : Bytes) (c : Ctx) (m : Nat) : Bytes :=
  ((List.range I.numParties).filter (· ≠ m)).foldl (fun acc p => xorBytes (c.out I pt p).2 acc) ct

omit hI in
theorem filter_lt {n m p : Nat} (h : p ∈ (List.range n).filter (· ≠ m)) : p < n ∧ p ≠ m := by
  have := List.mem_filter.1 h
  exact ⟨List.mem_range.1 this.1, by simpa using this.2⟩

omit hI in
theorem foldl_congr_mem {α β : Type} (l : List α) (f g : β → α → β) (h : ∀ acc, ∀ x ∈ l, f acc x = g acc x) (b : β) : l.foldl f b = l.foldl g b := by
  induction l generalizing b with
  | nil => rfl
  | cons x xs ih =>
    rw [List.foldl_cons, List.foldl_cons, h b x (by simp), ih fun acc y hy => h acc y (by simp [hy])]

omit hI in
/-- Result of `verRep1`. -/
def verOut1 (X : Xof) (I : Instance) (dummy pt ct salt : Bytes) (pr : Proof) (m rep : Nat) : VerRep1 :=
      ⟨(List.range I.numParties).map (verCtx X I dummy salt rep pr).tape,
        (List.range I.numParties).map (fun p => if p = m then pr.cE else commitSingle X I (openedSeed X I salt rep pr.reveal p) salt rep p),
        (List.range I.numParties).map ((verCtx X I dummy salt rep pr).t I), (List.range I.numParties).map (fun p => ((verCtx X I dummy salt rep pr).out I pt p).1),
        (List.range I.numParties).map (fun p => if p = m then (verCtx X I dummy salt rep pr).ctMissing I pt ct m else ((verCtx X I dummy salt rep pr).out I pt p).2)⟩

theorem verRep1_eq (X : Xof) (dummy : Bytes) (hd : dummy.length = I.seedSize) (pt ct salt : Bytes) (pr : Proof) (hs : pr.shaped I = true) (m rep : Nat) (hm : m < I.numParties) :
    verRep1 X dummy I pt ct salt pr m rep = if m = pr.reveal.missing then
      .ok (verOut1 X I dummy pt ct salt pr m rep)
      else .error .thrown := by
  unfold verRep1
  by_cases hc : m = pr.reveal.missing
  swap
  · rw [if_neg hc, decide_eq_false hc]
    rfl
  rw [if_pos hc, decide_eq_true hc]
  have hseeds := shaped_seeds hs
  obtain ⟨t, ht, hl⟩ := ofReveal_leaves hI X salt rep hseeds (by omega)
  rw [require_true, ok_bind, ht, ok_bind]
  have hlen := openedSeed_length hI X salt rep hseeds (by omega)
  have hleaf : ∀ p < I.numParties, (t.getLeaf p).getD dummy = if p = pr.reveal.missing then dummy else openedSeed X I salt rep pr.reveal p := by
    intro p hp
    rw [hl p hp]
    split <;> rfl
  have hleafl : ∀ p < I.numParties, ((t.getLeaf p).getD dummy).length = I.seedSize := by
    intro p hp
    rw [hleaf p hp]
    split
    · exact hd
    · exact hlen p hp (by assumption)
  have hcom : (List.range I.numParties).mapM (fun p =>
      if fourWay I p then .ok (commitLane X I ((t.getLeaf p).getD dummy) salt rep p)
      else if p ≠ m then do
        let s ← leafValue t p
        .ok (commitSingle X I s salt rep p)
      else (.ok (List.replicate I.digestSize 0) : M Bytes)) = .ok ((List.range I.numParties).map fun p =>
        if fourWay I p then commitLane X I ((t.getLeaf p).getD dummy) salt rep p
        else if p ≠ m then commitSingle X I (openedSeed X I salt rep pr.reveal p) salt rep p else List.replicate I.digestSize 0) := by
    refine mapM_ok _ _ _ fun p hp => ?_
    have hp := List.mem_range.1 hp
    split
    · rfl
    · split
      · rename_i h1 h2
        unfold leafValue
        rw [hl p hp, if_neg (by rw [← hc]; exact h2)]
        rfl
      · rfl
  rw [hcom, ok_bind]
  have htapes : ((List.range I.numParties).map fun p =>
      if fourWay I p then genTapeLane X I.tapeSize ((t.getLeaf (p / 4 * 4)).getD dummy).length ((t.getLeaf p).getD dummy) salt rep p
      else genTape X I.tapeSize ((t.getLeaf p).getD dummy) salt rep p) = (List.range I.numParties).map (verCtx X I dummy salt rep pr).tape := by
    apply List.map_congr_left
    intro p hp
    have hp := List.mem_range.1 hp
    have e : (verCtx X I dummy salt rep pr).tape p = genTape X I.tapeSize ((t.getLeaf p).getD dummy) salt rep p := by
      rw [hleaf p hp]; rfl
    rw [e]
    split
    · rw [hleafl (p / 4 * 4) (by omega)]
      unfold genTapeLane genTape tapeStream
      rw [hleafl p hp, List.take_of_length_le (by rw [hleafl p hp])]
    · rfl
  dsimp only
  rw [htapes]
  have hout := mpcAes_eq I (verCtx X I dummy salt rep pr) pt
  rw [show (verCtx X I dummy salt rep pr).skDelta = pr.skDelta from rfl, show (verCtx X I dummy salt rep pr).tDelta = pr.tDelta from rfl] at hout
  unfold verOut1
  rw [hout, List.map_map, List.map_map, set_range_map, set_range_map]
  congr 2
  · apply List.map_congr_left
    intro p hp
    have hp := List.mem_range.1 hp
    by_cases hpm : p = m
    · rw [if_pos hpm, if_pos hpm]
    · rw [if_neg hpm, if_neg hpm]
      split
      · unfold commitLane commitSingle
        rw [List.take_of_length_le (by rw [hleafl p hp]), hleaf p hp, if_neg (by rw [← hc]; exact hpm)]
      · rfl
  · rw [rawShares_range, fixFirst_range]
    rfl
  · apply List.map_congr_left
    intro p hp
    by_cases hpm : p = m
    · rw [if_pos hpm, if_pos hpm]
      unfold missingShare Ctx.ctMissing
      refine foldl_congr_mem _ _ _ (fun acc q hq => ?_) _
      rw [getD_range_map _ _ _ _ (filter_lt hq).1]
      rfl
    · rw [if_neg hpm, if_neg hpm]
      rfl

end

/-! ## Recomputed shares -/

namespace Ctx
variable (F : FieldState) (I : Instance) (pt : Bytes) (c : Ctx) (rs : List W64) (R : W64)

/-- What the verifier hashes for one repetition in phase 3: the shares of the opened parties, and those of the hidden party completing the claimed values. -/
def verHash3 (pr : Proof) (m : Nat) : Rep3 :=
  ⟨pr.pAtR, (List.range I.numParties).map (fun p => if p = m then ((List.range I.numParties).filter (· ≠ m)).foldl (fun acc q => gfAdd acc (c.pc F I rs R q)) pr.pAtR else c.pc F I rs R p),
    pr.sAtR, pr.tAtR,
    (List.range I.numParties).map (fun p => (List.range I.m1).map fun j =>
      if p = m then ((List.range I.numParties).filter (· ≠ m)).foldl (fun acc q => gfAdd acc (c.a F I pt rs R q j)) (pr.sAtR.getD j 0) else c.a F I pt rs R p j),
    (List.range I.numParties).map (fun p => (List.range I.m1).map fun j =>
      if p = m then ((List.range I.numParties).filter (· ≠ m)).foldl (fun acc q => gfAdd acc (c.b F I R q j)) (pr.tAtR.getD j 0) else c.b F I R p j)⟩

/-- What the verifier hashes for one repetition in phase 1. -/
def verHash1 (ct : Bytes) (pr : Proof) (com : Nat → Bytes) (m : Nat) : Rep1Hash :=
  ⟨(List.range I.numParties).map (fun p => if p = m then pr.cE else com p),
   (List.range I.numParties).map (fun p => if p = m then c.ctMissing I pt ct m else (c.out I pt p).2), pr.skDelta, pr.tDelta⟩
end Ctx

theorem verRep3_eq (F : FieldState) (I : Instance) (pt : Bytes) (c : Ctx) (rs : List W64) (R : W64) (pr : Proof) (hp : c.pDelta = pr.pDelta) (m : Nat)
    (r1 : VerRep1) (h1 : r1.tapes = (List.range I.numParties).map c.tape) (h2 : r1.tShares = (List.range I.numParties).map (c.t I))
    (h3 : r1.sShares = (List.range I.numParties).map fun p => (c.out I pt p).1) :
    verRep3 F I (precomp F I) pr m rs R r1 = .ok (c.verHash3 F I pt rs R pr m) := by
  unfold verRep3
  have ha : (List.range I.numParties).mapM (fun p =>
      if p ≠ m then dots F I (lagAt F (precomp F I).lagM2 (I.m2 + 1) R) (sPrime F I rs (r1.sShares.getD p []) (r1.tapes.getD p [])) else (.ok [] : M (List W64))) =
      .ok ((List.range I.numParties).map fun p => if p ≠ m then (List.range I.m1).map (c.a F I pt rs R p) else []) := by
    refine mapM_ok _ _ _ fun p hp => ?_
    have hp := List.mem_range.1 hp
    split
    · rw [h1, h3, getD_range_map _ _ _ _ hp, getD_range_map _ _ _ _ hp]
      exact dots_s F I pt c rs R p
    · rfl
  have hb : (List.range I.numParties).mapM (fun p =>
      if p ≠ m then dots F I (lagAt F (precomp F I).lagM2 (I.m2 + 1) R) (tPrime F I (r1.tShares.getD p []) (r1.tapes.getD p [])) else (.ok [] : M (List W64))) =
      .ok ((List.range I.numParties).map fun p => if p ≠ m then (List.range I.m1).map (c.b F I R p) else []) := by
    refine mapM_ok _ _ _ fun p hp => ?_
    have hp := List.mem_range.1 hp
    split
    · rw [h1, h2, getD_range_map _ _ _ _ hp, getD_range_map _ _ _ _ hp]
      exact dots_t F I c R p
    · rfl
  have hc : (List.range I.numParties).mapM (fun p =>
      if p ≠ m then
        let raw := pRaw F I rs p (r1.tapes.getD p [])
        F.dot (lagAt F (precomp F I).lag2M2 (2 * I.m2 + 1) R) (if p = 0 then addDeltas I pr.pDelta raw else raw)
      else (.ok 0 : M W64)) = .ok ((List.range I.numParties).map fun p => if p ≠ m then c.pc F I rs R p else 0) := by
    refine mapM_ok _ _ _ fun p hpp => ?_
    have hpp := List.mem_range.1 hpp
    split
    · dsimp only
      rw [h1, getD_range_map _ _ _ _ hpp, ← hp]
      exact dot_p F I c rs R p
    · rfl
  dsimp only
  rw [ha, ok_bind, hb, ok_bind, hc, ok_bind]
  congr 1
  unfold Ctx.verHash3
  rw [set_range_map, set_range_map, set_range_map]
  congr 1
  · apply List.map_congr_left
    intro p hp
    have hp := List.mem_range.1 hp
    by_cases hpm : p = m
    · rw [if_pos hpm, if_pos hpm]
      refine foldl_congr_mem _ _ _ (fun acc q hq => ?_) _
      rw [getD_range_map _ _ _ _ (filter_lt hq).1, if_pos (filter_lt hq).2]
    · rw [if_neg hpm, if_neg hpm, if_pos hpm]
  · apply List.map_congr_left
    intro p hp
    by_cases hpm : p = m
    · rw [if_pos hpm]
      apply List.map_congr_left
      intro j hj
      rw [if_pos hpm]
      refine foldl_congr_mem _ _ _ (fun acc q hq => ?_) _
      rw [getD_range_map _ _ _ _ (filter_lt hq).1, if_pos (filter_lt hq).2, getD_range_map _ _ _ _ (List.mem_range.1 hj)]
    · rw [if_neg hpm, if_pos hpm]
      apply List.map_congr_left
      intro j hj
      rw [if_neg hpm]
  · apply List.map_congr_left
    intro p hp
    by_cases hpm : p = m
    · rw [if_pos hpm]
      apply List.map_congr_left
      intro j hj
      rw [if_pos hpm]
      refine foldl_congr_mem _ _ _ (fun acc q hq => ?_) _
      rw [getD_range_map _ _ _ _ (filter_lt hq).1, if_pos (filter_lt hq).2, getD_range_map _ _ _ _ (List.mem_range.1 hj)]
    · rw [if_neg hpm, if_pos hpm]
      apply List.map_congr_left
      intro j hj
      rw [if_neg hpm]

/-! ## The whole verification -/

section
variable {I : Instance} (hI : Consistent I) (F : FieldState)
include hI

/-- Default proof for out of range indices. -/
def noProof : Proof := ⟨⟨[], 0⟩, [], [], [], [], 0, [], []⟩

/-- The list hashed for `h_1` by the verifier. -/
def verReps1 (X : Xof) (I : Instance) (dummy pk : Bytes) (sig : Signature) : List Rep1Hash :=
  (List.range I.numRounds).map fun e =>
    let pr := sig.proofs.getD e noProof
    (verCtx X I dummy sig.salt e pr).verHash1 I (slice pk 0 I.ctSize) (slice pk I.ctSize I.ctSize) pr
      (fun p => commitSingle X I (openedSeed X I sig.salt e pr.reveal p) sig.salt e p) pr.reveal.missing

/-- `h_2` recomputed by the verifier. -/
def verH2 (X : Xof) (F : FieldState) (I : Instance) (sig : Signature) : Bytes := phase2Commit X F I sig.salt sig.h1 (sig.proofs.map (·.pDelta))

/-- The list hashed for `h_3` by the verifier. -/
def verReps3 (X : Xof) (F : FieldState) (I : Instance) (dummy pk : Bytes) (sig : Signature) (Rs : List W64) : List Rep3 :=
  (List.range I.numRounds).map fun e =>
    let pr := sig.proofs.getD e noProof
    (verCtx X I dummy sig.salt e pr).verHash3 F I (slice pk 0 I.ctSize) ((phase1Expand X F I sig.h1).getD e []) (Rs.getD e 0) pr pr.reveal.missing

omit hI in
theorem zip_range {α β : Type} (f : Nat → α) (g : Nat → β) (n : Nat) : List.zip ((List.range n).map f) ((List.range n).map g) = (List.range n).map fun i => (f i, g i) := by
  rw [List.zip_map']

omit hI in
theorem shaped_facts {s : Signature} (h : s.shaped I = true) : s.salt.length = 32 ∧ s.h1.length = I.digestSize ∧ s.h3.length = I.digestSize ∧ s.proofs.length = I.numRounds ∧
    ∀ e < I.numRounds, (s.proofs.getD e noProof).shaped I = true := by
  unfold Signature.shaped at h
  simp only [Bool.and_eq_true, decide_eq_true_eq, List.all_eq_true] at h
  obtain ⟨⟨⟨⟨h1, h2⟩, h3⟩, h4⟩, h5⟩ := h
  refine ⟨h1, h2, h3, h4, fun e he => ?_⟩
  rw [getD_of_lt (by omega)]
  exact h5 _ (List.getElem_mem _)

/-- The result of verification in closed form. -/
theorem verifyWith_eq [hF : FieldOk F] (X : Xof) (dummy : Bytes) (hd : dummy.length = I.seedSize) (fuel : Nat) (pk : Bytes) (hpk : 2 * I.ctSize ≤ pk.length) (sig : Signature)
    (hs : sig.shaped I = true) (msg : Bytes) :
    verifyWith X dummy fuel F I pk sig msg =
      (phase2Expand X fuel F I (verH2 X F I sig) (F.firstN I.m2)).bind fun Rs =>
      (phase3Expand X fuel I sig.h3).bind fun missing =>
      if missing = sig.proofs.map (·.reveal.missing) then
        .ok (decide (phase1Commit X I sig.salt pk msg (verReps1 X I dummy pk sig) = sig.h1) &&
          decide (phase3Commit X F I sig.salt (verH2 X F I sig) (verReps3 X F I dummy pk sig Rs) = sig.h3) &&
          sig.proofs.all fun p => decide (sumProducts F I p.sAtR p.tAtR = p.pAtR))
      else .error .thrown := by
  obtain ⟨hs1, hs2, hs3, hs4, hs5⟩ := shaped_facts hs
  unfold verifyWith
  rw [checkAes_ok hI, ok_bind, decide_eq_true ⟨hpk, hI.sboxes.le⟩, require_true, ok_bind, hs, require_true, ok_bind]
  dsimp only
  change (phase2Expand X fuel F I (verH2 X F I sig) (F.firstN I.m2)).bind _ = _
  cases hR : phase2Expand X fuel F I (verH2 X F I sig) (F.firstN I.m2) with
  | error e => rfl
  | ok Rs =>
  obtain ⟨Rl, _⟩ := phase2Expand_spec X fuel I _ _ Rs hR
  change (phase3Expand X fuel I sig.h3).bind _ = (phase3Expand X fuel I sig.h3).bind _
  cases hm : phase3Expand X fuel I sig.h3 with
  | error e => rfl
  | ok missing =>
  obtain ⟨ml, mlt⟩ := phase3Expand_spec X _ fuel I sig.h3 missing hm
  change (((List.zip missing sig.proofs).zipIdx.mapM fun x => verRep1 X dummy I (slice pk 0 I.ctSize) (slice pk I.ctSize I.ctSize) sig.salt x.1.2 x.1.1 x.2) >>= _) =
    (if missing = sig.proofs.map (·.reveal.missing) then _ else _)
  have hzip : List.zip missing sig.proofs = (List.range I.numRounds).map fun e => (missing.getD e 0, sig.proofs.getD e noProof) := by
    rw [← zip_range, ← eq_range_map missing _ _ ml, ← eq_range_map sig.proofs _ _ hs4]
  have hidx : (List.zip missing sig.proofs).zipIdx = (List.range I.numRounds).map fun e => ((missing.getD e 0, sig.proofs.getD e noProof), e) := by
    rw [hzip, zipIdx_range_map]
  have hmlt : ∀ e < I.numRounds, missing.getD e 0 < I.numParties := fun e he => by
    rw [getD_of_lt (by omega)]
    exact mlt _ (List.getElem_mem _)
  rw [mapM_if _ _ (fun x => x.1.1 = x.1.2.reveal.missing)
    (fun x => verOut1 X I dummy (slice pk 0 I.ctSize) (slice pk I.ctSize I.ctSize) sig.salt x.1.2 x.1.1 x.2) .thrown (fun x hx => by
    rw [hidx] at hx
    obtain ⟨e, he, rfl⟩ := List.mem_map.1 hx
    have he := List.mem_range.1 he
    exact verRep1_eq hI X dummy hd (slice pk 0 I.ctSize) (slice pk I.ctSize I.ctSize) sig.salt _ (hs5 e he) _ e (hmlt e he))]
  by_cases hmiss : missing = sig.proofs.map (·.reveal.missing)
  swap
  · rw [if_neg hmiss, if_neg]
    · rfl
    · intro hall
      refine hmiss ?_
      rw [hidx] at hall
      refine ext_getD 0 ml (by rw [List.length_map, hs4]) fun e he => ?_
      have := hall _ (List.mem_map_of_mem (List.mem_range.2 he))
      dsimp only at this
      rw [this, getD_of_lt (by omega), getD_of_lt (by rw [List.length_map]; omega), List.getElem_map]
  rw [if_pos hmiss, if_pos (by
    intro x hx
    rw [hidx] at hx
    obtain ⟨e, he, rfl⟩ := List.mem_map.1 hx
    have he := List.mem_range.1 he
    dsimp only
    rw [hmiss, getD_of_lt (by rw [List.length_map]; omega), getD_of_lt (by omega), List.getElem_map]), ok_bind]
  have hme : ∀ e < I.numRounds, missing.getD e 0 = (sig.proofs.getD e noProof).reveal.missing := fun e he => by
    rw [hmiss, getD_of_lt (by rw [List.length_map]; omega), getD_of_lt (by omega), List.getElem_map]
  rw [hidx, List.map_map]
  have hrss : phase1Expand X F I sig.h1 = (List.range I.numRounds).map fun e => (phase1Expand X F I sig.h1).getD e [] :=
    eq_range_map _ _ _ (by unfold phase1Expand; simp)
  have hz3 : ∀ reps1 : Nat → VerRep1, List.zip missing (List.zip sig.proofs (List.zip (phase1Expand X F I sig.h1) (List.zip Rs ((List.range I.numRounds).map reps1)))) =
      (List.range I.numRounds).map fun e => (missing.getD e 0, sig.proofs.getD e noProof, (phase1Expand X F I sig.h1).getD e [], Rs.getD e 0, reps1 e) := by
    intro reps1
    rw [← zip_range, ← zip_range, ← zip_range, ← zip_range, ← hrss, ← eq_range_map missing _ _ ml, ← eq_range_map sig.proofs _ _ hs4, ← eq_range_map Rs _ _ Rl]
  rw [hz3]
  have hmap : ∀ (g : Nat → Nat × Proof × List W64 × W64 × VerRep1), (∀ e < I.numRounds, (g e).1 = (sig.proofs.getD e noProof).reveal.missing ∧ (g e).2.1 = sig.proofs.getD e noProof ∧
      verRep3 F I (precomp F I) (g e).2.1 (g e).1 (g e).2.2.1 (g e).2.2.2.1 (g e).2.2.2.2 = .ok ((verReps3 X F I dummy pk sig Rs).getD e ⟨0, [], [], [], [], []⟩)) →
      (((List.range I.numRounds).map g).mapM fun x => verRep3 F I (precomp F I) x.2.1 x.1 x.2.2.1 x.2.2.2.1 x.2.2.2.2) = .ok (verReps3 X F I dummy pk sig Rs) := by
    intro g hg
    rw [List.mapM_map]
    refine (mapM_ok _ _ _ (fun e he => (hg e (List.mem_range.1 he)).2.2)).trans ?_
    rw [← eq_range_map _ _ _ (by unfold verReps3; simp)]
  refine Eq.trans (congrArg (· >>= _) (hmap _ ?_)) ?_
  · intro e he
    refine ⟨hme e he, rfl, ?_⟩
    unfold verReps3
    rw [getD_range_map _ _ _ _ he, hme e he]
    exact verRep3_eq F I _ (verCtx X I dummy sig.salt e _) _ _ _ rfl _ _ rfl rfl rfl
  · rw [ok_bind]
    congr 4
    congr 1
    have hzp : ∀ f : Nat → VerRep1, List.zip sig.proofs ((List.range I.numRounds).map f) = (List.range I.numRounds).map fun e => (sig.proofs.getD e noProof, f e) := by
      intro f
      rw [← zip_range, ← eq_range_map sig.proofs _ _ hs4]
    rw [hzp, List.map_map]
    congr 1
    apply List.map_congr_left
    intro e he
    dsimp only [Function.comp]
    rw [hme e (List.mem_range.1 he)]
    rfl

end

end Banquet
