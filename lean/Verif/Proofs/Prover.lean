import Verif.Proofs.Verify
import Verif.Proofs.AesMain

/-! What verify does with the output of a prover who runs all parties: completeness of the hash comparisons, for any deltas. -/

namespace Banquet

open Spec

/-! ## XOR over all parties -/

theorem foldl_xor_acc {α : Type} {w : Nat} (l : List α) (f : α → BitVec w) (x y : BitVec w) :
    l.foldl (fun a p => a ^^^ f p) (x ^^^ y) = l.foldl (fun a p => a ^^^ f p) x ^^^ y := by
  induction l generalizing x with
  | nil => rfl
  | cons p l ih =>
    rw [List.foldl_cons, List.foldl_cons, ← ih, BitVec.xor_assoc, BitVec.xor_comm y, ← BitVec.xor_assoc]

theorem foldl_xor_twice {α : Type} {w : Nat} (l : List α) (f : α → BitVec w) (x : BitVec w) :
    l.foldl (fun a p => a ^^^ f p) (l.foldl (fun a p => a ^^^ f p) x) = x := by
  induction l generalizing x with
  | nil => rfl
  | cons p l ih =>
    rw [List.foldl_cons, List.foldl_cons, foldl_xor_acc, foldl_xor_acc, foldl_xor_acc, ih, BitVec.xor_assoc, BitVec.xor_self]
    exact BitVec.xor_zero

theorem range_perm (n m : Nat) (hm : m < n) : (List.range n).Perm (m :: (List.range n).filter (· ≠ m)) := by
  have h := (List.filter_append_perm (fun p => decide (p = m)) (List.range n)).symm
  have e : (List.range n).filter (fun p => decide (p = m)) = [m] := by
    have h1 : ((List.range n).filter (fun p => decide (p = m))).Nodup := List.nodup_range.filter _
    refine List.perm_singleton.1 ((List.perm_ext_iff_of_nodup h1 (by simp)).2 ?_)
    intro a
    simp only [List.mem_filter, List.mem_range, decide_eq_true_eq, List.mem_singleton]
    constructor
    · exact fun h => h.2
    · rintro rfl; exact ⟨hm, rfl⟩
  rw [e] at h
  refine h.trans ?_
  simp [decide_not]

theorem foldl_xor_perm {α : Type} {w : Nat} {l l' : List α} (h : l.Perm l') (f : α → BitVec w) (x : BitVec w) : l.foldl (fun a p => a ^^^ f p) x = l'.foldl (fun a p => a ^^^ f p) x := by
  refine h.foldl_eq' (fun a _ b _ z => ?_) x
  rw [BitVec.xor_assoc, BitVec.xor_comm (f a), ← BitVec.xor_assoc]

/-- The sum of all values and the sum of all others give the value of one party. -/
theorem fold_complete {w : Nat} (n m : Nat) (hm : m < n) (f : Nat → BitVec w) :
    ((List.range n).filter (· ≠ m)).foldl (fun a p => a ^^^ f p) ((List.range n).foldl (fun a p => a ^^^ f p) 0) = f m := by
  rw [foldl_xor_perm (range_perm n m hm) f 0, List.foldl_cons, foldl_xor_twice]
  exact BitVec.zero_xor

theorem xorBytes_comm (a b : Bytes) : xorBytes a b = xorBytes b a := by
  unfold xorBytes
  rw [List.zipWith_comm]
  congr 1
  funext x y
  exact BitVec.xor_comm _ _

theorem foldl_xorBytes_swap {n : Nat} (l : List Nat) (f : Nat → Bytes) (hf : ∀ p, (f p).length = n) (a : Bytes) (ha : a.length = n) :
    l.foldl (fun acc p => xorBytes (f p) acc) a = (l.map f).foldl xorBytes a := by
  induction l generalizing a with
  | nil => rfl
  | cons p l ih =>
    have e : xorBytes (f p) a = xorBytes a (f p) := xorBytes_comm _ _
    rw [List.foldl_cons, List.map_cons, List.foldl_cons, e]
    exact ih _ (by rw [length_xorBytes, ha, hf, Nat.min_self])

theorem bytes_complete {N m n : Nat} (hm : m < N) (f : Nat → Bytes) (hf : ∀ p, (f p).length = n) :
    ((List.range N).filter (· ≠ m)).foldl (fun acc p => xorBytes (f p) acc) (xorOf n ((List.range N).map f)) = f m := by
  have hl := length_xorOf n ((List.range N).map f)
  rw [foldl_xorBytes_swap _ f hf _ hl]
  have hmem : ∀ b ∈ ((List.range N).filter (· ≠ m)).map f, b.length = n := by
    intro b hb
    obtain ⟨p, _, rfl⟩ := List.mem_map.1 hb
    exact hf p
  refine ext_getD (n := n) 0 (foldl_xorBytes_length _ _ hl hmem) (hf m) fun i hi => ?_
  rw [foldl_xorBytes_getD _ _ hl hmem, List.map_map, List.foldl_map]
  have e : (xorOf n ((List.range N).map f)).getD i 0 = (List.range N).foldl (fun a p => a ^^^ (f p).getD i 0) 0 := by
    unfold xorOf
    rw [getD_range_map _ _ _ _ hi, List.map_map, List.foldl_map]
    rfl
  rw [e]
  exact fold_complete N m hm fun p => (f p).getD i 0

/-! ## Seeds -/

/-- The reveal list of the tree with the given root. -/
def revealOf (X : Xof) (I : Instance) (salt root : Bytes) (e m : Nat) : RevealList :=
  ⟨(List.range (depth I.numParties)).map fun k => seedAt X root salt e (sibling (ancestor (leafNode I.numParties m) k)), m⟩

/-- Seed of a party. -/
def partySeed (X : Xof) (I : Instance) (salt root : Bytes) (e p : Nat) : Bytes := seedAt X root salt e (leafNode I.numParties p)

section
variable {I : Instance} (hI : Consistent I)
include hI

theorem depth_pow : I.numParties = 2 ^ depth I.numParties := by
  obtain ⟨k, _, _, h⟩ := hI.parties
  rw [h, show depth (2 ^ k) = k from Nat.clog_pow 2 k (by norm_num)]

theorem sib_exists {m : Nat} (hm : m < I.numParties) {k : Nat} (hk : k < depth I.numParties) :
    (treeExists I.numParties).getD (sibling (ancestor (leafNode I.numParties m) k)) false = true := by
  obtain ⟨b1, b2, b3, b4⟩ := parties_bounds hI
  rw [ex_sib_iff b1 b3 hm k hk]
  unfold Present
  obtain ⟨_, s2⟩ := sib_level b1 b3 hm k hk
  have hN := depth_pow hI
  have h1 : (sibling (ancestor (leafNode I.numParties m) k) + 1 + 1) * 2 ^ k ≤ 2 ^ (depth I.numParties - k + 1) * 2 ^ k := Nat.mul_le_mul_right _ s2
  rw [← pow_add, show depth I.numParties - k + 1 + k = depth I.numParties + 1 by omega, pow_succ, ← hN] at h1
  have h2 : 0 < 2 ^ k := Nat.pos_of_ne_zero (by positivity)
  rw [← hN]
  rw [Nat.add_mul _ 1] at h1
  omega

theorem openedSeed_revealOf (X : Xof) (salt root : Bytes) (hr : root.length = I.seedSize) (e : Nat) {m p : Nat} (hm : m < I.numParties) (hp : p < I.numParties) (hne : p ≠ m) :
    openedSeed X I salt e (revealOf X I salt root e m) p = partySeed X I salt root e p := by
  obtain ⟨b1, b2, b3, b4⟩ := parties_bounds hI
  unfold openedSeed partySeed
  rw [← hr]
  refine revealV_eq b1 b3 hm X root salt e _ (fun k hk _ => ?_) _ ((leaf_offPath b1 b3 hm p hp).2 hne) (leaf_ex b1 b3 hp)
  unfold revealOf
  rw [getD_range_map _ _ _ _ hk]

theorem revealAllBut_revealOf (X : Xof) (salt root : Bytes) (e : Nat) {t : SeedTree} (ht : SeedTree.ofSeed X root I.numParties salt e = .ok t) {m : Nat} (hm : m < I.numParties) :
    t.revealAllBut m = revealOf X I salt root e m := by
  obtain ⟨b1, b2, b3, b4⟩ := parties_bounds hI
  obtain ⟨f, _, hv⟩ := ofSeed_spec X root salt e b1 b3 t ht
  rw [revealAllBut_eq b1 b3 hm f]
  unfold revealOf
  congr 1
  apply List.map_congr_left
  intro k hk
  have hx := sib_exists hI hm (List.mem_range.1 hk)
  rw [if_pos hx, (hv _ hx).2]

end

/-! ## A prover running all parties -/

/-- What a prover fixes in one repetition. -/
structure Run where
  root : Bytes
  skDelta : Bytes
  tDelta : Bytes
  pDelta : List W64

/-- Sizes of a run. -/
structure Run.Sized (I : Instance) (r : Run) : Prop where
  root : r.root.length = I.seedSize
  skDelta : r.skDelta.length = I.aes.keySize
  tDelta : r.tDelta.length = I.aes.numSboxes
  pDelta : r.pDelta.length = I.m2 + 1

/-- Deltas and tapes of all parties. -/
def Run.ctx (X : Xof) (I : Instance) (salt : Bytes) (e : Nat) (r : Run) : Ctx :=
  ⟨r.skDelta, r.tDelta, r.pDelta, fun p => genTape X I.tapeSize (partySeed X I salt r.root e p) salt e p⟩

/-- Seed commitments. -/
def Run.com (X : Xof) (I : Instance) (salt : Bytes) (e : Nat) (r : Run) (p : Nat) : Bytes := commitSingle X I (partySeed X I salt r.root e p) salt e p

namespace Ctx
variable (F : FieldState) (I : Instance) (pt : Bytes) (c : Ctx) (rs : List W64) (R : W64)

/-- `S_j(R)` -/
def sumA (j : Nat) : W64 := (List.range I.numParties).foldl (fun acc p => gfAdd acc (c.a F I pt rs R p j)) 0
/-- `T_j(R)` -/
def sumB (j : Nat) : W64 := (List.range I.numParties).foldl (fun acc p => gfAdd acc (c.b F I R p j)) 0
/-- `P(R)` -/
def sumC : W64 := (List.range I.numParties).foldl (fun acc p => gfAdd acc (c.pc F I rs R p)) 0

/-- What is hashed in phase 1. -/
def hash1 (com : Nat → Bytes) : Rep1Hash := ⟨(List.range I.numParties).map com, (List.range I.numParties).map (fun p => (c.out I pt p).2), c.skDelta, c.tDelta⟩

/-- What is hashed in phase 3. -/
def hash3 : Rep3 :=
  ⟨c.sumC F I rs R, (List.range I.numParties).map (c.pc F I rs R), (List.range I.m1).map (c.sumA F I pt rs R), (List.range I.m1).map (c.sumB F I R),
    (List.range I.numParties).map (fun p => (List.range I.m1).map (c.a F I pt rs R p)), (List.range I.numParties).map (fun p => (List.range I.m1).map (c.b F I R p))⟩

end Ctx

/-- The proof of one repetition. -/
def Run.proof (X : Xof) (F : FieldState) (I : Instance) (pt salt : Bytes) (e : Nat) (r : Run) (rs : List W64) (R : W64) (m : Nat) : Proof :=
  ⟨revealOf X I salt r.root e m, r.com X I salt e m, r.skDelta, r.tDelta, r.pDelta, (r.ctx X I salt e).sumC F I rs R, (List.range I.m1).map ((r.ctx X I salt e).sumA F I pt rs R),
    (List.range I.m1).map ((r.ctx X I salt e).sumB F I R)⟩

section
variable {I : Instance} (hI : Consistent I) (X : Xof) (F : FieldState) (pt salt : Bytes)
include hI

theorem Run.proof_shaped {r : Run} (hr : r.Sized I) (e : Nat) (rs : List W64) (R : W64) (m : Nat) : (r.proof X F I pt salt e rs R m).shaped I = true := by
  obtain ⟨b1, b2, b3, b4⟩ := parties_bounds hI
  unfold Proof.shaped Run.proof revealOf
  simp only [Bool.and_eq_true, decide_eq_true_eq, List.length_map, List.length_range, List.all_eq_true, beq_iff_eq]
  refine ⟨⟨⟨⟨⟨⟨⟨(ceilLog2_eq _ b4).symm, ?_⟩, ?_⟩, hr.skDelta⟩, hr.tDelta⟩, hr.pDelta⟩, trivial⟩, trivial⟩
  · intro s hs
    obtain ⟨k, _, rfl⟩ := List.mem_map.1 hs
    rw [seedAt_length, hr.root]
  · unfold Run.com commitSingle
    exact squeeze_len _ _ _

theorem Run.agree (dummy : Bytes) {r : Run} (hr : r.Sized I) (e : Nat) (rs : List W64) (R : W64) {m : Nat} (hm : m < I.numParties) :
    Ctx.Agree I m (verCtx X I dummy salt e (r.proof X F I pt salt e rs R m)) (r.ctx X I salt e) := by
  refine ⟨rfl, rfl, rfl, ?_⟩
  rintro p ⟨hp, hne⟩
  unfold verCtx verTape Run.ctx
  dsimp only
  have e1 : (r.proof X F I pt salt e rs R m).reveal = revealOf X I salt r.root e m := rfl
  rw [e1, if_neg (show p ≠ (revealOf X I salt r.root e m).missing from hne), openedSeed_revealOf hI X salt r.root hr.root e hm hp hne]

/-- What the verifier hashes in phase 1 is what the prover hashed. -/
theorem Run.hash1_eq (dummy ct : Bytes) {r : Run} (hr : r.Sized I) (e : Nat) (rs : List W64) (R : W64) {m : Nat} (hm : m < I.numParties)
    (hct : xorOf I.ctSize ((List.range I.numParties).map fun p => ((r.ctx X I salt e).out I pt p).2) = ct) :
    (verCtx X I dummy salt e (r.proof X F I pt salt e rs R m)).verHash1 I pt ct (r.proof X F I pt salt e rs R m)
      (fun p => commitSingle X I (openedSeed X I salt e (r.proof X F I pt salt e rs R m).reveal p) salt e p) m = (r.ctx X I salt e).hash1 I pt (r.com X I salt e) := by
  rw [(Run.agree hI X F pt salt dummy hr e rs R hm).verHash1 I]
  unfold Ctx.verHash1 Ctx.hash1
  rw [Rep1Hash.mk.injEq]
  refine ⟨?_, ?_, rfl, rfl⟩
  · apply List.map_congr_left
    intro p hp
    split
    · rename_i h; rw [h]; rfl
    · rename_i h
      dsimp only
      rw [show (r.proof X F I pt salt e rs R m).reveal = revealOf X I salt r.root e m from rfl, openedSeed_revealOf hI X salt r.root hr.root e hm (List.mem_range.1 hp) h]
      rfl
  · apply List.map_congr_left
    intro p hp
    split
    · rename_i h
      rw [h, ← hct]
      exact bytes_complete hm (fun p => ((r.ctx X I salt e).out I pt p).2) fun p => (out_length hI _ _ _).2
    · rfl

/-- What the verifier hashes in phase 3 is what the prover hashed. -/
theorem Run.hash3_eq (dummy : Bytes) {r : Run} (hr : r.Sized I) (e : Nat) (rs : List W64) (R : W64) {m : Nat} (hm : m < I.numParties) :
    (verCtx X I dummy salt e (r.proof X F I pt salt e rs R m)).verHash3 F I pt rs R (r.proof X F I pt salt e rs R m) m = (r.ctx X I salt e).hash3 F I pt rs R := by
  rw [(Run.agree hI X F pt salt dummy hr e rs R hm).verHash3 I]
  unfold Ctx.verHash3 Ctx.hash3
  rw [Rep3.mk.injEq]
  refine ⟨rfl, ?_, rfl, rfl, ?_, ?_⟩
  · apply List.map_congr_left
    intro p hp
    split
    · rename_i h
      rw [h]
      exact fold_complete _ _ hm fun q => (r.ctx X I salt e).pc F I rs R q
    · rfl
  · apply List.map_congr_left
    intro p hp
    apply List.map_congr_left
    intro j hj
    split
    · rename_i h
      rw [h, show (r.proof X F I pt salt e rs R m).sAtR = (List.range I.m1).map ((r.ctx X I salt e).sumA F I pt rs R) from rfl, getD_range_map _ _ _ _ (List.mem_range.1 hj)]
      exact fold_complete _ _ hm fun q => (r.ctx X I salt e).a F I pt rs R q j
    · rfl
  · apply List.map_congr_left
    intro p hp
    apply List.map_congr_left
    intro j hj
    split
    · rename_i h
      rw [h, show (r.proof X F I pt salt e rs R m).tAtR = (List.range I.m1).map ((r.ctx X I salt e).sumB F I R) from rfl, getD_range_map _ _ _ _ (List.mem_range.1 hj)]
      exact fold_complete _ _ hm fun q => (r.ctx X I salt e).b F I R q j
    · rfl

/-- The first hash of the prover. -/
def proverH1 (X : Xof) (I : Instance) (salt pk msg : Bytes) (runs : Nat → Run) : Bytes :=
  phase1Commit X I salt pk msg ((List.range I.numRounds).map fun e => ((runs e).ctx X I salt e).hash1 I (slice pk 0 I.ctSize) ((runs e).com X I salt e))

/-- The second hash of the prover. -/
def proverH2 (X : Xof) (F : FieldState) (I : Instance) (salt h1 : Bytes) (runs : Nat → Run) : Bytes :=
  phase2Commit X F I salt h1 ((List.range I.numRounds).map fun e => (runs e).pDelta)

/-- The third hash of the prover. -/
def proverH3 (X : Xof) (F : FieldState) (I : Instance) (pt salt h1 h2 : Bytes) (runs : Nat → Run) (Rs : List W64) : Bytes :=
  phase3Commit X F I salt h2 ((List.range I.numRounds).map fun e => ((runs e).ctx X I salt e).hash3 F I pt ((phase1Expand X F I h1).getD e []) (Rs.getD e 0))

/-- The signature of the prover. -/
def proverSig (X : Xof) (F : FieldState) (I : Instance) (pt salt h1 h3 : Bytes) (runs : Nat → Run) (Rs : List W64) (ms : List Nat) : Signature :=
  ⟨salt, h1, h3, (List.range I.numRounds).map fun e => (runs e).proof X F I pt salt e ((phase1Expand X F I h1).getD e []) (Rs.getD e 0) (ms.getD e 0)⟩

/-- A prover whose broadcasts add up to the ciphertext and whose values at `R` satisfy the product relation convinces the verifier. -/
theorem prover_accepted [hF : FieldOk F] (dummy : Bytes) (hd : dummy.length = I.seedSize) (fuel : Nat) (pk : Bytes) (hpk : 2 * I.ctSize ≤ pk.length) (msg : Bytes) (hsalt : salt.length = 32)
    (runs : Nat → Run) (hr : ∀ e < I.numRounds, (runs e).Sized I) (h1 h2 h3 : Bytes) (Rs : List W64) (ms : List Nat)
    (e1 : proverH1 X I salt pk msg runs = h1) (e2 : proverH2 X F I salt h1 runs = h2) (e3 : proverH3 X F I (slice pk 0 I.ctSize) salt h1 h2 runs Rs = h3)
    (hRs : phase2Expand X fuel F I h2 (F.firstN I.m2) = .ok Rs) (hms : phase3Expand X fuel I h3 = .ok ms)
    (hct : ∀ e < I.numRounds, xorOf I.ctSize ((List.range I.numParties).map fun p => (((runs e).ctx X I salt e).out I (slice pk 0 I.ctSize) p).2) = slice pk I.ctSize I.ctSize)
    (hprod : ∀ e < I.numRounds, sumProducts F I ((List.range I.m1).map (((runs e).ctx X I salt e).sumA F I (slice pk 0 I.ctSize) ((phase1Expand X F I h1).getD e []) (Rs.getD e 0)))
      ((List.range I.m1).map (((runs e).ctx X I salt e).sumB F I (Rs.getD e 0))) = ((runs e).ctx X I salt e).sumC F I ((phase1Expand X F I h1).getD e []) (Rs.getD e 0)) :
    verifyWith X dummy fuel F I pk (proverSig X F I (slice pk 0 I.ctSize) salt h1 h3 runs Rs ms) msg = .ok true := by
  obtain ⟨ml, mlt⟩ := phase3Expand_spec X _ fuel I h3 ms hms
  have hmlt : ∀ e < I.numRounds, ms.getD e 0 < I.numParties := fun e he => by
    rw [getD_of_lt (by omega)]
    exact mlt _ (List.getElem_mem _)
  have hs : (proverSig X F I (slice pk 0 I.ctSize) salt h1 h3 runs Rs ms).shaped I = true := by
    unfold Signature.shaped proverSig
    simp only [Bool.and_eq_true, decide_eq_true_eq, List.all_eq_true, List.length_map, List.length_range]
    refine ⟨⟨⟨⟨hsalt, ?_⟩, ?_⟩, trivial⟩, ?_⟩
    · rw [← e1]; unfold proverH1 phase1Commit; exact squeeze_len _ _ _
    · rw [← e3]; unfold proverH3 phase3Commit; exact squeeze_len _ _ _
    · intro p hp
      obtain ⟨e, he, rfl⟩ := List.mem_map.1 hp
      exact Run.proof_shaped hI X F _ _ (hr e (List.mem_range.1 he)) _ _ _ _
  rw [verifyWith_eq hI F X dummy hd fuel pk hpk _ hs msg]
  have hh2 : verH2 X F I (proverSig X F I (slice pk 0 I.ctSize) salt h1 h3 runs Rs ms) = h2 := by
    rw [← e2]
    unfold verH2 proverH2 proverSig
    dsimp only
    rw [List.map_map]
    rfl
  have hpr : ∀ e < I.numRounds, (proverSig X F I (slice pk 0 I.ctSize) salt h1 h3 runs Rs ms).proofs.getD e noProof =
      (runs e).proof X F I (slice pk 0 I.ctSize) salt e ((phase1Expand X F I h1).getD e []) (Rs.getD e 0) (ms.getD e 0) := fun e he => by
    unfold proverSig
    rw [getD_range_map _ _ _ _ he]
  rw [hh2, hRs]
  change (phase3Expand X fuel I h3).bind _ = _
  rw [hms]
  change (if ms = _ then _ else _) = _
  rw [if_pos ?_]
  · congr 1
    simp only [Bool.and_eq_true, decide_eq_true_eq, List.all_eq_true]
    refine ⟨⟨?_, ?_⟩, ?_⟩
    · change phase1Commit X I salt pk msg _ = h1
      refine Eq.trans ?_ e1
      unfold proverH1 verReps1
      congr 1
      apply List.map_congr_left
      intro e he
      have he := List.mem_range.1 he
      dsimp only
      rw [hpr e he]
      exact Run.hash1_eq hI X F _ salt dummy _ (hr e he) e _ _ (hmlt e he) (hct e he)
    · change phase3Commit X F I salt h2 _ = h3
      refine Eq.trans ?_ e3
      unfold proverH3 verReps3
      congr 1
      apply List.map_congr_left
      intro e he
      have he := List.mem_range.1 he
      dsimp only
      rw [hpr e he]
      exact Run.hash3_eq hI X F _ salt dummy (hr e he) e _ _ (hmlt e he)
    · intro p hp
      obtain ⟨e, he, rfl⟩ := List.mem_map.1 hp
      exact hprod e (List.mem_range.1 he)
  · unfold proverSig
    dsimp only
    rw [List.map_map]
    exact eq_range_map ms _ _ ml

end

end Banquet
