import Verif.Proofs.CodeTree
import Verif.Proofs.SignFull

/-! Sign, verify and deserialize with the hash calls of the code are those over SHAKE. -/

namespace Banquet.Code

open Spec

theorem small_le {n m : Nat} (h : Small m) (hn : n ≤ m) : Small n := by unfold Small at *; omega

theorem small_of {n : Nat} (h : n ≤ 2 ^ 20) : Small n := by unfold Small; omega

/-- Entries computed four at a time and the rest one at a time are the table of all entries. -/
theorem quads_eq {α : Type} (g : Nat → α) (m : Nat) : ((List.range m).flatMap fun b => quad fun l : Fin 4 => g (4 * b + l.val)) = (List.range (4 * m)).map g := by
  induction m with
  | zero => rfl
  | succ m ih =>
    rw [List.range_succ, List.flatMap_append, ih, Nat.mul_succ, List.range_add, List.map_append]
    rfl

theorem quads_rest {α : Type} (g : Nat → α) (n : Nat) :
    ((List.range (n / 4)).flatMap fun b => quad fun l : Fin 4 => g (4 * b + l.val)) ++ ((List.range (n % 4)).map fun d => g (n / 4 * 4 + d)) = (List.range n).map g := by
  rw [quads_eq, Nat.mul_comm (n / 4)]
  conv => rhs; rw [← Nat.div_add_mod n 4, List.range_add, List.map_append, List.map_map]
  rfl

theorem mapM_congr {α β : Type} {l : List α} {g g' : α → M β} (h : ∀ x ∈ l, g x = g' x) : l.mapM g = l.mapM g' := by
  induction l with
  | nil => rfl
  | cons x l ih => rw [List.mapM_cons, List.mapM_cons, h x List.mem_cons_self, ih fun y hy => h y (List.mem_cons_of_mem _ hy)]

/-- Results of a loop satisfy what every single result satisfies. -/
theorem mapM_all {α β : Type} (P : β → Prop) {l : List α} {g : α → M β} (h : ∀ x ∈ l, ∀ y, g x = .ok y → P y) {r : List β} (hr : l.mapM g = .ok r) : ∀ y ∈ r, P y := by
  induction l generalizing r with
  | nil => injection hr with hr; subst hr; simp
  | cons x l ih =>
    rw [List.mapM_cons] at hr
    cases hx : g x with
    | error e => rw [hx] at hr; cases hr
    | ok y =>
      rw [hx, ok_bind] at hr
      cases hl : l.mapM g with
      | error e => rw [hl] at hr; cases hr
      | ok ys =>
        rw [hl, ok_bind] at hr
        injection hr with hr
        subst hr
        intro z hz
        rcases List.mem_cons.1 hz with rfl | hz
        · exact h x List.mem_cons_self _ hx
        · exact ih (fun y hy => h y (List.mem_cons_of_mem _ hy)) hl z hz

section
variable {I : Instance} (hI : Consistent I)
include hI

theorem sizes : I.seedSize ≤ 32 ∧ I.digestSize ≤ 64 ∧ I.lambda ≤ 6 ∧ I.tapeSize ≤ 2 ^ 20 ∧ I.aes.keySize ≤ 32 ∧ I.aes.numSboxes ≤ 500 ∧ I.ctSize ≤ 32 := by
  have hm1 : I.m1 ≤ I.aes.numSboxes := by
    rw [← hI.sboxes]
    rcases Nat.eq_zero_or_pos I.m2 with h | h
    · exfalso
      have := hI.sboxes
      rw [h, Nat.mul_zero] at this
      rcases hI.aes with h | h | h <;> (simp only [Prod.mk.injEq] at h; omega)
    · exact Nat.le_mul_of_pos_right _ h
  have hm2 : I.m2 ≤ I.aes.numSboxes := by
    rw [← hI.sboxes]
    rcases Nat.eq_zero_or_pos I.m1 with h | h
    · exfalso
      have := hI.sboxes
      rw [h, Nat.zero_mul] at this
      rcases hI.aes with h | h | h <;> (simp only [Prod.mk.injEq] at h; omega)
    · exact Nat.le_mul_of_pos_left _ h
  have hd := hI.digest
  have hs := hI.seed
  unfold Instance.tapeSize Instance.ctSize
  have hl : I.lambda = 2 ∨ I.lambda = 4 ∨ I.lambda = 5 ∨ I.lambda = 6 := by
    have := hI.lambda
    unfold Supported at this
    exact this
  rcases hI.aes with h | h | h <;> simp only [Prod.mk.injEq] at h <;> obtain ⟨a1, a2, a3, a4⟩ := h <;> simp only [a1, a2, a3, a4] at hs hm1 hm2 ⊢ <;> rcases hl with h | h | h | h <;> rw [h] <;> omega

theorem party_mask : numSqueezeBytes I.numParties = 1 → (2 ^ ceilLog2 I.numParties - 1) % 2 ^ 16 < 256 := by
  intro h
  obtain ⟨k, k1, k2, hk⟩ := hI.parties
  have hn : I.numParties ≤ 256 := by
    unfold numSqueezeBytes at h
    split at h
    · omega
    · omega
  rw [ceilLog2_eq _ (parties_bounds hI).2.2.2, hk, Nat.clog_pow 2 k (by norm_num)]
  rw [hk] at hn
  have : (2 ^ k - 1) % 2 ^ 16 ≤ 2 ^ k - 1 := Nat.mod_le _ _
  omega

end

theorem xorFold_le (l : List Bytes) (k : Bytes) : (l.foldl (fun d s => xorBytes s d) k).length ≤ k.length := by
  induction l generalizing k with
  | nil => exact Nat.le_refl _
  | cons s l ih =>
    rw [List.foldl_cons]
    refine (ih _).trans ?_
    rw [length_xorBytes]
    exact Nat.min_le_right _ _

variable {f : St → St} {H : Hash} {v1 : H.one.State → St} {v4 : H.four.State → Fin 4 → St} (h1 : Snp f H.one v1) (h4 : PlSnp f H.four v4)
variable {I : Instance} (hI : Consistent I)

include h1 h4 hI in
theorem signCommit_eq (salt : Bytes) (hsalt : Small salt.length) (rep : Nat) (tree : SeedTree) (seed : Nat → Bytes) (hl : ∀ p < I.numParties, leafValue tree p = .ok (seed p)) (hs : ∀ p < I.numParties, (seed p).length = I.seedSize) :
    signCommit H I salt rep tree = .ok ((List.range I.numParties).map fun p =>
      if fourWay I p then commitLane (shake f) I (seed p) salt rep p else commitSingle (shake f) I (seed p) salt rep p) := by
  obtain ⟨z1, z2, -⟩ := sizes hI
  unfold signCommit
  rw [mapM_ok _ _ (fun b => fun l : Fin 4 => commitLane (shake f) I (seed (4 * b + l.val)) salt rep (4 * b + l.val)) (fun b hb => ?_), ok_bind,
    mapM_ok _ _ (fun d => commitSingle (shake f) I (seed (I.numParties / 4 * 4 + d)) salt rep (I.numParties / 4 * 4 + d)) (fun d hd => ?_), ok_bind, ← quads_rest (fun p => if fourWay I p then commitLane (shake f) I (seed p) salt rep p else commitSingle (shake f) I (seed p) salt rep p) I.numParties]
  · congr 2
    · rw [List.flatMap_map]
      refine List.flatMap_congr fun b hb => ?_
      have hb := List.mem_range.1 hb
      congr 1
      funext l
      have := l.isLt
      rw [if_pos (by unfold fourWay; simp only [decide_eq_true_eq]; omega)]
    · apply List.map_congr_left
      intro d _
      rw [if_neg (by unfold fourWay; simp only [decide_eq_true_eq]; omega)]
  · have hd := List.mem_range.1 hd
    have hp : I.numParties / 4 * 4 + d < I.numParties := by omega
    rw [hl _ hp, ok_bind]
    exact commitParty_eq h1 I _ salt rep _ (by rw [hs _ hp]; exact small_of (by omega)) hsalt (small_of (by omega))
  · have hb := List.mem_range.1 hb
    have hp : ∀ l < 4, 4 * b + l < I.numParties := by omega
    rw [show leafValue tree (4 * b) = .ok (seed (4 * b)) from hl _ (hp 0 (by norm_num)), ok_bind, hl _ (hp 1 (by norm_num)), ok_bind, hl _ (hp 2 (by norm_num)), ok_bind, hl _ (hp 3 (by norm_num)), ok_bind]
    have e : (fun l : Fin 4 => [seed (4 * b), seed (4 * b + 1), seed (4 * b + 2), seed (4 * b + 3)].getD l.val []) = fun l : Fin 4 => seed (4 * b + l.val) := by
      funext l
      fin_cases l <;> rfl
    rw [e]
    exact commit4_eq h4 I _ salt rep _ (fun l => by rw [hs _ (hp l.val l.isLt)]) (small_of (by omega)) hsalt (small_of (by omega))

include h1 h4 hI in
theorem signRep1_eq (J : Junk) (hJ : ∀ e b, I.seedSize ≤ (J.tree e b).length) (key pt savedT salt root : Bytes) (hsalt : Small salt.length) (hr : root.length = I.seedSize) (rep : Nat) :
    signRep1 H J I key pt savedT salt root rep = Banquet.signRep1 (shake f) I key pt savedT salt root rep := by
  obtain ⟨z1, z2, z3, z4, -⟩ := sizes hI
  obtain ⟨t, ht, hl⟩ := signTree hI (shake f) salt root rep hr
  have hs : ∀ p < I.numParties, (partySeed (shake f) I salt root rep p).length = I.seedSize := by
    intro p hp
    unfold partySeed
    rw [seedAt_length, hr]
  unfold signRep1 Banquet.signRep1
  rw [ofSeed_eq h1 h4 (J.tree rep) root (by rw [hr]; exact small_of (by omega)) (by rw [hr]; exact hJ rep) I.numParties salt hsalt rep, ht, ok_bind, ok_bind,
    signCommit_eq h1 h4 hI salt hsalt rep t _ hl hs, ok_bind, mapM_ok _ (leafValue t) (partySeed (shake f) I salt root rep) (fun p hp => hl p (List.mem_range.1 hp)), ok_bind,
    mapM_ok _ _ (fun p => Banquet.genTape (shake f) I.tapeSize (partySeed (shake f) I salt root rep p) salt rep p) (fun p hp => ?_), ok_bind]
  · simp only
    congr 2
    · apply List.map_congr_left
      intro p hp
      rw [getD_range_map _ _ _ _ (List.mem_range.1 hp)]
    · apply List.map_congr_left
      intro p hp
      rw [getD_range_map _ _ _ _ (List.mem_range.1 hp)]
  · have hp := List.mem_range.1 hp
    rw [hl p hp, ok_bind]
    exact genTape_eq h1 _ _ salt rep p (by rw [hs p hp]; exact small_of (by omega)) hsalt (small_of z4)

include hI in
theorem signRep1_small {X : Xof} (key pt savedT salt root : Bytes) (rep : Nat) (hk : key.length = I.aes.keySize) (ht : savedT.length = I.aes.numSboxes) (hr : root.length = I.seedSize) {r : SignRep1}
    (h : Banquet.signRep1 X I key pt savedT salt root rep = .ok r) : SmallRep ⟨r.commitments, r.ctShares, r.keyDelta, r.tDelta⟩ := by
  obtain ⟨z1, z2, z3, z4, z5, z6, z7⟩ := sizes hI
  obtain ⟨t, ht', hl⟩ := signTree hI X salt root rep hr
  unfold Banquet.signRep1 at h
  rw [ht', ok_bind, mapM_ok _ (leafValue t) (partySeed X I salt root rep) (fun p hp => hl p (List.mem_range.1 hp)), ok_bind] at h
  injection h with h
  rw [← h]
  refine ⟨?_, ?_, ?_, ?_⟩
  · intro c hc
    obtain ⟨p, -, rfl⟩ := List.mem_map.1 hc
    refine small_of ?_
    split
    · unfold commitLane; rw [squeeze_len]; omega
    · unfold commitSingle; rw [squeeze_len]; omega
  · intro c hc
    simp only [signShares, mpcAes, List.map_map] at hc
    obtain ⟨p, -, rfl⟩ := List.mem_map.1 hc
    refine small_of ?_
    simp only [Function.comp_apply]
    rw [(aesParty_length _ _ _ _ _).2]
    unfold ctLength
    split <;> norm_num
  · refine small_of ((xorFold_le _ _).trans ?_)
    omega
  · refine small_of ((xorFold_le _ _).trans ?_)
    omega

include h1 h4 hI in
theorem signWith_eq (J : Junk) (hJ : ∀ e b, I.seedSize ≤ (J.tree e b).length) (fuel : Nat) (F : FieldState) (hF : Small F.byteSize) (sk pk msg : Bytes) (hpk : Small pk.length)
    (hm1 : Fits (kindRate (kindOf I.digestSize)) ((2 + sk.length + pk.length) % kindRate (kindOf I.digestSize)) msg.length)
    (hm2 : Fits (kindRate (kindOf I.digestSize)) ((1 + 32 + pk.length) % kindRate (kindOf I.digestSize)) msg.length) :
    signWith H J fuel F I sk pk msg = Banquet.signWith (shake f) fuel F I sk pk msg := by
  obtain ⟨z1, z2, z3, z4, z5, z6, z7⟩ := sizes hI
  unfold signWith Banquet.signWith
  refine bind_eq rfl fun _ _ => bind_eq rfl fun _ hr => ?_
  have hsk : sk.length = I.aes.keySize := by
    by_contra hc
    unfold require at hr
    rw [if_neg (by simp only [decide_eq_true_eq]; exact fun h => hc h.1)] at hr
    cases hr
  simp only
  refine bind_eq rfl fun _ hr => ?_
  have hsaved : (aesSave I.aes.keySize sk (slice pk 0 I.ctSize)).2.2.length = I.aes.numSboxes := by
    by_contra hc
    unfold require at hr
    rw [if_neg (by simp only [decide_eq_true_eq]; exact fun h => hc h.1)] at hr
    cases hr
  rw [genSaltAndSeeds_eq h1 I sk pk msg (by rw [hsk]; exact small_of (by omega)) hpk hm1 (small_of (by omega)), ok_bind]
  have hlsalt : (genSalt (shake f) I sk pk msg).length = 32 := by unfold genSalt; rw [squeeze_len]
  have hsalt : Small (genSalt (shake f) I sk pk msg).length := by unfold genSalt; rw [squeeze_len]; exact small_of (by norm_num)
  simp only
  refine bind_eq (mapM_congr fun e he => ?_) fun reps1 hreps1 => ?_
  · rw [getD_range_map _ _ _ _ (List.mem_range.1 he)]
    exact signRep1_eq h1 h4 hI J hJ _ _ _ _ _ hsalt (by unfold genSeed; rw [squeeze_len]) e
  have hrep : ∀ r ∈ reps1.map (fun r => (⟨r.commitments, r.ctShares, r.keyDelta, r.tDelta⟩ : Rep1Hash)), SmallRep r := by
    intro r hr
    obtain ⟨r1, hr1, rfl⟩ := List.mem_map.1 hr
    refine mapM_all (fun r1 : SignRep1 => SmallRep ⟨r1.commitments, r1.ctShares, r1.keyDelta, r1.tDelta⟩) (fun e _ y hy => ?_) hreps1 r1 hr1
    exact signRep1_small hI _ _ _ _ _ _ hsk hsaved (by unfold genSeed; rw [squeeze_len]) hy
  rw [phase1Commit_eq h1 I _ pk msg _ hsalt hpk (by rw [hlsalt]; exact hm2) hrep (small_of (by omega)), ok_bind]
  have hd1 : Small (Banquet.phase1Commit (shake f) I (genSalt (shake f) I sk pk msg) pk msg (reps1.map fun r => ⟨r.commitments, r.ctShares, r.keyDelta, r.tDelta⟩)).length := by
    unfold Banquet.phase1Commit
    rw [squeeze_len]
    exact small_of (by omega)
  rw [phase1Expand_eq h1 F I _ hd1 (small_of (by omega)), ok_bind]
  refine bind_eq rfl fun lastSq _ => bind_eq rfl fun prods _ => bind_eq rfl fun reps2 _ => ?_
  rw [phase2Commit_eq h1 F I _ _ _ hsalt hd1 hF (small_of (by omega)), ok_bind]
  have hd2 : ∀ s d p, Small (Banquet.phase2Commit (shake f) F I s d p).length := by
    intro s d p
    unfold Banquet.phase2Commit
    rw [squeeze_len]
    exact small_of (by omega)
  refine bind_eq (phase2Expand_eq h1 fuel F I _ _ (hd2 _ _ _) (small_of (by omega))) fun Rs _ => bind_eq rfl fun reps3 _ => ?_
  rw [phase3Commit_eq h1 F I _ _ _ hsalt (hd2 _ _ _) hF (small_of (by omega)), ok_bind]
  have hd3 : ∀ s d p, Small (Banquet.phase3Commit (shake f) F I s d p).length := by
    intro s d p
    unfold Banquet.phase3Commit
    rw [squeeze_len]
    exact small_of (by omega)
  exact bind_eq (phase3Expand_eq h1 J.party fuel I _ (hd3 _ _ _) (party_mask hI)) fun ms _ => rfl

theorem sign_eq_of (J : Junk) (fuel : Nat) (sk pk msg : Bytes) (X : Xof) (h : ∀ F, initExtensionField I.lambda = .ok F → signWith H J fuel F I sk pk msg = Banquet.signWith X fuel F I sk pk msg) :
    sign H J fuel I sk pk msg = Banquet.sign X fuel I sk pk msg := bind_eq rfl h

include h1 h4 hI in
theorem verCommit_eq (dummy salt : Bytes) (hd : dummy.length = I.seedSize) (hsalt : Small salt.length) (missing rep : Nat) (tree : SeedTree) (seed : Nat → Bytes)
    (hl : ∀ p < I.numParties, tree.getLeaf p = if p = missing then none else some (seed p)) (hs : ∀ p < I.numParties, p ≠ missing → (seed p).length = I.seedSize) :
    verCommit H dummy I salt missing rep tree = (List.range I.numParties).mapM fun p =>
      if fourWay I p then .ok (commitLane (shake f) I ((tree.getLeaf p).getD dummy) salt rep p)
      else if p ≠ missing then do
        let s ← leafValue tree p
        .ok (commitSingle (shake f) I s salt rep p)
      else .ok (List.replicate I.digestSize 0) := by
  obtain ⟨z1, z2, -⟩ := sizes hI
  have hlen : ∀ p < I.numParties, ((tree.getLeaf p).getD dummy).length = I.seedSize := by
    intro p hp
    rw [hl p hp]
    split
    · exact hd
    · rename_i hne
      exact hs p hp hne
  have hlv : ∀ p < I.numParties, p ≠ missing → leafValue tree p = .ok ((tree.getLeaf p).getD dummy) := by
    intro p hp hne
    unfold leafValue
    rw [hl p hp, if_neg hne]
    rfl
  rw [mapM_ok _ _ (fun p => if fourWay I p then commitLane (shake f) I ((tree.getLeaf p).getD dummy) salt rep p
    else if p ≠ missing then commitSingle (shake f) I ((tree.getLeaf p).getD dummy) salt rep p else List.replicate I.digestSize 0) (fun p hp => ?_)]
  · unfold verCommit
    rw [mapM_ok _ _ (fun b => fun l : Fin 4 => commitLane (shake f) I ((tree.getLeaf (4 * b + l.val)).getD dummy) salt rep (4 * b + l.val)) (fun b hb => ?_), ok_bind,
      mapM_ok _ _ (fun d => if I.numParties / 4 * 4 + d ≠ missing then commitSingle (shake f) I ((tree.getLeaf (I.numParties / 4 * 4 + d)).getD dummy) salt rep (I.numParties / 4 * 4 + d)
        else List.replicate I.digestSize 0) (fun d hd' => ?_), ok_bind, ← quads_rest (fun p => if fourWay I p then commitLane (shake f) I ((tree.getLeaf p).getD dummy) salt rep p
          else if p ≠ missing then commitSingle (shake f) I ((tree.getLeaf p).getD dummy) salt rep p else List.replicate I.digestSize 0) I.numParties]
    · congr 2
      · rw [List.flatMap_map]
        refine List.flatMap_congr fun b hb => ?_
        have hb := List.mem_range.1 hb
        congr 1
        funext l
        have := l.isLt
        rw [if_pos (by unfold fourWay; simp only [decide_eq_true_eq]; omega)]
      · apply List.map_congr_left
        intro d _
        rw [if_neg (c := fourWay I _ = true) (by unfold fourWay; simp only [decide_eq_true_eq]; omega)]
    · have hd' := List.mem_range.1 hd'
      have hp : I.numParties / 4 * 4 + d < I.numParties := by omega
      split
      · rename_i hne
        rw [hlv _ hp hne, ok_bind]
        exact commitParty_eq h1 I _ salt rep _ (by rw [hlen _ hp]; exact small_of (by omega)) hsalt (small_of (by omega))
      · rfl
    · have hb := List.mem_range.1 hb
      have hp : ∀ l < 4, 4 * b + l < I.numParties := by omega
      exact commit4_eq h4 I _ salt rep _ (fun l => by rw [hlen _ (hp l.val l.isLt)]) (small_of (by omega)) hsalt (small_of (by omega))
  · have hp := List.mem_range.1 hp
    split
    · rfl
    · split
      · rename_i hne
        rw [hlv p hp hne]
        rfl
      · rfl

include h1 h4 hI in
theorem verTapes_eq (dummy salt : Bytes) (hsalt : Small salt.length) (rep : Nat) (tree : SeedTree) (hlen : ∀ p < I.numParties, ((tree.getLeaf p).getD dummy).length = I.seedSize) :
    verTapes H dummy I salt rep tree = .ok ((List.range I.numParties).map fun p =>
      if fourWay I p then
        genTapeLane (shake f) I.tapeSize ((tree.getLeaf (p / 4 * 4)).getD dummy).length ((tree.getLeaf p).getD dummy) salt rep p
      else Banquet.genTape (shake f) I.tapeSize ((tree.getLeaf p).getD dummy) salt rep p) := by
  obtain ⟨z1, z2, z3, z4, -⟩ := sizes hI
  unfold verTapes
  rw [mapM_ok _ _ (fun b => fun l : Fin 4 => genTapeLane (shake f) I.tapeSize ((tree.getLeaf (4 * b)).getD dummy).length ((tree.getLeaf (4 * b + l.val)).getD dummy) salt rep (4 * b + l.val)) (fun b hb => ?_), ok_bind,
    mapM_ok _ _ (fun d => Banquet.genTape (shake f) I.tapeSize ((tree.getLeaf (I.numParties / 4 * 4 + d)).getD dummy) salt rep (I.numParties / 4 * 4 + d)) (fun d hd => ?_), ok_bind,
    ← quads_rest (fun p => if fourWay I p then
        genTapeLane (shake f) I.tapeSize ((tree.getLeaf (p / 4 * 4)).getD dummy).length ((tree.getLeaf p).getD dummy) salt rep p
      else Banquet.genTape (shake f) I.tapeSize ((tree.getLeaf p).getD dummy) salt rep p) I.numParties]
  · congr 2
    · rw [List.flatMap_map]
      refine List.flatMap_congr fun b hb => ?_
      have hb := List.mem_range.1 hb
      congr 1
      funext l
      have := l.isLt
      rw [if_pos (by unfold fourWay; simp only [decide_eq_true_eq]; omega), show (4 * b + l.val) / 4 * 4 = 4 * b by omega]
    · apply List.map_congr_left
      intro d _
      rw [if_neg (by unfold fourWay; simp only [decide_eq_true_eq]; omega)]
  · have hd := List.mem_range.1 hd
    have hp : I.numParties / 4 * 4 + d < I.numParties := by omega
    exact genTape_eq h1 _ _ salt rep _ (by rw [hlen _ hp]; exact small_of (by omega)) hsalt (small_of z4)
  · have hb := List.mem_range.1 hb
    have hp : ∀ l < 4, 4 * b + l < I.numParties := by omega
    have h0 : ((tree.getLeaf (4 * b + (0 : Fin 4).val)).getD dummy).length = I.seedSize := hlen _ (hp 0 (by norm_num))
    exact genTape4_eq h4 _ (fun l : Fin 4 => (tree.getLeaf (4 * b + l.val)).getD dummy) salt rep (4 * b) (fun l => by rw [h0, hlen _ (hp l.val l.isLt)]) (by rw [h0]; exact small_of (by omega)) hsalt (small_of z4)

include h1 h4 hI in
theorem verRep1_eq (J : Junk) (hJ : ∀ e b, I.seedSize ≤ (J.tree e b).length) (dummy pt ct salt : Bytes) (hd : dummy.length = I.seedSize) (hsalt : Small salt.length) (proof : Proof) (hp : proof.shaped I = true) (missing rep : Nat)
    (hm : missing < I.numParties) : verRep1 H J dummy I pt ct salt proof missing rep = Banquet.verRep1 (shake f) dummy I pt ct salt proof missing rep := by
  obtain ⟨z1, z2, z3, z4, -⟩ := sizes hI
  unfold verRep1 Banquet.verRep1
  refine bind_eq rfl fun _ hr => ?_
  have hmm : missing = proof.reveal.missing := by
    by_contra hc
    unfold require at hr
    rw [if_neg (by simpa using hc)] at hr
    cases hr
  have hsh := shaped_seeds hp
  obtain ⟨t, ht, hl⟩ := ofReveal_leaves hI (shake f) salt rep hsh (hmm ▸ hm)
  rw [(ofReveal_eq h1 h4 (J.tree rep) proof.reveal I.seedSize hsh.2 (small_of (by omega)) (hJ rep) I.numParties salt hsalt rep).1, ht, ok_bind, ok_bind]
  rw [← hmm] at hl
  have hs : ∀ p < I.numParties, p ≠ missing → (openedSeed (shake f) I salt rep proof.reveal p).length = I.seedSize :=
    fun p hp hne => openedSeed_length hI (shake f) salt rep hsh (hmm ▸ hm) p hp (hmm ▸ hne)
  have hlen : ∀ p < I.numParties, ((t.getLeaf p).getD dummy).length = I.seedSize := by
    intro p hp
    rw [hl p hp]
    split
    · exact hd
    · rename_i hne
      exact hs p hp hne
  rw [verCommit_eq h1 h4 hI dummy salt hd hsalt missing rep t _ hl hs]
  refine bind_eq rfl fun cs _ => ?_
  rw [verTapes_eq h1 h4 hI dummy salt hsalt rep t hlen, ok_bind]

theorem missingShare_le (ct : Bytes) (missing : Nat) (shares : List Bytes) : (missingShare I ct missing shares).length ≤ ct.length := by
  unfold missingShare
  generalize (List.range I.numParties).filter (· ≠ missing) = l
  induction l generalizing ct with
  | nil => exact Nat.le_refl _
  | cons p l ih =>
    rw [List.foldl_cons]
    refine (ih _).trans ?_
    rw [length_xorBytes]
    exact Nat.min_le_right _ _

include hI in
theorem verRep1_small {X : Xof} (dummy pt ct salt : Bytes) (hct : ct.length ≤ 32) (proof : Proof) (hp : proof.shaped I = true) (missing rep : Nat) {r : VerRep1} (h : Banquet.verRep1 X dummy I pt ct salt proof missing rep = .ok r) :
    SmallRep ⟨r.commitments, r.ctShares, proof.skDelta, proof.tDelta⟩ := by
  obtain ⟨z1, z2, z3, z4, z5, z6, z7⟩ := sizes hI
  have hp' := hp
  unfold Proof.shaped at hp'
  simp only [Bool.and_eq_true, decide_eq_true_eq, List.all_eq_true, beq_iff_eq] at hp'
  obtain ⟨⟨⟨⟨⟨⟨⟨-, -⟩, hcE⟩, hsk⟩, htd⟩, -⟩, -⟩, -⟩ := hp'
  unfold Banquet.verRep1 at h
  cases hr : require .thrown (decide (missing = proof.reveal.missing)) with
  | error e => rw [hr] at h; cases h
  | ok _ =>
    rw [hr, ok_bind] at h
    cases ht : SeedTree.ofReveal X proof.reveal I.numParties salt rep with
    | error e => rw [ht] at h; cases h
    | ok t =>
      rw [ht, ok_bind] at h
      cases hc : (List.range I.numParties).mapM fun p =>
          if fourWay I p then .ok (commitLane X I ((t.getLeaf p).getD dummy) salt rep p)
          else if p ≠ missing then do
            let s ← leafValue t p
            .ok (commitSingle X I s salt rep p)
          else (.ok (List.replicate I.digestSize 0) : M Bytes) with
      | error e => rw [hc] at h; cases h
      | ok cs =>
        rw [hc, ok_bind] at h
        injection h with h
        rw [← h]
        have hcs : ∀ c ∈ cs, Small c.length := mapM_all (fun c : Bytes => Small c.length) (fun p _ y hy => by
          split at hy
          · injection hy with hy
            rw [← hy]
            unfold commitLane
            rw [squeeze_len]
            exact small_of (by omega)
          · split at hy
            · cases hv : leafValue t p with
              | error e => rw [hv] at hy; cases hy
              | ok s =>
                rw [hv, ok_bind] at hy
                injection hy with hy
                rw [← hy]
                unfold commitSingle
                rw [squeeze_len]
                exact small_of (by omega)
            · injection hy with hy
              rw [← hy, List.length_replicate]
              exact small_of (by omega)) hc
        refine ⟨?_, ?_, by simp only; rw [hsk]; exact small_of (by omega), by simp only; rw [htd]; exact small_of (by omega)⟩
        · intro c hc
          rcases List.mem_or_eq_of_mem_set hc with hc | rfl
          · exact hcs c hc
          · rw [hcE]
            exact small_of (by omega)
        · intro c hc
          rcases List.mem_or_eq_of_mem_set hc with hc | rfl
          · simp only [mpcAes, List.map_map] at hc
            obtain ⟨p, -, rfl⟩ := List.mem_map.1 hc
            refine small_of ?_
            simp only [Function.comp_apply]
            rw [(aesParty_length _ _ _ _ _).2]
            unfold ctLength
            split <;> norm_num
          · exact small_of ((missingShare_le _ _ _).trans (by omega))

include h1 h4 hI in
theorem verifyWith_eq (J : Junk) (hJ : ∀ e b, I.seedSize ≤ (J.tree e b).length) (dummy : Bytes) (hd : dummy.length = I.seedSize) (fuel : Nat) (F : FieldState) (hF : Small F.byteSize) (pk : Bytes) (sig : Signature) (msg : Bytes)
    (hpk : Small pk.length) (hm2 : Fits (kindRate (kindOf I.digestSize)) ((1 + 32 + pk.length) % kindRate (kindOf I.digestSize)) msg.length) : verifyWith H J dummy fuel F I pk sig msg = Banquet.verifyWith (shake f) dummy fuel F I pk sig msg := by
  obtain ⟨z1, z2, z3, z4, z5, z6, z7⟩ := sizes hI
  unfold verifyWith Banquet.verifyWith
  refine bind_eq rfl fun _ _ => bind_eq rfl fun _ _ => bind_eq rfl fun _ hr => ?_
  have hsh : sig.shaped I = true := by
    by_contra hc
    unfold require at hr
    rw [if_neg hc] at hr
    cases hr
  unfold Signature.shaped at hsh
  simp only [Bool.and_eq_true, decide_eq_true_eq, List.all_eq_true] at hsh
  obtain ⟨⟨⟨⟨hs1, hs2⟩, hs3⟩, -⟩, hs5⟩ := hsh
  have hsalt : Small sig.salt.length := by rw [hs1]; exact small_of (by norm_num)
  have hd1 : Small sig.h1.length := by rw [hs2]; exact small_of (by omega)
  have hd3 : Small sig.h3.length := by rw [hs3]; exact small_of (by omega)
  have hd2 : ∀ s d p, Small (Banquet.phase2Commit (shake f) F I s d p).length := by
    intro s d p
    unfold Banquet.phase2Commit
    rw [squeeze_len]
    exact small_of (by omega)
  simp only
  rw [phase2Commit_eq h1 F I _ _ _ hsalt hd1 hF (small_of (by omega)), ok_bind, phase1Expand_eq h1 F I _ hd1 (small_of (by omega)), ok_bind]
  refine bind_eq (phase2Expand_eq h1 fuel F I _ _ (hd2 _ _ _) (small_of (by omega))) fun Rs _ => ?_
  refine bind_eq (phase3Expand_eq h1 J.party fuel I _ hd3 (party_mask hI)) fun ms hms => ?_
  have hmlt := (phase3Expand_spec (shake f) (fun _ => 0) fuel I sig.h3 ms hms).2
  have hmem : ∀ x ∈ (List.zip ms sig.proofs).zipIdx, x.1.1 < I.numParties ∧ x.1.2.shaped I = true := by
    rintro ⟨⟨m, pr⟩, e⟩ hx
    have hx := List.of_mem_zip (List.fst_mem_of_mem_zipIdx hx)
    exact ⟨hmlt m hx.1, hs5 pr hx.2⟩
  refine bind_eq (mapM_congr fun x hx => ?_) fun reps1 hreps1 => bind_eq rfl fun reps3 _ => ?_
  · obtain ⟨⟨m, pr⟩, e⟩ := x
    obtain ⟨hm, hp⟩ := hmem _ hx
    exact verRep1_eq h1 h4 hI J hJ dummy _ _ _ hd hsalt pr hp m e hm
  have hrep : ∀ r ∈ (List.zip sig.proofs reps1).map (fun (proof, r) => (⟨r.commitments, r.ctShares, proof.skDelta, proof.tDelta⟩ : Rep1Hash)), SmallRep r := by
    intro r hr
    obtain ⟨⟨pr, r1⟩, hz, rfl⟩ := List.mem_map.1 hr
    have hz := List.of_mem_zip hz
    have hp := hs5 pr hz.1
    have a1 : SmallRep ⟨r1.commitments, r1.ctShares, [], []⟩ := by
      refine mapM_all (fun r1 : VerRep1 => SmallRep ⟨r1.commitments, r1.ctShares, [], []⟩) (fun x hx y hy => ?_) hreps1 r1 hz.2
      obtain ⟨⟨m, pr'⟩, e⟩ := x
      obtain ⟨b1, b2, -, -⟩ := verRep1_small hI dummy (slice pk 0 I.ctSize) (slice pk I.ctSize I.ctSize) sig.salt (by unfold slice; rw [List.length_take]; omega) pr' (hmem _ hx).2 m e hy
      exact ⟨b1, b2, small_of (by simp), small_of (by simp)⟩
    unfold Proof.shaped at hp
    simp only [Bool.and_eq_true, decide_eq_true_eq, List.all_eq_true, beq_iff_eq] at hp
    obtain ⟨⟨⟨⟨⟨⟨⟨-, -⟩, -⟩, hsk⟩, htd⟩, -⟩, -⟩, -⟩ := hp
    exact ⟨a1.1, a1.2.1, by simp only; rw [hsk]; exact small_of (by omega), by simp only; rw [htd]; exact small_of (by omega)⟩
  rw [phase1Commit_eq h1 I _ pk msg _ hsalt hpk (by rw [hs1]; exact hm2) hrep (small_of (by omega)), ok_bind, phase3Commit_eq h1 F I _ _ _ hsalt (hd2 _ _ _) hF (small_of (by omega)), ok_bind]

include h1 hI in
theorem deserialize_eq (J : Junk) (fuel : Nat) (F : FieldState) (bs : Bytes) : deserialize H J fuel F I bs = Banquet.deserialize (shake f) fuel F I bs := by
  obtain ⟨z1, z2, -⟩ := sizes hI
  unfold deserialize Banquet.deserialize deserializeRest
  cases hr : require .ub (decide (F.byteSize ≤ I.lambda)) with
  | error e => rfl
  | ok _ =>
    simp only [ok_bind]
    cases t1 : takeBytes 32 bs with
    | error e => rfl
    | ok r1 =>
      simp only [ok_bind]
      cases t2 : takeBytes I.digestSize r1.2 with
      | error e => rfl
      | ok r2 =>
        simp only [ok_bind]
        cases t3 : takeBytes I.digestSize r2.2 with
        | error e => rfl
        | ok r3 =>
          simp only [ok_bind]
          have hl : Small r3.1.length := by
            unfold takeBytes at t3
            split at t3
            · cases t3
            · injection t3 with t3
              rw [← t3, List.length_take]
              exact small_of (by omega)
          rw [phase3Expand_eq h1 J.party fuel I _ hl (party_mask hI)]
          cases hm : Banquet.phase3Expand (shake f) fuel I r3.1 with
          | error e => rfl
          | ok ms =>
            simp only [ok_bind]
            cases hp : deserializeProofs F I ms r3.2 with
            | error e => rfl
            | ok r => rfl

end Banquet.Code
