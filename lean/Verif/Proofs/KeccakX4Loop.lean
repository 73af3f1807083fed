import Verif.Proofs.KeccakX4Out

/-! Fewer rounds and the fast loops of the 4-way code. -/

namespace Banquet.X4

open Spec
open Opt64 (parity okThen)

/-! ## Rounds -/

theorem inst_rounds (cs : List W64) (c : W64) (A : Regs) (l : Fin 4) :
    inst l (roundLast c (cs.foldl step (A, prepareTheta A)).1 (cs.foldl step (A, prepareTheta A)).2) = (cs ++ [c]).foldl keccakRound (inst l A) := by
  obtain ⟨h1, h2⟩ := rounds_eq cs l (A, prepareTheta A) (prepareTheta_eq A l)
  rw [inst_roundLast, h2, h1, Opt64.roundLast_eq, List.foldl_append]
  rfl

theorem inst_rounds12 (A : Regs) (l : Fin 4) : inst l (rounds12 A) = keccakRounds 12 (inst l A) := by
  have e : rounds12 A = roundLast roundConstants[23] (((List.finRange 11).map fun i => roundConstants[12 + i.val]).foldl step (A, prepareTheta A)).1
      (((List.finRange 11).map fun i => roundConstants[12 + i.val]).foldl step (A, prepareTheta A)).2 := by
    rw [List.foldl_map]
    rfl
  rw [e, inst_rounds, keccakRounds]
  exact congrArg (fun cs => List.foldl keccakRound (inst l A) cs) (by decide)

theorem inst_rounds6 (A : Regs) (l : Fin 4) : inst l (rounds6 A) = keccakRounds 6 (inst l A) := by
  have e : rounds6 A = roundLast roundConstants[23] (((List.finRange 5).map fun i => roundConstants[18 + i.val]).foldl step (A, prepareTheta A)).1
      (((List.finRange 5).map fun i => roundConstants[18 + i.val]).foldl step (A, prepareTheta A)).2 := by
    rw [List.foldl_map]
    rfl
  rw [e, inst_rounds, keccakRounds]
  exact congrArg (fun cs => List.foldl keccakRound (inst l A) cs) (by decide)

theorem inst_rounds4 (A : Regs) (l : Fin 4) : inst l (rounds4 A) = keccakRounds 4 (inst l A) := by
  have e : rounds4 A = roundLast roundConstants[23] (((List.finRange 3).map fun i => roundConstants[20 + i.val]).foldl step (A, prepareTheta A)).1
      (((List.finRange 3).map fun i => roundConstants[20 + i.val]).foldl step (A, prepareTheta A)).2 := by
    rw [List.foldl_map]
    rfl
  rw [e, inst_rounds, keccakRounds]
  exact congrArg (fun cs => List.foldl keccakRound (inst l A) cs) (by decide)

theorem inst_rounds24' (A : Regs) (l : Fin 4) : inst l (rounds24 A) = keccakRounds 24 (inst l A) := inst_rounds24 A l

/-! ## Fast loops -/

theorem absorbEvery_cons (p : Spec.Lanes → Spec.Lanes) (n step : Nat) (w : Nat → W64) (k : Nat) (a : Spec.Lanes) :
    absorbEvery p n step w (k + 1) a = absorbEvery p n step (fun i => w (step + i)) k (p (addLanes n w a)) := by
  induction k with
  | zero =>
    rw [absorbEvery, absorbEvery, absorbEvery]
    simp
  | succ k ih =>
    rw [absorbEvery, ih, absorbEvery]
    congr 2
    funext i
    congr 1
    ring

theorem inst_added (off n : Nat) (d : List W64) (s : Regs) (l : Fin 4) :
    inst l ((List.range n).foldl (fun s i => upd s i fun a => xor256 a (col off d i)) s) = addLanes n (fun i => d.getD (l.val * off + i) 0) (inst l s) := by
  refine Vector.ext fun j hj => ?_
  rw [inst_get, fold_upd _ _ _ _ hj, addLanes, Vector.getElem_ofFn]
  simp only [Fin.getElem_fin, inst_get]
  split <;> rfl

/-- Blocks that fit into `R` words. -/
def blocks (n par ser R : Nat) : Nat := if R < 3 * par + n then 0 else (R - (3 * par + n)) / ser + 1

theorem blocks_succ (n par ser R : Nat) (h0 : 0 < ser) (hs : ser ≤ 3 * par + n) (h : 3 * par + n ≤ R) : blocks n par ser R = blocks n par ser (R - ser) + 1 := by
  unfold blocks
  rw [if_neg (by omega)]
  by_cases h' : R - ser < 3 * par + n
  · rw [if_pos h', Nat.div_eq_of_lt (by omega)]
  · rw [if_neg h', show R - (3 * par + n) = R - ser - (3 * par + n) + ser by omega, Nat.add_div_right _ h0]

/-- A loop of the shape of both fast loops. -/
def genLoop (f : Regs → Nat → M Regs) (rounds : Regs → Regs) (n par ser : Nat) : Nat → Regs → Nat → W64 → M (Regs × Nat)
  | 0, s, pos, len => if len.toNat ≥ need n par then .error .fuel else .ok (s, pos)
  | fuel + 1, s, pos, len =>
    if len.toNat ≥ need n par then do
      let s ← f s pos
      genLoop f rounds n par ser fuel (rounds s) (pos + ser) (len - BitVec.ofNat 64 (8 * ser))
    else .ok (s, pos)

theorem genLoop_eq (d : List W64) (f : Regs → Nat → M Regs) (rounds : Regs → Regs) (r : Nat) (hr : ∀ A l, inst l (rounds A) = keccakRounds r (inst l A)) (n par ser : Nat)
    (hf : ∀ s pos, pos + 3 * par + n ≤ d.length → f s pos = .ok ((List.range n).foldl (fun s i => upd s i fun a => xor256 a (col par (d.drop pos) i)) s))
    (hn : need n par = 8 * (3 * par + n)) (h0 : 0 < ser) (hs : ser ≤ 3 * par + n) (hl : 8 * d.length < 2 ^ 64)
    (fuel : Nat) (s : Regs) (pos : Nat) (hp : pos ≤ d.length) (len : W64) (hlen : len.toNat = 8 * (d.length - pos)) (hfu : blocks n par ser (d.length - pos) ≤ fuel) :
    ∃ s', genLoop f rounds n par ser fuel s pos len = .ok (s', pos + blocks n par ser (d.length - pos) * ser) ∧
      ∀ l : Fin 4, inst l s' = absorbEvery (keccakRounds r) n ser (fun i => d.getD (pos + (l.val * par + i)) 0) (blocks n par ser (d.length - pos)) (inst l s) := by
  induction fuel generalizing s pos len with
  | zero =>
    have hz : blocks n par ser (d.length - pos) = 0 := by omega
    have hc : ¬ 3 * par + n ≤ d.length - pos := fun h => by rw [blocks, if_neg (by omega)] at hz; exact absurd hz (Nat.succ_ne_zero _)
    refine ⟨s, ?_, fun l => by rw [hz]; rfl⟩
    rw [genLoop, if_neg (by rw [hlen, hn]; omega), hz, Nat.zero_mul, Nat.add_zero]
  | succ fuel ih =>
    rw [genLoop]
    by_cases hc : 3 * par + n ≤ d.length - pos
    · rw [if_pos (by rw [hlen, hn]; omega)]
      by_cases hz : 3 * par + n = 0
      · omega
      rw [hf s pos (by omega), okThen]
      have hb := blocks_succ n par ser (d.length - pos) h0 hs hc
      rw [show d.length - pos - ser = d.length - (pos + ser) by omega] at hb
      obtain ⟨s', e, g⟩ := ih (rounds ((List.range n).foldl (fun s i => upd s i fun a => xor256 a (col par (d.drop pos) i)) s)) (pos + ser) (by omega) (len - BitVec.ofNat 64 (8 * ser))
        (by rw [BitVec.toNat_sub_of_le (by rw [BitVec.le_def, BitVec.toNat_ofNat, Nat.mod_eq_of_lt (by omega), hlen]; omega), BitVec.toNat_ofNat, Nat.mod_eq_of_lt (by omega), hlen]; omega) (by omega)
      refine ⟨s', ?_, fun l => ?_⟩
      · rw [e, hb]
        congr 2
        ring
      · rw [g l, hr, inst_added, hb, absorbEvery_cons]
        have e1 : ∀ i, (d.drop pos).getD (l.val * par + i) 0 = d.getD (pos + (l.val * par + i)) 0 := fun i => by
          rw [List.getD_eq_getElem?_getD, List.getD_eq_getElem?_getD, List.getElem?_drop]
        simp only [e1]
        congr 1
        funext i
        congr 1
        ring
    · have hz : blocks n par ser (d.length - pos) = 0 := by rw [blocks, if_pos (by omega)]
      refine ⟨s, ?_, fun l => by rw [hz]; rfl⟩
      rw [if_neg (by rw [hlen, hn]; omega), hz, Nat.zero_mul, Nat.add_zero]

theorem fastLoopAbsorb_eq (rounds : Regs → Regs) (r : Nat) (hr : ∀ A l, inst l (rounds A) = keccakRounds r (inst l A)) (s : Regs) (n par ser : Nat) (d : List W64) (hn : n ≤ 25)
    (hpar : 8 * (3 * par + n) < 2 ^ 32) (h0 : 0 < ser) (hs : ser ≤ 3 * par + n) (hl : 8 * d.length < 2 ^ 64) (fuel : Nat) (hfu : blocks n par ser d.length ≤ fuel) :
    ∃ s', fastLoopAbsorb rounds fuel s n par ser d = .ok (s', 8 * (blocks n par ser d.length * ser)) ∧
      ∀ l : Fin 4, inst l s' = absorbEvery (keccakRounds r) n ser (fun i => d.getD (l.val * par + i) 0) (blocks n par ser d.length) (inst l s) := by
  have ho : par * 24 < 2 ^ 32 := by omega
  have hneed : need n par = 8 * (3 * par + n) := by
    unfold need
    rw [Nat.mod_eq_of_lt (by omega)]
    ring
  have h8 : ser * 8 % 2 ^ 32 = 8 * ser := by rw [Nat.mod_eq_of_lt (by omega)]; ring
  have hd : ∀ pos, (d.drop pos).length = d.length - pos := fun pos => List.length_drop
  have hlen : (BitVec.ofNat 64 (8 * d.length)).toNat = 8 * (d.length - 0) := by rw [BitVec.toNat_ofNat, Nat.mod_eq_of_lt (by omega)]; omega
  unfold fastLoopAbsorb
  by_cases h21 : n = 21
  · subst h21
    rw [if_pos rfl]
    have e : ∀ fuel s pos len, fastLoop21 rounds d par ser fuel s pos len = genLoop (fun s pos => forLanes (xorIn (d.drop pos) par) 0 21 s) rounds 21 par ser fuel s pos len := fun fuel => by
      induction fuel with
      | zero => intros; rfl
      | succ fuel ih =>
        intro s pos len
        rw [fastLoop21, genLoop, h8]
        simp only [ih]
    obtain ⟨s', e1, g⟩ := genLoop_eq d (fun s pos => forLanes (xorIn (d.drop pos) par) 0 21 s) rounds r hr 21 par ser (fun s pos h => by
      have e1 := forLanes_eq (fun _ => True) (xorIn (d.drop pos) par) (fun s i => upd s i fun a => xor256 a (col par (d.drop pos) i)) _ (fun _ _ _ => trivial)
        (fun s i _ => xorIn_eq par ho (d.drop pos) s i) 0 21 s trivial
      rw [if_pos (by rw [hd]; omega)] at e1
      exact e1) hneed h0 hs hl fuel s 0 (Nat.zero_le _) _ hlen (by rw [Nat.sub_zero]; exact hfu)
    rw [Nat.sub_zero] at e1 g
    rw [e, e1, okThen, Nat.zero_add]
    refine ⟨s', rfl, fun l => ?_⟩
    simpa only [Nat.zero_add] using g l
  · rw [if_neg h21]
    have e : ∀ fuel s pos len, fastLoopOther rounds d n par ser fuel s pos len = genLoop (fun s pos => addLanesAll s (d.drop pos) n par) rounds n par ser fuel s pos len := fun fuel => by
      induction fuel with
      | zero => intros; rfl
      | succ fuel ih =>
        intro s pos len
        rw [fastLoopOther, genLoop, h8, Nat.mul_div_cancel_left _ (by norm_num)]
        simp only [ih]
    obtain ⟨s', e1, g⟩ := genLoop_eq d (fun s pos => addLanesAll s (d.drop pos) n par) rounds r hr n par ser (fun s pos h => by
      rw [addLanesAll_eq par ho, if_pos (by rw [hd]; omega)]) hneed h0 hs hl fuel s 0 (Nat.zero_le _) _ hlen (by rw [Nat.sub_zero]; exact hfu)
    rw [Nat.sub_zero] at e1 g
    rw [e, e1, okThen, Nat.zero_add]
    refine ⟨s', rfl, fun l => ?_⟩
    simpa only [Nat.zero_add] using g l

end Banquet.X4
