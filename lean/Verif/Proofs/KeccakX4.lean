import Mathlib.Data.Fintype.Basic
import Mathlib.Tactic.FinCases
import Verif.Model.KeccakX4
import Verif.Proofs.Keccak64State

/-! The four states of the SIMD code: the permutation is Keccak-p[1600, 24] on each, access to one leaves the others unchanged. -/

namespace Banquet.X4

open Spec
open Opt64 (byteOf le64 byteOf_le64 byteOf_bit eq_of_byteOf parity bAt)

/-- The lanes of one instance. -/
def inst (l : Fin 4) (A : Regs) : Spec.Lanes := Vector.ofFn fun i => A[i] l

theorem inst_get (l : Fin 4) (A : Regs) (i : Nat) (hi : i < 25) : (inst l A)[i] = A[i] l := by
  rw [inst, Vector.getElem_ofFn]
  rfl

theorem rol_eq (a : V256) (l : Fin 4) {n : Nat} (h0 : n < 64) : rol64in256 a n l = Opt64.rol64 (a l) n := by
  rw [Opt64.rol64_eq _ h0, BitVec.rotateLeft_def, Nat.mod_eq_of_lt h0]
  rfl

theorem shuffle_eq (a ctl : V256) (l : Fin 4) (k : Nat) (hk : k < 8) (c : Byte) (hc : byteAt ctl (8 * l.val + k) = c) (hm : c.msb = false) :
    byteOf (shuffleEpi8 a ctl l) k = byteAt a (16 * ((8 * l.val + k) / 16) + c.toNat % 16) := by
  subst hc
  rw [shuffleEpi8, byteOf_le64 _ _ hk, List.getD_eq_getElem?_getD, List.getElem?_map, List.getElem?_range hk]
  simp [hm]

theorem byteOf_rotl (w : W64) (n k : Nat) (hn : n < 8) (hk : k < 8) : byteOf (w.rotateLeft (8 * n)) k = byteOf w ((k + 8 - n) % 8) := by
  apply BitVec.eq_of_getLsbD_eq
  intro i hi
  rw [byteOf_bit _ _ _ hi, byteOf_bit _ _ _ hi, BitVec.getLsbD_rotateLeft, Nat.mod_eq_of_lt (show 8 * n < 64 by omega)]
  by_cases h : 8 * k + i < 8 * n
  · rw [decide_eq_true h, cond_true]
    congr 1
    omega
  · rw [decide_eq_false h, cond_false, decide_eq_true (show 8 * k + i < 64 by omega), Bool.true_and]
    congr 1
    omega

theorem rol8_eq (a : V256) (l : Fin 4) : rol64in256_8 a l = Opt64.rol64 (a l) 8 := by
  rw [Opt64.rol64_eq _ (by decide)]
  refine eq_of_byteOf fun k hk => ?_
  rw [show (8 : Nat) = 8 * 1 from rfl, byteOf_rotl _ _ _ (by decide) hk, rol64in256_8]
  fin_cases l <;> interval_cases k <;> exact (shuffle_eq _ _ _ _ (by decide) _ rfl (by decide))

theorem rol56_eq (a : V256) (l : Fin 4) : rol64in256_56 a l = Opt64.rol64 (a l) 56 := by
  rw [Opt64.rol64_eq _ (by decide)]
  refine eq_of_byteOf fun k hk => ?_
  rw [show (56 : Nat) = 8 * 7 from rfl, byteOf_rotl _ _ _ (by decide) hk, rol64in256_56]
  fin_cases l <;> interval_cases k <;> exact (shuffle_eq _ _ _ _ (by decide) _ rfl (by decide))

/-- The rotation as the code performs it. -/
def rolAt (a : V256) (n : Nat) : V256 := if n = 0 then a else if n = 8 then rol64in256_8 a else if n = 56 then rol64in256_56 a else rol64in256 a n

/-- Entry `i` of the state after θ, with the column parities `C` given. -/
def thetaAt (A : Regs) (C : Vector V256 5) (i : Nat) (hi : i < 25) : V256 := xor256 A[i] (xor256 (C[(i % 5 + 4) % 5]) (rol64in256 (C[(i % 5 + 1) % 5]) 1))

/-- Lane `(x, y)` after θ, ρ, π. -/
def bAt4 (A : Regs) (C : Vector V256 5) (x y : Nat) : V256 :=
  let j := (x + 3 * y) % 5 + 5 * (x % 5)
  have hj : j < 25 := by omega
  rolAt (thetaAt A C j hj) rhoOffsets[j]

theorem roundLast_get (rc : W64) (A : Regs) (C : Vector V256 5) (i : Nat) (hi : i < 25) :
    (roundLast rc A C)[i] = if i = 0 then xor256 (xor256 (bAt4 A C 0 0) (andnot256 (bAt4 A C 1 0) (bAt4 A C 2 0))) (set1 rc)
      else xor256 (bAt4 A C (i % 5) (i / 5)) (andnot256 (bAt4 A C ((i % 5 + 1) % 5) (i / 5)) (bAt4 A C ((i % 5 + 2) % 5) (i / 5))) := by
  interval_cases i <;> rfl

theorem roundPrepare_fst (rc : W64) (A : Regs) (C : Vector V256 5) : (roundPrepare rc A C).1 = roundLast rc A C := rfl

/-- The parities of one instance. -/
def instC (l : Fin 4) (C : Vector V256 5) : Vector W64 5 := Vector.ofFn fun i => C[i] l

theorem instC_get (l : Fin 4) (C : Vector V256 5) (i : Nat) (hi : i < 5) : (instC l C)[i] = C[i] l := by
  rw [instC, Vector.getElem_ofFn]
  rfl

theorem bAt4_eq (A : Regs) (C : Vector V256 5) (l : Fin 4) (x y : Nat) : bAt4 A C x y l = bAt (inst l A) (instC l C) x y := by
  have hr : ∀ j (hj : j < 25), rhoOffsets[j] < 64 := by decide
  have ht : ∀ j (hj : j < 25), thetaAt A C j hj l = Opt64.thetaAt (inst l A) (instC l C) j hj := by
    intro j hj
    rw [thetaAt, Opt64.thetaAt, inst_get, instC_get, instC_get, ← rol_eq _ _ (by decide)]
    rfl
  have key : ∀ j (hj : j < 25), rolAt (thetaAt A C j hj) rhoOffsets[j] l =
      if rhoOffsets[j] = 0 then Opt64.thetaAt (inst l A) (instC l C) j hj else Opt64.rol64 (Opt64.thetaAt (inst l A) (instC l C) j hj) rhoOffsets[j] := by
    intro j hj
    rw [← ht]
    have := hr j hj
    generalize rhoOffsets[j] = n at this
    unfold rolAt
    split
    · rfl
    · split
      · next h => rw [rol8_eq, h]
      · split
        · next h => rw [rol56_eq, h]
        · rw [rol_eq _ _ this]
  exact key _ (by omega)

theorem inst_roundLast (rc : W64) (A : Regs) (C : Vector V256 5) (l : Fin 4) : inst l (roundLast rc A C) = Opt64.roundLast rc (inst l A) (instC l C) := by
  refine Vector.ext fun i hi => ?_
  rw [inst_get, roundLast_get, Opt64.roundLast_get]
  split
  · simp only [xor256, andnot256, set1, bAt4_eq]
  · simp only [xor256, andnot256, bAt4_eq]

theorem prepareTheta_eq (A : Regs) (l : Fin 4) : instC l (prepareTheta A) = parity (inst l A) := by
  refine Vector.ext fun i hi => ?_
  rw [instC_get]
  interval_cases i <;> simp [prepareTheta, parity, lane, inst, xor256, BitVec.xor_assoc] <;> rfl

theorem parity_snd (rc : W64) (A : Regs) (C : Vector V256 5) (l : Fin 4) : instC l (roundPrepare rc A C).2 = parity (inst l (roundPrepare rc A C).1) := by
  rw [← Opt64.prepareTheta_eq]
  refine Vector.ext fun i hi => ?_
  rw [instC_get]
  interval_cases i <;> simp only [Opt64.prepareTheta, inst_get] <;> rfl

theorem inst_roundPrepare (rc : W64) (A : Regs) (C : Vector V256 5) (l : Fin 4) (hC : instC l C = parity (inst l A)) : inst l (roundPrepare rc A C).1 = keccakRound (inst l A) rc := by
  rw [roundPrepare_fst, inst_roundLast, hC, Opt64.roundLast_eq]

/-- One round with the parities of the next. -/
def step (s : Regs × Vector V256 5) (rc : W64) : Regs × Vector V256 5 := roundPrepare rc s.1 s.2

theorem rounds_eq (cs : List W64) (l : Fin 4) (s : Regs × Vector V256 5) (hC : instC l s.2 = parity (inst l s.1)) :
    inst l (cs.foldl step s).1 = cs.foldl keccakRound (inst l s.1) ∧ instC l (cs.foldl step s).2 = parity (inst l (cs.foldl step s).1) := by
  induction cs generalizing s with
  | nil => exact ⟨rfl, hC⟩
  | cons rc cs ih =>
    rw [List.foldl_cons, List.foldl_cons, ← inst_roundPrepare rc s.1 s.2 l hC]
    exact ih (step s rc) (parity_snd rc s.1 s.2 l)

theorem consts_eq : ((List.finRange 23).map fun i => roundConstants[i.val]) ++ [roundConstants[23]] = Spec.roundConstants := by decide

theorem rounds24_fold (A : Regs) : rounds24 A =
    roundLast roundConstants[23] (((List.finRange 23).map fun i => roundConstants[i.val]).foldl step (A, prepareTheta A)).1
      (((List.finRange 23).map fun i => roundConstants[i.val]).foldl step (A, prepareTheta A)).2 := by
  rw [List.foldl_map]
  rfl

theorem inst_rounds24 (A : Regs) (l : Fin 4) : inst l (rounds24 A) = keccakLanes (inst l A) := by
  rw [rounds24_fold]
  generalize hcs : ((List.finRange 23).map fun i => roundConstants[i.val]) = cs
  obtain ⟨h1, h2⟩ := rounds_eq cs l (A, prepareTheta A) (prepareTheta_eq A l)
  rw [inst_roundLast, h2, h1, Opt64.roundLast_eq, keccakLanes, ← consts_eq, List.foldl_append, hcs]
  rfl

/-! ## Access -/

/-- The 200 bytes of each instance. -/
def view (s : Regs) (l : Fin 4) : St := ofLanes (inst l s)

theorem view_permute (s : Regs) (l : Fin 4) : view (permute s) l = keccakF (view s l) := by
  rw [view, view, keccakF, Opt64.toLanes_ofLanes, permute, inst_rounds24]

theorem view_init (l : Fin 4) : view init l = Vector.replicate 200 0 := by
  rw [← Opt64.view_init, view]
  refine congrArg ofLanes (Vector.ext fun i hi => ?_)
  rw [inst_get]
  simp [init, Opt64.init]

theorem laneIndex_div (l : Fin 4) (pos : Nat) : laneIndex l pos / 4 = pos ∧ laneIndex l pos % 4 = l.val := by
  have := l.isLt
  unfold laneIndex
  omega

theorem xorWord_eq (s : Regs) {i pos l : Nat} (x : W64) (h1 : i / 4 = pos) (h2 : i % 4 = l) (hp : pos < 25) :
    xorWord s i x = .ok (s.set pos fun j => if j.val = l then s[pos] j ^^^ x else s[pos] j) := by
  subst h1
  subst h2
  exact dif_pos hp

theorem getWord_eq (s : Regs) {i pos : Nat} {l : Fin 4} (h1 : i / 4 = pos) (h2 : i % 4 = l.val) (hp : pos < 25) : getWord s i = .ok (s[pos] l) := by
  subst h1
  have : Fin.ofNat 4 (i % 4) = l := Fin.ext (by rw [Fin.val_ofNat, h2]; exact Nat.mod_eq_of_lt l.isLt)
  rw [getWord, dif_pos hp, this]

theorem xorLane_eq (s : Regs) (l : Fin 4) (pos off : Nat) (bs : Bytes) (hpos : pos < 25) (h : off + bs.length ≤ 8) :
    ∃ s', xorLane s l pos (le64 bs <<< (8 * off)) = .ok s' ∧ ∀ l', view s' l' = if l' = l then Spec.addBytes (view s l) bs (8 * pos + off) else view s l' := by
  obtain ⟨h1, h2⟩ := laneIndex_div l pos
  have e : xorLane s l pos (le64 bs <<< (8 * off)) = .ok (s.set pos fun j => if j.val = l.val then s[pos] j ^^^ (le64 bs <<< (8 * off)) else s[pos] j) := by
    exact xorWord_eq s _ h1 h2 hpos
  refine ⟨_, e, fun l' => ?_⟩
  have hi : inst l' (s.set pos fun j => if j.val = l.val then s[pos] j ^^^ (le64 bs <<< (8 * off)) else s[pos] j) =
      if l' = l then (inst l s).set pos ((inst l s)[pos] ^^^ (le64 bs <<< (8 * off))) else inst l' s := by
    refine Vector.ext fun i hi => ?_
    rw [inst_get]
    by_cases hl : l' = l
    · subst hl
      rw [if_pos rfl]
      by_cases hp : pos = i
      · subst hp
        rw [Vector.getElem_set_self, Vector.getElem_set_self, inst_get, if_pos rfl]
      · rw [Vector.getElem_set_ne _ _ hp, Vector.getElem_set_ne _ _ hp, inst_get]
    · rw [if_neg hl, inst_get]
      by_cases hp : pos = i
      · subst hp
        rw [Vector.getElem_set_self, if_neg (fun e => hl (Fin.ext e))]
      · rw [Vector.getElem_set_ne _ _ hp]
  rw [view, hi]
  by_cases hl : l' = l
  · rw [if_pos hl, if_pos hl, Opt64.view_set _ _ _ hpos _ h]
    rfl
  · rw [if_neg hl, if_neg hl]
    rfl

theorem xorLane_eq0 (s : Regs) (l : Fin 4) (pos : Nat) (bs : Bytes) (hpos : pos < 25) (h : bs.length ≤ 8) :
    ∃ s', xorLane s l pos (le64 bs) = .ok s' ∧ ∀ l', view s' l' = if l' = l then Spec.addBytes (view s l) bs (8 * pos) else view s l' := by
  have := xorLane_eq s l pos 0 bs hpos (by omega)
  simpa using this

theorem xorLane_ub (s : Regs) (l : Fin 4) (pos : Nat) (x : W64) (hpos : 25 ≤ pos) : xorLane s l pos x = .error .ub := by
  rw [xorLane, xorWord, dif_neg (by rw [(laneIndex_div l pos).1]; omega)]

theorem addByte_eq (s : Regs) (l : Fin 4) (b : Byte) (offset : Nat) (h : offset < 200) :
    ∃ s', addByte s l b offset = .ok s' ∧ ∀ l', view s' l' = if l' = l then Spec.addByte (view s l) b offset else view s l' := by
  obtain ⟨s', e, g⟩ := xorLane_eq s l (offset / 8) (offset % 8) [b] (by omega) (by simp; omega)
  refine ⟨s', ?_, ?_⟩
  · rw [← e]
    have hl := l.isLt
    simp only [addByte, xorLane, laneIndex, show (l.val * 8 + offset / 8 * 4 * 8 + offset % 8) / 8 = offset / 8 * 4 + l.val by omega,
      show (l.val * 8 + offset / 8 * 4 * 8 + offset % 8) % 8 = offset % 8 by omega]
    congr 2
    simp [le64]
  · rw [show 8 * (offset / 8) + offset % 8 = offset by omega] at g
    exact g

theorem addBytesLoop_eq (l : Fin 4) (fuel : Nat) (s : Regs) (data : Bytes) (pos : Nat) (h : 8 * pos + data.length ≤ 200) (hf : data.length ≤ fuel) :
    ∃ s', addBytesLoop l fuel s data pos = .ok s' ∧ ∀ l', view s' l' = if l' = l then Spec.addBytes (view s l) data (8 * pos) else view s l' := by
  induction fuel generalizing s data pos with
  | zero =>
    have : data = [] := List.eq_nil_of_length_eq_zero (by omega)
    subst this
    refine ⟨s, rfl, fun l' => ?_⟩
    rw [Opt64.addBytes_nil]
    split
    · next h => rw [h]
    · rfl
  | succ fuel ih =>
    rw [addBytesLoop]
    by_cases h8 : data.length ≥ 8
    · rw [if_pos h8]
      obtain ⟨s1, e1, g1⟩ := xorLane_eq0 s l pos (data.take 8) (by omega) (by rw [List.length_take]; omega)
      obtain ⟨s2, e2, g2⟩ := ih s1 (data.drop 8) (pos + 1) (by rw [List.length_drop]; omega) (by rw [List.length_drop]; omega)
      refine ⟨s2, ?_, fun l' => ?_⟩
      · rw [bindOk e1, e2]
      · rw [g2, g1, g1, if_pos rfl]
        by_cases hl : l' = l
        · rw [if_pos hl, if_pos hl]
          have := Opt64.addBytes_append (view s l) (data.take 8) (data.drop 8) (8 * pos)
          rw [List.take_append_drop, List.length_take, Nat.min_eq_left h8] at this
          exact this
        · rw [if_neg hl, if_neg hl, if_neg hl]
    · rw [if_neg h8]
      by_cases h0 : data.length > 0
      · rw [if_pos h0]
        exact xorLane_eq0 s l pos data (by omega) (by omega)
      · rw [if_neg h0]
        have : data = [] := List.eq_nil_of_length_eq_zero (by omega)
        subst this
        refine ⟨s, rfl, fun l' => ?_⟩
        rw [Opt64.addBytes_nil]
        split
        · next h => rw [h]
        · rfl

theorem addBytes_eq (s : Regs) (l : Fin 4) (data : Bytes) (offset : Nat) (h : offset + data.length ≤ 200) :
    ∃ s', addBytes s l data offset = .ok s' ∧ ∀ l', view s' l' = if l' = l then Spec.addBytes (view s l) data offset else view s l' := by
  unfold addBytes
  simp only
  by_cases hc : data.length > 0 ∧ offset % 8 ≠ 0
  · rw [if_pos hc]
    generalize hn : (if 8 - offset % 8 > data.length then data.length else 8 - offset % 8) = n
    have hp : n ≤ data.length ∧ offset % 8 + n ≤ 8 ∧ 0 < n ∧ (n = data.length ∨ offset % 8 + n = 8) := by
      subst hn
      split <;> omega
    obtain ⟨s1, e1, g1⟩ := xorLane_eq s l (offset / 8) (offset % 8) (data.take n) (by omega) (by rw [List.length_take]; omega)
    rw [show 8 * (offset / 8) + offset % 8 = offset by omega] at g1
    rw [bindOk e1]
    by_cases hd : n = data.length
    · have : data.drop n = [] := by rw [hd, List.drop_length]
      rw [this]
      refine ⟨s1, ?_, ?_⟩
      · have := hc.1
        generalize data.length = m at this
        cases m with
        | zero => omega
        | succ m => rfl
      · rw [hd, List.take_length] at g1
        exact g1
    · have ho : offset % 8 + n = 8 := by omega
      obtain ⟨s2, e2, g2⟩ := addBytesLoop_eq l data.length s1 (data.drop n) (offset / 8 + 1) (by rw [List.length_drop]; omega) (by rw [List.length_drop]; omega)
      refine ⟨s2, e2, fun l' => ?_⟩
      rw [g2, g1, g1, if_pos rfl]
      by_cases hl : l' = l
      · rw [if_pos hl, if_pos hl]
        have := Opt64.addBytes_append (view s l) (data.take n) (data.drop n) offset
        rw [List.take_append_drop, List.length_take, Nat.min_eq_left hp.1] at this
        rw [← this]
        congr 1
        omega
      · rw [if_neg hl, if_neg hl, if_neg hl]
  · rw [if_neg hc]
    by_cases h0 : data.length = 0
    · have : data = [] := List.eq_nil_of_length_eq_zero h0
      subst this
      refine ⟨s, rfl, fun l' => ?_⟩
      rw [Opt64.addBytes_nil]
      split
      · next h => rw [h]
      · rfl
    · obtain ⟨s', e, g⟩ := addBytesLoop_eq l data.length s data (offset / 8) (by omega) le_rfl
      rw [show 8 * (offset / 8) = offset by omega] at g
      exact ⟨s', e, g⟩

theorem addBytesLoop_ub (l : Fin 4) (fuel : Nat) (s : Regs) (data : Bytes) (pos : Nat) (h : 200 < 8 * pos + data.length) (h0 : 0 < data.length) (hf : data.length ≤ fuel) :
    addBytesLoop l fuel s data pos = .error .ub := by
  induction fuel generalizing s data pos with
  | zero => omega
  | succ fuel ih =>
    rw [addBytesLoop]
    by_cases hpos : pos < 25
    · have h8 : data.length > 8 := by omega
      rw [if_pos (by omega)]
      obtain ⟨s1, e1, -⟩ := xorLane_eq0 s l pos (data.take 8) hpos (by rw [List.length_take]; omega)
      rw [bindOk e1]
      exact ih s1 (data.drop 8) (pos + 1) (by rw [List.length_drop]; omega) (by rw [List.length_drop]; omega) (by rw [List.length_drop]; omega)
    · by_cases h8 : data.length ≥ 8
      · rw [if_pos h8, xorLane_ub _ _ _ _ (by omega)]
        rfl
      · rw [if_neg h8, if_pos h0, xorLane_ub _ _ _ _ (by omega)]

/-! ## Reading -/

theorem copyLane_eq (s : Regs) (l : Fin 4) (pos start n : Nat) (hp : pos < 25) (h : start + n ≤ 8) :
    copyLane s l pos start n = .ok (Spec.extractBytes (view s l) (8 * pos + start) n) := by
  obtain ⟨h1, h2⟩ := laneIndex_div l pos
  have e : getWord s (laneIndex l pos) = .ok (s[pos] l) := getWord_eq s h1 h2 hp
  have := Opt64.extractBytesInLane_eq (inst l s) pos start n hp h
  rw [Opt64.extractBytesInLane, dif_pos hp, inst_get] at this
  rw [copyLane, bindOk e]
  exact this

theorem copyLane_ub (s : Regs) (l : Fin 4) (pos start n : Nat) (hp : 25 ≤ pos) : copyLane s l pos start n = .error .ub := by
  rw [copyLane, getWord, dif_neg (by rw [(laneIndex_div l pos).1]; omega)]
  rfl

theorem extractLoop_eq (s : Regs) (l : Fin 4) (fuel pos len : Nat) (h : 8 * pos + len ≤ 200) (hf : len ≤ fuel) :
    extractLoop s l fuel pos len = .ok (Spec.extractBytes (view s l) (8 * pos) len) := by
  induction fuel generalizing pos len with
  | zero =>
    have : len = 0 := by omega
    subst this
    rfl
  | succ fuel ih =>
    rw [extractLoop]
    by_cases h8 : len ≥ 8
    · rw [if_pos h8, bindOk (copyLane_eq s l pos 0 8 (by omega) (by omega)), bindOk (ih (pos + 1) (len - 8) (by omega) (by omega))]
      have := Opt64.extract_append (view s l) (8 * pos) 8 (len - 8)
      rw [show 8 + (len - 8) = len by omega] at this
      rw [Nat.add_zero, show 8 * (pos + 1) = 8 * pos + 8 by omega, this]
    · rw [if_neg h8]
      by_cases h0 : len > 0
      · rw [if_pos h0, copyLane_eq s l pos 0 len (by omega) (by omega), Nat.add_zero]
      · rw [if_neg h0, show len = 0 by omega]
        rfl

theorem extractBytes_eq (s : Regs) (l : Fin 4) (offset len : Nat) (h : offset + len ≤ 200) : extractBytes s l offset len = .ok (Spec.extractBytes (view s l) offset len) := by
  unfold extractBytes
  simp only
  by_cases hc : len > 0 ∧ offset % 8 ≠ 0
  · rw [if_pos hc]
    generalize hn : (if 8 - offset % 8 > len then len else 8 - offset % 8) = n
    have hp : n ≤ len ∧ offset % 8 + n ≤ 8 ∧ 0 < n ∧ (n = len ∨ offset % 8 + n = 8) := by
      subst hn
      split <;> omega
    rw [bindOk (copyLane_eq s l (offset / 8) (offset % 8) n (by omega) hp.2.1), show 8 * (offset / 8) + offset % 8 = offset by omega]
    have := Opt64.extract_append (view s l) offset n (len - n)
    rw [show n + (len - n) = len by omega] at this
    by_cases hd : n = len
    · have e : extractLoop s l len (offset / 8 + 1) (len - n) = .ok (Spec.extractBytes (view s l) (offset + n) (len - n)) := by
        rw [hd, Nat.sub_self]
        cases len <;> rfl
      rw [bindOk e, this]
    · rw [bindOk (extractLoop_eq s l len (offset / 8 + 1) (len - n) (by omega) (by omega)), show 8 * (offset / 8 + 1) = offset + n by omega, this]
  · rw [if_neg hc]
    by_cases h0 : len = 0
    · subst h0
      rfl
    · rw [extractLoop_eq s l len (offset / 8) len (by omega) le_rfl, show 8 * (offset / 8) = offset by omega]

theorem plSnp_ok : PlSnp keccakF plSnp view where
  init := view_init
  addByte := addByte_eq
  addBytes := addBytes_eq
  extractBytes s l offset len h := extractBytes_eq s l offset len h.le
  permute := view_permute

end Banquet.X4
