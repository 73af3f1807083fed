import Verif.Proofs.KeccakX4Loop

/-! # The functions of the 4-way AVX2 Keccak code that the library does not call: all lanes at once, fewer rounds, fast loops -/

namespace Banquet.Props

open Spec X4

private theorem fits {n off len : Nat} : n ≤ min 25 (len - 3 * off) ↔ n = 0 ∨ n ≤ 25 ∧ 3 * off + n ≤ len := by omega

/-- **C86.** `AddLanesAll`: word `l * laneOffset + j` is XORed into lane `j` of state `l` for `j < laneCount`, all other lanes stay. Undefined behaviour results exactly if `laneCount` is neither 0 nor such that
there are that many lanes and the last word of the last state is in the buffer. -/
theorem C86_addLanesAll (s : Regs) (d : List W64) (n off : Nat) (ho : off * 24 < 2 ^ 32) :
    ((n = 0 ∨ n ≤ 25 ∧ 3 * off + n ≤ d.length) → ∃ s', addLanesAll s d n off = .ok s' ∧ ∀ (j : Fin 25) (l : Fin 4), s'[j] l = if j.val < n then s[j] l ^^^ d.getD (l.val * off + j.val) 0 else s[j] l) ∧
    (¬ (n = 0 ∨ n ≤ 25 ∧ 3 * off + n ≤ d.length) → addLanesAll s d n off = .error .ub) := by
  refine ⟨fun h => ⟨_, by rw [addLanesAll_eq off ho, if_pos (fits.2 h)], fun j l => ?_⟩, fun h => by rw [addLanesAll_eq off ho, if_neg fun c => h (fits.1 c)]⟩
  refine (congrFun (fold_upd (fun i a => xor256 a (col off d i)) n s j.val j.isLt) l).trans ?_
  split <;> rfl

/-- Two lanes of each state, from a buffer with three words per state: word 2 of each is skipped. -/
example : ∃ s', addLanesAll (Vector.replicate 25 fun l => BitVec.ofNat 64 l.val) [16, 32, 99, 48, 64, 99, 80, 96, 99, 112, 128] 2 3 = .ok s' ∧ s'[0] 1 = 49 ∧ s'[1] 3 = 131 ∧ s'[2] 3 = 3 := by
  obtain ⟨s', e, h⟩ := (C86_addLanesAll (Vector.replicate 25 fun l => BitVec.ofNat 64 l.val) [16, 32, 99, 48, 64, 99, 80, 96, 99, 112, 128] 2 3 (by decide)).1 (by decide)
  exact ⟨s', e, (h 0 1).trans rfl, (h 1 3).trans rfl, (h 2 3).trans rfl⟩

example : addLanesAll (Vector.replicate 25 fun _ => 0) [1, 2, 3] 1 1 = .error .ub := (C86_addLanesAll _ _ _ _ (by decide)).2 (by decide)

/-- **C86.** `OverwriteLanesAll`: the same with replacement instead of XOR. -/
theorem C86_overwriteLanesAll (s : Regs) (d : List W64) (n off : Nat) (ho : off * 24 < 2 ^ 32) :
    ((n = 0 ∨ n ≤ 25 ∧ 3 * off + n ≤ d.length) → ∃ s', overwriteLanesAll s d n off = .ok s' ∧ ∀ (j : Fin 25) (l : Fin 4), s'[j] l = if j.val < n then d.getD (l.val * off + j.val) 0 else s[j] l) ∧
    (¬ (n = 0 ∨ n ≤ 25 ∧ 3 * off + n ≤ d.length) → overwriteLanesAll s d n off = .error .ub) := by
  refine ⟨fun h => ⟨_, by rw [overwriteLanesAll_eq off ho, if_pos (fits.2 h)], fun j l => ?_⟩, fun h => by rw [overwriteLanesAll_eq off ho, if_neg fun c => h (fits.1 c)]⟩
  refine (congrFun (fold_upd (fun i _ => col off d i) n s j.val j.isLt) l).trans ?_
  split <;> rfl

example : ∃ s', overwriteLanesAll (Vector.replicate 25 fun _ => 7) [16, 32, 48, 64] 1 1 = .ok s' ∧ s'[0] 2 = 48 ∧ s'[1] 2 = 7 := by
  obtain ⟨s', e, h⟩ := (C86_overwriteLanesAll (Vector.replicate 25 fun _ => 7) [16, 32, 48, 64] 1 1 (by decide)).1 (by decide)
  exact ⟨s', e, (h 0 2).trans rfl, (h 1 2).trans rfl⟩

private theorem lane_eq (s : Regs) (j : Fin 25) (l : Fin 4) : laneAt s l.val j.val = s[j] l := by
  rw [laneAt, dif_pos j.isLt, show Fin.ofNat 4 l.val = l from Fin.ext (Nat.mod_eq_of_lt l.isLt)]
  rfl

private theorem written (off n : Nat) (hn : n ≤ off) (w : Nat → Nat → W64) (out : List W64) (hl : n = 0 ∨ 3 * off + n ≤ out.length) :
    (sets off w ((List.range n).flatMap colOrder) out).length = out.length ∧
    (∀ (j : Fin 25) (l : Fin 4), j.val < n → (sets off w ((List.range n).flatMap colOrder) out)[l.val * off + j.val]? = some (w l.val j.val)) ∧
    ∀ p, (∀ (j l : Nat), j < n → l < 4 → p ≠ l * off + j) → (sets off w ((List.range n).flatMap colOrder) out)[p]? = out[p]? := by
  refine ⟨sets_length _ _ _ _, fun j l hj => ?_, fun p hp => sets_other _ _ _ _ _ fun x hx e => hp x.2 x.1 (all_mem.1 hx).2 (all_mem.1 hx).1 e.symm⟩
  have b : l.val * off ≤ 3 * off := Nat.mul_le_mul_right _ (by omega)
  exact sets_mem off w _ out (l.val, j.val) (all_mem.2 ⟨l.isLt, hj⟩) (fun x hx y hy h => distinct_of off 0 n hn ⟨Nat.zero_le _, by have := (all_mem.1 hx).2; omega⟩ ⟨Nat.zero_le _, by have := (all_mem.1 hy).2; omega⟩ h)
    (by simp only; omega)

/-- **C86.** `ExtractLanesAll`: lane `j` of state `l` is written to word `l * laneOffset + j` for `j < laneCount`; no other word of the buffer changes. -/
theorem C86_extractLanesAll (s : Regs) (out : List W64) (n off : Nat) (ho : off * 24 < 2 ^ 32) (hn : n ≤ off) :
    ((n = 0 ∨ n ≤ 25 ∧ 3 * off + n ≤ out.length) → ∃ out', extractLanesAll s out n off = .ok out' ∧ out'.length = out.length ∧
      (∀ (j : Fin 25) (l : Fin 4), j.val < n → out'[l.val * off + j.val]? = some (s[j] l)) ∧ ∀ p, (∀ j l : Nat, j < n → l < 4 → p ≠ l * off + j) → out'[p]? = out[p]?) ∧
    (¬ (n = 0 ∨ n ≤ 25 ∧ 3 * off + n ≤ out.length) → extractLanesAll s out n off = .error .ub) := by
  refine ⟨fun h => ?_, fun h => by rw [extractLanesAll_eq off ho _ _ _ hn, if_neg fun c => h (fits.1 c)]⟩
  obtain ⟨h1, h2, h3⟩ := written off n hn (laneAt s) out (by omega)
  exact ⟨_, by rw [extractLanesAll_eq off ho _ _ _ hn, if_pos (fits.2 h)], h1, fun j l hj => by rw [h2 j l hj, lane_eq], h3⟩

example : ∃ out', extractLanesAll (Vector.replicate 25 fun l => BitVec.ofNat 64 (l.val + 5)) [0, 1, 2, 3, 4, 5, 6] 1 2 = .ok out' ∧ out'[4]? = some 7 ∧ out'[5]? = some 5 := by
  obtain ⟨o, e, _, h2, h3⟩ := (C86_extractLanesAll (Vector.replicate 25 fun l => BitVec.ofNat 64 (l.val + 5)) [0, 1, 2, 3, 4, 5, 6] 1 2 (by decide) (by decide)).1 (by decide)
  exact ⟨o, e, (h2 0 2 (by decide)).trans rfl, h3 5 (fun j l hj hl => by omega)⟩

/-- **C86.** `ExtractAndAddLanesAll`: the same with the word of a separate input buffer added. -/
theorem C86_extractAndAddLanesAll (s : Regs) (input out : List W64) (n off : Nat) (ho : off * 24 < 2 ^ 32) (hn : n ≤ off) :
    ((n = 0 ∨ n ≤ 25 ∧ 3 * off + n ≤ input.length ∧ 3 * off + n ≤ out.length) → ∃ out', extractAndAddLanesAll s input out n off = .ok out' ∧ out'.length = out.length ∧
      (∀ (j : Fin 25) (l : Fin 4), j.val < n → out'[l.val * off + j.val]? = some (input.getD (l.val * off + j.val) 0 ^^^ s[j] l)) ∧ ∀ p, (∀ j l : Nat, j < n → l < 4 → p ≠ l * off + j) → out'[p]? = out[p]?) ∧
    (¬ (n = 0 ∨ n ≤ 25 ∧ 3 * off + n ≤ input.length ∧ 3 * off + n ≤ out.length) → extractAndAddLanesAll s input out n off = .error .ub) := by
  have f : n ≤ min (min 25 (input.length - 3 * off)) (out.length - 3 * off) ↔ n = 0 ∨ n ≤ 25 ∧ 3 * off + n ≤ input.length ∧ 3 * off + n ≤ out.length := by omega
  refine ⟨fun h => ?_, fun h => by rw [extractAndAddLanesAll_eq off ho _ _ _ _ hn, if_neg fun c => h (f.1 c)]⟩
  obtain ⟨h1, h2, h3⟩ := written off n hn (sumAt off s input) out (by omega)
  exact ⟨_, by rw [extractAndAddLanesAll_eq off ho _ _ _ _ hn, if_pos (f.2 h)], h1, fun j l hj => by rw [h2 j l hj, sumAt, lane_eq], h3⟩

example : ∃ out', extractAndAddLanesAll (Vector.replicate 25 fun l => BitVec.ofNat 64 (l.val + 5)) [8, 16, 24, 32] [0, 1, 2, 3] 1 1 = .ok out' ∧ out'[2]? = some 31 := by
  obtain ⟨o, e, _, h2, _⟩ := (C86_extractAndAddLanesAll (Vector.replicate 25 fun l => BitVec.ofNat 64 (l.val + 5)) [8, 16, 24, 32] [0, 1, 2, 3] 1 1 (by decide) (by decide)).1 (by decide)
  exact ⟨o, e, (h2 0 2 (by decide)).trans rfl⟩

example : extractAndAddLanesAll (Vector.replicate 25 fun _ => 0) [1, 2, 3] [1, 2, 3, 4] 1 1 = .error .ub := (C86_extractAndAddLanesAll _ _ _ _ _ (by decide) (by decide)).2 (by decide)

private theorem inst_map (s : Regs) (l : Fin 4) : inst l s = s.map fun v => v l := Vector.ext fun i hi => by rw [inst_get, Vector.getElem_map]

/-- **C86.** The versions with 12, 6 and 4 rounds apply the last 12, 6 and 4 rounds of Keccak-f[1600] to each of the four states. -/
theorem C86_rounds (s : Regs) (l : Fin 4) : ((permute12 s).map fun v => v l) = keccakRounds 12 (s.map fun v => v l) ∧ ((permute6 s).map fun v => v l) = keccakRounds 6 (s.map fun v => v l) ∧
    ((X4.permute4 s).map fun v => v l) = keccakRounds 4 (s.map fun v => v l) := by
  simp only [← inst_map]
  exact ⟨inst_rounds12 s l, inst_rounds6 s l, inst_rounds4 s l⟩

/-- Four different states. -/
example : ((X4.permute4 (Vector.replicate 25 fun l => BitVec.ofNat 64 l.val)).map fun v => v 2) = keccakRounds 4 (Vector.replicate 25 2) := by
  refine (C86_rounds _ 2).2.2.trans (congrArg _ (Vector.ext fun i hi => ?_))
  rw [Vector.getElem_map, Vector.getElem_replicate, Vector.getElem_replicate]
  rfl

/-- **C86.** The fast loops with 24 and with 12 rounds. With `q` the number of blocks that fit (the last word read for block `q - 1` of the fourth state is in the buffer, that of a block `q` would not be),
state `l` absorbs the blocks of `laneCount` words from words `l * laneOffsetParallel + k * laneOffsetSerial` on, `k < q`, and the number of bytes returned is `8 * q * laneOffsetSerial`. -/
theorem C86_fastLoop (s : Regs) (n par ser q : Nat) (d : List W64) (hn : n ≤ 25) (hpar : 8 * (3 * par + n) < 2 ^ 32) (h0 : 0 < ser) (hs : ser ≤ 3 * par + n) (hl : 8 * d.length < 2 ^ 64)
    (hq : q = 0 ∨ (q - 1) * ser + 3 * par + n ≤ d.length) (hq' : d.length < q * ser + 3 * par + n) (fuel : Nat) (hf : q ≤ fuel) :
    (∃ s', fastLoopAbsorb rounds24 fuel s n par ser d = .ok (s', 8 * (q * ser)) ∧
      ∀ l : Fin 4, (s'.map fun v => v l) = absorbEvery (keccakRounds 24) n ser (fun i => d.getD (l.val * par + i) 0) q (s.map fun v => v l)) ∧
    ∃ s', fastLoopAbsorb rounds12 fuel s n par ser d = .ok (s', 8 * (q * ser)) ∧
      ∀ l : Fin 4, (s'.map fun v => v l) = absorbEvery (keccakRounds 12) n ser (fun i => d.getD (l.val * par + i) 0) q (s.map fun v => v l) := by
  have e : X4.blocks n par ser d.length = q := by
    unfold X4.blocks
    split
    · rcases hq with rfl | hq
      · rfl
      · exfalso
        rw [Nat.add_assoc] at hq
        omega
    · rcases hq with rfl | hq
      · omega
      · obtain ⟨m, rfl⟩ : ∃ m, q = m + 1 := ⟨q - 1, by
          rcases q with _ | q
          · omega
          · rfl⟩
        rw [Nat.add_sub_cancel] at hq
        refine congrArg (· + 1) (Nat.div_eq_of_lt_le (by omega) (by rw [Nat.add_mul] at hq' ⊢; omega))
  simp only [← inst_map]
  have a := fastLoopAbsorb_eq rounds24 24 inst_rounds24' s n par ser d hn hpar h0 hs hl fuel (by omega)
  have b := fastLoopAbsorb_eq rounds12 12 inst_rounds12 s n par ser d hn hpar h0 hs hl fuel (by omega)
  rw [e] at a b
  exact ⟨a, b⟩

/-- Two blocks of one lane per state, interleaved (`laneOffsetParallel = 1`, `laneOffsetSerial = 4`) out of nine words: the last word is left. -/
example (s : Regs) : ∃ s', fastLoopAbsorb rounds24 5 s 1 1 4 [1, 2, 3, 4, 5, 6, 7, 8, 9] = .ok (s', 64) ∧
    (s'.map fun v => v 1) = absorbEvery (keccakRounds 24) 1 4 (fun i => [1, 2, 3, 4, 5, 6, 7, 8, 9].getD (1 * 1 + i) 0) 2 (s.map fun v => v 1) := by
  obtain ⟨s', e, h⟩ := (C86_fastLoop s 1 1 4 2 [1, 2, 3, 4, 5, 6, 7, 8, 9] (by decide) (by decide) (by decide) (by decide) (by decide) (by decide) (by decide) 5 (by decide)).1
  exact ⟨s', e, h 1⟩

/-- **C86.** The condition `laneOffsetSerial ≤ 3 * laneOffsetParallel + laneCount` is needed: otherwise `dataByteLen -= laneOffsetSerial * 8` can wrap around below zero, and the loop reads behind the data
(here four words, one for each state, with five words between the blocks). The library never calls the function. -/
theorem C86_fastLoop_wraps (rounds : Regs → Regs) (s : Regs) (fuel : Nat) : fastLoopAbsorb rounds (fuel + 2) s 1 1 5 [1, 2, 3, 4] = .error .ub := by
  obtain ⟨s', e, _⟩ := (C86_addLanesAll s [1, 2, 3, 4] 1 1 (by decide)).1 (by decide)
  have e' := (C86_addLanesAll (rounds s') [] 1 1 (by decide)).2 (by decide)
  unfold fastLoopAbsorb
  rw [if_neg (by decide), fastLoopOther, if_pos (by decide), List.drop_zero, e]
  show (fastLoopOther rounds [1, 2, 3, 4] 1 1 5 (fuel + 1) (rounds s') 5 (BitVec.ofNat 64 32 - BitVec.ofNat 64 40) >>= _) = _
  rw [fastLoopOther, if_pos (by decide), show ([1, 2, 3, 4] : List W64).drop 5 = [] from rfl, e']
  rfl

end Banquet.Props
