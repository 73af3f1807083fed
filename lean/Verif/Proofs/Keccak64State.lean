import Mathlib.Data.List.GetD
import Verif.Proofs.Keccak64
import Verif.Proofs.SpongeSim

/-! The portable code for the Keccak state, in terms of the 200 bytes of the state. -/

namespace Banquet.Opt64

open Spec

/-! ## Bytes of a word -/

theorem byteOf_bit (w : W64) (k i : Nat) (hi : i < 8) : (byteOf w k).getLsbD i = w.getLsbD (8 * k + i) := by
  simp [byteOf, BitVec.getLsbD_ushiftRight, hi]

theorem byteOf_xor (a b : W64) (k : Nat) : byteOf (a ^^^ b) k = byteOf a k ^^^ byteOf b k := by
  apply BitVec.eq_of_getLsbD_eq
  intro i hi
  rw [byteOf_bit _ _ _ hi, BitVec.getLsbD_xor, BitVec.getLsbD_xor, byteOf_bit _ _ _ hi, byteOf_bit _ _ _ hi]

theorem le64_bit (bs : Bytes) (i : Nat) (hi : i < 64) : (le64 bs).getLsbD i = (bs.getD (i / 8) 0).getLsbD (i % 8) := by
  induction bs generalizing i with
  | nil => simp [le64]
  | cons b bs ih =>
    rw [le64, BitVec.getLsbD_or, BitVec.getLsbD_setWidth, BitVec.getLsbD_shiftLeft]
    by_cases h : i < 8
    · rw [Nat.div_eq_of_lt h, Nat.mod_eq_of_lt h]
      simp [h, hi]
    · rw [ih (i - 8) (by omega), BitVec.getLsbD_of_ge _ _ (by omega), show i / 8 = (i - 8) / 8 + 1 by omega, List.getD_cons_succ, show (i - 8) % 8 = i % 8 by omega]
      simp [h, hi]

theorem byteOf_le64_shift (bs : Bytes) (off k : Nat) (hk : k < 8) : byteOf (le64 bs <<< (8 * off)) k = if off ≤ k then bs.getD (k - off) 0 else 0 := by
  apply BitVec.eq_of_getLsbD_eq
  intro i hi
  rw [byteOf_bit _ _ _ hi, BitVec.getLsbD_shiftLeft]
  split
  · next h =>
    rw [le64_bit _ _ (by omega), show (8 * k + i - 8 * off) / 8 = k - off by omega, show (8 * k + i - 8 * off) % 8 = i by omega]
    simp [show 8 * k + i < 64 by omega, show ¬ 8 * k + i < 8 * off by omega]
  · simp [show 8 * k + i < 8 * off by omega]

theorem byteOf_le64 (bs : Bytes) (k : Nat) (hk : k < 8) : byteOf (le64 bs) k = bs.getD k 0 := by
  have := byteOf_le64_shift bs 0 k hk
  simpa using this

theorem eq_of_byteOf {a b : W64} (h : ∀ k < 8, byteOf a k = byteOf b k) : a = b := by
  apply BitVec.eq_of_getLsbD_eq
  intro i hi
  have := congrArg (fun x : Byte => x.getLsbD (i % 8)) (h (i / 8) (by omega))
  simp only [byteOf_bit _ _ _ (show i % 8 < 8 by omega)] at this
  rwa [show 8 * (i / 8) + i % 8 = i by omega] at this

/-! ## The 200 bytes -/

theorem view_get (s : Spec.Lanes) (i : Nat) (hi : i < 200) : (ofLanes s)[i] = byteOf (s[i / 8]'(by omega)) (i % 8) := by
  rw [ofLanes, Vector.getElem_ofFn]
  rfl

theorem toLanes_get (s : St) (i : Nat) (hi : i < 25) :
    (toLanes s)[i] = le64 [s[8 * i], s[8 * i + 1], s[8 * i + 2], s[8 * i + 3], s[8 * i + 4], s[8 * i + 5], s[8 * i + 6], s[8 * i + 7]] := by
  rw [toLanes, Vector.getElem_ofFn]
  have e : ∀ k, k < 8 → s.getD (8 * i + k) 0 = s.toList.getD (8 * i + k) 0 := by
    intro k hk
    simp [Vector.getD, List.getD, show 8 * i + k < 200 by omega]
  have g : ∀ k (hk : k < 8), s.getD (8 * i + k) 0 = s[8 * i + k] := by
    intro k hk
    simp [Vector.getD, show 8 * i + k < 200 by omega]
  rw [show List.range 8 = [0, 1, 2, 3, 4, 5, 6, 7] from rfl]
  simp only [List.foldl, g 0 (by decide), g 1 (by decide), g 2 (by decide), g 3 (by decide), g 4 (by decide), g 5 (by decide), g 6 (by decide), g 7 (by decide), le64,
    BitVec.shiftLeft_or_distrib, ← BitVec.shiftLeft_add]
  simp [BitVec.or_assoc]

theorem toLanes_ofLanes (s : Spec.Lanes) : toLanes (ofLanes s) = s := by
  refine Vector.ext fun i hi => ?_
  rw [toLanes_get _ _ hi]
  refine eq_of_byteOf fun k hk => ?_
  rw [byteOf_le64 _ _ hk]
  interval_cases k <;> simp only [view_get, List.getD_cons_zero, List.getD_cons_succ] <;> (congr 1 <;> first | omega | (congr 1; omega))

theorem ofLanes_toLanes (s : St) : ofLanes (toLanes s) = s := by
  refine Vector.ext fun i hi => ?_
  rw [view_get _ _ hi, toLanes_get _ _ (by omega), byteOf_le64 _ _ (by omega)]
  have : i % 8 < 8 := by omega
  have h8 : 8 * (i / 8) + i % 8 = i := by omega
  generalize hk : i % 8 = k at *
  interval_cases k <;> simp only [List.getD_cons_zero, List.getD_cons_succ] <;> congr 1

theorem addBytes_append (s : St) (a b : Bytes) (o : Nat) : Spec.addBytes (Spec.addBytes s a o) b (o + a.length) = Spec.addBytes s (a ++ b) o := by
  refine Vector.ext fun i hi => ?_
  simp only [Spec.addBytes, Vector.getElem_ofFn, Fin.getElem_fin]
  by_cases h : o ≤ i
  · rw [if_pos h, if_pos h]
    by_cases h2 : o + a.length ≤ i
    · rw [if_pos h2, List.getD_append_right _ _ _ _ (by omega), List.getD_eq_default _ _ (by omega), show i - o - a.length = i - (o + a.length) by omega]
      simp
    · rw [if_neg h2, List.getD_append _ _ _ _ (by omega)]
  · rw [if_neg h, if_neg h, if_neg (by omega)]

theorem addBytes_nil (s : St) (o : Nat) : Spec.addBytes s [] o = s := by
  refine Vector.ext fun i hi => ?_
  simp [Spec.addBytes]

/-- Changing one lane. -/
theorem view_set (s : Spec.Lanes) (pos off : Nat) (hpos : pos < 25) (bs : Bytes) (h : off + bs.length ≤ 8) :
    ofLanes (s.set pos (s[pos] ^^^ (le64 bs <<< (8 * off)))) = Spec.addBytes (ofLanes s) bs (8 * pos + off) := by
  refine Vector.ext fun i hi => ?_
  rw [view_get _ _ hi]
  simp only [Spec.addBytes, Vector.getElem_ofFn, Fin.getElem_fin, view_get _ _ hi]
  by_cases hp : pos = i / 8
  · subst hp
    rw [Vector.getElem_set_self, byteOf_xor, byteOf_le64_shift _ _ _ (by omega)]
    by_cases ho : off ≤ i % 8
    · rw [if_pos ho, if_pos (by omega), show i - (8 * (i / 8) + off) = i % 8 - off by omega]
    · rw [if_neg ho, if_neg (by omega)]
      simp
  · rw [Vector.getElem_set_ne _ _ hp]
    split
    · rw [List.getD_eq_default _ _ (by omega)]
      simp
    · rfl

theorem addByte_eq (s : Spec.Lanes) (b : Byte) (offset : Nat) (h : offset < 200) : ∃ s', addByte s b offset = .ok s' ∧ ofLanes s' = Spec.addByte (ofLanes s) b offset := by
  refine ⟨_, dif_pos (show offset / 8 < 25 by omega), ?_⟩
  have := view_set s (offset / 8) (offset % 8) (by omega) [b] (by simp; omega)
  rw [show 8 * (offset / 8) + offset % 8 = offset by omega] at this
  rw [Spec.addByte, ← this]
  simp [le64]

theorem addBytesInLane_eq (s : Spec.Lanes) (pos off : Nat) (bs : Bytes) (h : off + bs.length ≤ 8) (hpos : bs.length ≠ 0 → pos < 25) :
    ∃ s', addBytesInLane s pos bs off = .ok s' ∧ ofLanes s' = Spec.addBytes (ofLanes s) bs (8 * pos + off) := by
  unfold addBytesInLane
  by_cases h0 : bs.length = 0
  · rw [if_pos h0, List.eq_nil_of_length_eq_zero h0, addBytes_nil]
    exact ⟨s, rfl, rfl⟩
  · rw [if_neg h0, dif_pos (hpos h0)]
    refine ⟨_, rfl, ?_⟩
    rw [← view_set s pos off (hpos h0) bs h]
    have : (if bs.length = 1 then (bs.headD 0).setWidth 64 else le64 bs) = le64 bs := by
      split
      · next h1 =>
        obtain ⟨b, rfl⟩ := List.length_eq_one_iff.1 h1
        simp [le64]
      · rfl
    simp only [this, Nat.mul_comm off 8]

theorem addBytesInLane_ub (s : Spec.Lanes) (pos off : Nat) (bs : Bytes) (h : bs.length ≠ 0) (hpos : 25 ≤ pos) : addBytesInLane s pos bs off = .error .ub := by
  rw [addBytesInLane, if_neg h, dif_neg (by omega)]

theorem xorLane_eq (s : Spec.Lanes) (data : Bytes) (i : Nat) (hi : i < 25) :
    ∃ s', xorLane s data i = .ok s' ∧ ofLanes s' = Spec.addBytes (ofLanes s) ((data.drop (8 * i)).take 8) (8 * i) := by
  refine ⟨_, dif_pos hi, ?_⟩
  have := view_set s i 0 hi ((data.drop (8 * i)).take 8) (by rw [List.length_take]; omega)
  simpa using this

theorem xorLanes_eq (s : Spec.Lanes) (data : Bytes) (i n : Nat) (h : i + n ≤ 25) (hd : 8 * (i + n) ≤ data.length) :
    ∃ s', xorLanes s data i n = .ok s' ∧ ofLanes s' = Spec.addBytes (ofLanes s) ((data.drop (8 * i)).take (8 * n)) (8 * i) := by
  induction n generalizing s i with
  | zero =>
    refine ⟨s, rfl, ?_⟩
    rw [Nat.mul_zero, List.take_zero, addBytes_nil]
  | succ n ih =>
    obtain ⟨s1, e1, g1⟩ := xorLane_eq s data i (by omega)
    obtain ⟨s2, e2, g2⟩ := ih s1 (i + 1) (by omega) (by omega)
    refine ⟨s2, ?_, ?_⟩
    · rw [xorLanes, bindOk e1, e2]
    · have hlen : ((data.drop (8 * i)).take 8).length = 8 := by rw [List.length_take, List.length_drop]; omega
      have := addBytes_append (ofLanes s) ((data.drop (8 * i)).take 8) ((data.drop (8 * (i + 1))).take (8 * n)) (8 * i)
      rw [hlen] at this
      rw [g2, g1]
      rw [show 8 * (i + 1) = 8 * i + 8 by omega] at this ⊢
      rw [this]
      congr 1
      rw [← List.drop_drop, show 8 * (n + 1) = 8 + 8 * n by omega, List.take_add]

theorem addLanesLoop_eq (data : Bytes) (laneCount step fuel : Nat) (s : Spec.Lanes) (i : Nat) (h1 : 0 < step) (hi : i ≤ laneCount) (h25 : laneCount ≤ 25) (hd : 8 * laneCount ≤ data.length)
    (hf : laneCount ≤ fuel + i) :
    ∃ s' i', addLanesLoop data laneCount step fuel s i = .ok (s', i') ∧ i ≤ i' ∧ i' ≤ laneCount ∧ laneCount < i' + step ∧
      ofLanes s' = Spec.addBytes (ofLanes s) ((data.drop (8 * i)).take (8 * (i' - i))) (8 * i) := by
  induction fuel generalizing s i with
  | zero =>
    refine ⟨s, i, rfl, le_rfl, hi, by omega, ?_⟩
    rw [Nat.sub_self, Nat.mul_zero, List.take_zero, addBytes_nil]
  | succ fuel ih =>
    rw [addLanesLoop]
    by_cases hc : i + step ≤ laneCount
    · rw [if_pos hc]
      obtain ⟨s1, e1, g1⟩ := xorLanes_eq s data i step (by omega) (by omega)
      obtain ⟨s2, i2, e2, h2, h3, h4, g2⟩ := ih s1 (i + step) hc (by omega)
      refine ⟨s2, i2, ?_, by omega, h3, h4, ?_⟩
      · rw [bindOk e1, e2]
      · have hlen : ((data.drop (8 * i)).take (8 * step)).length = 8 * step := by rw [List.length_take, List.length_drop]; omega
        have := addBytes_append (ofLanes s) ((data.drop (8 * i)).take (8 * step)) ((data.drop (8 * (i + step))).take (8 * (i2 - (i + step)))) (8 * i)
        rw [hlen] at this
        rw [g2, g1]
        rw [show 8 * (i + step) = 8 * i + 8 * step by omega] at this ⊢
        rw [this]
        congr 1
        rw [← List.drop_drop, show 8 * (i2 - i) = 8 * step + 8 * (i2 - (i + step)) by omega, List.take_add]
    · rw [if_neg hc]
      refine ⟨s, i, rfl, le_rfl, hi, by omega, ?_⟩
      rw [Nat.sub_self, Nat.mul_zero, List.take_zero, addBytes_nil]

/-- Two consecutive pieces of the data. -/
theorem addBytes_pieces (s : St) (data : Bytes) (i j k : Nat) (h1 : i ≤ j) (h2 : j ≤ k) (hd : j ≤ data.length) :
    Spec.addBytes (Spec.addBytes s ((data.drop i).take (j - i)) i) ((data.drop j).take (k - j)) j = Spec.addBytes s ((data.drop i).take (k - i)) i := by
  have hlen : ((data.drop i).take (j - i)).length = j - i := by rw [List.length_take, List.length_drop]; omega
  have := addBytes_append s ((data.drop i).take (j - i)) ((data.drop j).take (k - j)) i
  rw [hlen, Nat.add_sub_cancel' h1] at this
  rw [this]
  congr 1
  rw [show k - i = (j - i) + (k - j) by omega, List.take_add, List.drop_drop, Nat.add_sub_cancel' h1]

theorem addLanes_eq (s : Spec.Lanes) (data : Bytes) (n : Nat) (h25 : n ≤ 25) (hd : 8 * n ≤ data.length) :
    ∃ s', addLanes s data n = .ok s' ∧ ofLanes s' = Spec.addBytes (ofLanes s) (data.take (8 * n)) 0 := by
  obtain ⟨s1, i1, e1, a1, b1, c1, g1⟩ := addLanesLoop_eq data n 8 n s 0 (by decide) (by omega) h25 hd (by omega)
  obtain ⟨s2, i2, e2, a2, b2, c2, g2⟩ := addLanesLoop_eq data n 4 n s1 i1 (by decide) b1 h25 hd (by omega)
  obtain ⟨s3, i3, e3, a3, b3, c3, g3⟩ := addLanesLoop_eq data n 2 n s2 i2 (by decide) b2 h25 hd (by omega)
  have hs3 : ofLanes s3 = Spec.addBytes (ofLanes s) (data.take (8 * i3)) 0 := by
    have p1 := addBytes_pieces (ofLanes s) data 0 (8 * i1) (8 * i2) (by omega) (by omega) (by omega)
    have p2 := addBytes_pieces (ofLanes s) data 0 (8 * i2) (8 * i3) (by omega) (by omega) (by omega)
    simp only [Nat.mul_zero, Nat.mul_sub] at g1 g2 g3
    rw [g1, p1] at g2
    rw [g2, p2] at g3
    simpa using g3
  unfold addLanes
  rw [bindOk e1]
  simp only
  rw [bindOk e2]
  simp only
  rw [bindOk e3]
  simp only
  by_cases hc : i3 < n
  · rw [if_pos hc]
    obtain ⟨s4, e4, g4⟩ := xorLane_eq s3 data i3 (by omega)
    refine ⟨s4, e4, ?_⟩
    have hn : n = i3 + 1 := by omega
    subst hn
    have p := addBytes_pieces (ofLanes s) data 0 (8 * i3) (8 * (i3 + 1)) (by omega) (by omega) (by omega)
    rw [show 8 * (i3 + 1) - 8 * i3 = 8 by omega] at p
    simp only [List.drop_zero, Nat.sub_zero] at p
    rw [g4, hs3, p]
  · rw [if_neg hc]
    have hn : i3 = n := by omega
    subst hn
    exact ⟨s3, rfl, hs3⟩

theorem addBytesLoop_eq (fuel : Nat) (s : Spec.Lanes) (data : Bytes) (pos off : Nat) (ho : off < 8) (h : 8 * pos + off + data.length ≤ 200) (hf : data.length ≤ fuel) :
    ∃ s', addBytesLoop fuel s data pos off = .ok s' ∧ ofLanes s' = Spec.addBytes (ofLanes s) data (8 * pos + off) := by
  induction fuel generalizing s data pos off with
  | zero =>
    have : data = [] := List.eq_nil_of_length_eq_zero (by omega)
    subst this
    exact ⟨s, rfl, (addBytes_nil _ _).symm⟩
  | succ fuel ih =>
    rw [addBytesLoop]
    by_cases h0 : data.length = 0
    · rw [if_pos h0, List.eq_nil_of_length_eq_zero h0]
      exact ⟨s, rfl, (addBytes_nil _ _).symm⟩
    · rw [if_neg h0]
      simp only
      generalize hn : (if 8 - off > data.length then data.length else 8 - off) = n
      have hp : n ≤ data.length ∧ off + n ≤ 8 ∧ 0 < n ∧ (n = data.length ∨ off + n = 8) := by
        subst hn
        split <;> omega
      obtain ⟨s1, e1, g1⟩ := addBytesInLane_eq s pos off (data.take n) (by rw [List.length_take]; omega) (by omega)
      obtain ⟨s2, e2, g2⟩ := ih s1 (data.drop n) (pos + 1) 0 (by decide) (by rw [List.length_drop]; omega) (by rw [List.length_drop]; omega)
      refine ⟨s2, ?_, ?_⟩
      · rw [bindOk e1, e2]
      · rw [g2, g1]
        rcases hp.2.2.2 with h1 | h1
        · subst h1
          rw [List.drop_length, List.take_length, addBytes_nil]
        · have := addBytes_append (ofLanes s) (data.take n) (data.drop n) (8 * pos + off)
          rw [List.take_append_drop, List.length_take, Nat.min_eq_left hp.1] at this
          rw [← this]
          congr 1
          omega

theorem addBytesLoop_ub (fuel : Nat) (s : Spec.Lanes) (data : Bytes) (pos off : Nat) (ho : off < 8) (h : 200 < 8 * pos + off + data.length) (h0 : 0 < data.length) (hf : data.length ≤ fuel) :
    addBytesLoop fuel s data pos off = .error .ub := by
  induction fuel generalizing s data pos off with
  | zero => omega
  | succ fuel ih =>
    rw [addBytesLoop, if_neg (by omega)]
    simp only
    generalize hn : (if 8 - off > data.length then data.length else 8 - off) = n
    have hp : n ≤ data.length ∧ off + n ≤ 8 ∧ 0 < n ∧ (n = data.length ∨ off + n = 8) := by
      subst hn
      split <;> omega
    by_cases hpos : pos < 25
    · obtain ⟨s1, e1, -⟩ := addBytesInLane_eq s pos off (data.take n) (by rw [List.length_take]; omega) (by omega)
      rw [bindOk e1]
      exact ih s1 (data.drop n) (pos + 1) 0 (by decide) (by rw [List.length_drop]; omega) (by rw [List.length_drop]; omega) (by rw [List.length_drop]; omega)
    · rw [addBytesInLane_ub _ _ _ _ (by rw [List.length_take]; omega) (by omega)]
      rfl

theorem addBytes_eq (s : Spec.Lanes) (data : Bytes) (offset : Nat) (h : offset + data.length ≤ 200) :
    ∃ s', addBytes s data offset = .ok s' ∧ ofLanes s' = Spec.addBytes (ofLanes s) data offset := by
  unfold addBytes
  by_cases h0 : offset = 0
  · subst h0
    rw [if_pos rfl]
    obtain ⟨s1, e1, g1⟩ := addLanes_eq s data (data.length / 8) (by omega) (by omega)
    obtain ⟨s2, e2, g2⟩ := addBytesInLane_eq s1 (data.length / 8) 0 (data.drop (data.length / 8 * 8)) (by rw [List.length_drop]; omega) (by rw [List.length_drop]; omega)
    refine ⟨s2, ?_, ?_⟩
    · rw [bindOk e1, e2]
    · have := addBytes_append (ofLanes s) (data.take (8 * (data.length / 8))) (data.drop (8 * (data.length / 8))) 0
      rw [List.take_append_drop, List.length_take, Nat.min_eq_left (by omega)] at this
      rw [g2, g1, ← this, Nat.mul_comm (data.length / 8) 8, Nat.zero_add, Nat.add_zero]
  · rw [if_neg h0]
    obtain ⟨s', e, g⟩ := addBytesLoop_eq data.length s data (offset / 8) (offset % 8) (by omega) (by omega) le_rfl
    refine ⟨s', e, ?_⟩
    rw [g]
    congr 1
    omega

theorem addBytes_ub (s : Spec.Lanes) (data : Bytes) (offset : Nat) (h : 200 < offset + data.length) (h0 : 0 < data.length) (ho : offset ≠ 0) : addBytes s data offset = .error .ub := by
  rw [addBytes, if_neg ho]
  exact addBytesLoop_ub _ _ _ _ _ (by omega) (by omega) h0 le_rfl

/-! ## Reading -/

theorem view_getD (s : Spec.Lanes) (i : Nat) (hi : i < 200) : (ofLanes s).getD i 0 = byteOf (s.getD (i / 8) 0) (i % 8) := by
  simp [Vector.getD, hi, show i / 8 < 25 by omega, view_get _ _ hi]

theorem extract_append (s : St) (o a b : Nat) : Spec.extractBytes s o a ++ Spec.extractBytes s (o + a) b = Spec.extractBytes s o (a + b) := by
  simp only [Spec.extractBytes]
  rw [List.range_add, List.map_append, List.map_map]
  congr 1
  apply List.map_congr_left
  intro i _
  simp [Nat.add_assoc]

theorem extractBytesInLane_eq (s : Spec.Lanes) (pos off n : Nat) (hp : pos < 25) (h : off + n ≤ 8) :
    extractBytesInLane s pos off n = .ok (Spec.extractBytes (ofLanes s) (8 * pos + off) n) := by
  rw [extractBytesInLane, dif_pos hp, Spec.extractBytes]
  refine congrArg Except.ok (List.map_congr_left fun i hi => ?_)
  have := List.mem_range.1 hi
  rw [view_getD _ _ (by omega), show (8 * pos + off + i) / 8 = pos by omega, show (8 * pos + off + i) % 8 = off + i by omega]
  simp [Vector.getD, hp]

theorem extractLanes_eq (s : Spec.Lanes) (n : Nat) (h : n ≤ 25) : extractLanes s n = .ok (Spec.extractBytes (ofLanes s) 0 (8 * n)) := by
  rw [extractLanes, if_pos h, Spec.extractBytes]
  refine congrArg Except.ok (List.map_congr_left fun i hi => ?_)
  have := List.mem_range.1 hi
  rw [view_getD _ _ (by omega), Nat.zero_add]

theorem extractLoop_eq (fuel : Nat) (s : Spec.Lanes) (pos off len : Nat) (ho : off < 8) (h : 8 * pos + off + len ≤ 200) (hf : len ≤ fuel) :
    extractLoop fuel s pos off len = .ok (Spec.extractBytes (ofLanes s) (8 * pos + off) len) := by
  induction fuel generalizing pos off len with
  | zero =>
    have : len = 0 := by omega
    subst this
    rfl
  | succ fuel ih =>
    rw [extractLoop]
    by_cases h0 : len = 0
    · rw [if_pos h0, h0]
      rfl
    · rw [if_neg h0]
      simp only
      generalize hn : (if 8 - off > len then len else 8 - off) = n
      have hp : n ≤ len ∧ off + n ≤ 8 ∧ 0 < n ∧ (n = len ∨ off + n = 8) := by
        subst hn
        split <;> omega
      rw [bindOk (extractBytesInLane_eq s pos off n (by omega) hp.2.1), bindOk (ih (pos + 1) 0 (len - n) (by decide) (by omega) (by omega))]
      congr 1
      rcases hp.2.2.2 with h1 | h1
      · subst h1
        rw [Nat.sub_self]
        simp [Spec.extractBytes]
      · rw [show 8 * (pos + 1) + 0 = 8 * pos + off + n by omega, extract_append]
        congr 1
        omega

theorem extractLoop_ub (fuel : Nat) (s : Spec.Lanes) (pos off len : Nat) (ho : off < 8) (h : 200 < 8 * pos + off + len) (h0 : 0 < len) (hf : len ≤ fuel) :
    extractLoop fuel s pos off len = .error .ub := by
  induction fuel generalizing pos off len with
  | zero => omega
  | succ fuel ih =>
    rw [extractLoop, if_neg (by omega)]
    simp only
    generalize hn : (if 8 - off > len then len else 8 - off) = n
    have hp : n ≤ len ∧ off + n ≤ 8 ∧ 0 < n ∧ (n = len ∨ off + n = 8) := by
      subst hn
      split <;> omega
    by_cases hpos : pos < 25
    · rw [bindOk (extractBytesInLane_eq s pos off n hpos hp.2.1), ih (pos + 1) 0 (len - n) (by decide) (by omega) (by omega) (by omega)]
      rfl
    · rw [extractBytesInLane, dif_neg hpos]
      rfl

theorem extractBytes_ub (s : Spec.Lanes) (offset len : Nat) (h : 200 < offset + len) (h0 : 0 < len) (ho : offset ≠ 0) : extractBytes s offset len = .error .ub := by
  rw [extractBytes, if_neg ho]
  exact extractLoop_ub _ _ _ _ _ (by omega) (by omega) h0 le_rfl

theorem extractBytes_eq (s : Spec.Lanes) (offset len : Nat) (h : offset + len < 200) : extractBytes s offset len = .ok (Spec.extractBytes (ofLanes s) offset len) := by
  unfold extractBytes
  by_cases h0 : offset = 0
  · subst h0
    rw [if_pos rfl, bindOk (extractLanes_eq s (len / 8) (by omega)), bindOk (extractBytesInLane_eq s (len / 8) 0 (len % 8) (by omega) (by omega))]
    have := extract_append (ofLanes s) 0 (8 * (len / 8)) (len % 8)
    rw [Nat.zero_add] at this
    rw [Nat.add_zero, this, show 8 * (len / 8) + len % 8 = len by omega]
  · rw [if_neg h0, extractLoop_eq len s (offset / 8) (offset % 8) len (by omega) (by omega) le_rfl]
    congr 2
    omega

/-! ## Permutation and fast loop -/

theorem view_rounds24 (s : Spec.Lanes) : ofLanes (rounds24 s) = keccakF (ofLanes s) := by
  rw [keccakF, toLanes_ofLanes, rounds24_eq]

theorem addRange_append (X : Spec.Lanes) (input : Bytes) (a b c : Nat) (h1 : a ≤ b) (h2 : b ≤ c) : addRange (addRange X input a b) input b c = addRange X input a c := by
  refine Vector.ext fun i hi => ?_
  simp only [addRange, Vector.getElem_ofFn, Fin.getElem_fin]
  by_cases h3 : b ≤ i ∧ i < c
  · rw [if_pos h3, if_neg (by omega), if_pos (by omega)]
  · rw [if_neg h3]
    by_cases h4 : a ≤ i ∧ i < b
    · rw [if_pos h4, if_pos (by omega)]
    · rw [if_neg h4, if_neg (by omega)]

theorem addInput_eq (X : Spec.Lanes) (input : Bytes) (n : Nat) (h0 : 0 < n) (h : n ≤ 25) : addInput X input n = addRange X input 0 n := by
  interval_cases n <;> simp [addInput, addRange_append]

theorem view_addRange (X : Spec.Lanes) (input : Bytes) (n : Nat) : ofLanes (addRange X input 0 n) = Spec.addBytes (ofLanes X) (input.take (8 * n)) 0 := by
  refine Vector.ext fun i hi => ?_
  rw [view_get _ _ hi]
  simp only [Spec.addBytes, Vector.getElem_ofFn, Fin.getElem_fin, view_get _ _ hi, addRange, Nat.zero_le, true_and, if_true, Nat.sub_zero]
  by_cases h : i / 8 < n
  · rw [if_pos h, byteOf_xor, byteOf_le64 _ _ (by omega)]
    congr 1
    simp only [List.getD_eq_getElem?_getD, List.getElem?_take, List.getElem?_drop]
    rw [if_pos (by omega), if_pos (by omega), show 8 * (i / 8) + i % 8 = i by omega]
  · rw [if_neg h, List.getD_eq_default _ _ (by rw [List.length_take]; omega)]
    simp

theorem fastLoop_eq (n fuel : Nat) (A : Spec.Lanes) (data : Bytes) (h0 : 0 < n) (h : n ≤ 25) (hf : data.length ≤ fuel) :
    ∃ s', fastLoop n fuel A data = .ok (s', data.drop (data.length / (8 * n) * (8 * n))) ∧ ofLanes s' = absorbFull keccakF (8 * n) (data.length / (8 * n)) (ofLanes A) data := by
  induction fuel generalizing A data with
  | zero =>
    have : data = [] := List.eq_nil_of_length_eq_zero (by omega)
    subst this
    refine ⟨A, ?_, ?_⟩
    · rw [fastLoop, if_neg (by simp; omega)]
      simp
    · simp [absorbFull]
  | succ fuel ih =>
    rw [fastLoop, Nat.mul_comm n 8]
    by_cases hc : data.length ≥ 8 * n
    · rw [if_pos hc]
      obtain ⟨s', e, g⟩ := ih (rounds24 (addInput A data n)) (data.drop (8 * n)) (by rw [List.length_drop]; omega)
      have hq : data.length / (8 * n) = (data.length - 8 * n) / (8 * n) + 1 := by
        rw [Nat.div_eq_sub_div (by omega) hc]
      refine ⟨s', ?_, ?_⟩
      · rw [e, List.length_drop, List.drop_drop, hq]
        congr 3
        ring
      · rw [g, List.length_drop, hq, absorbFull, view_rounds24, addInput_eq _ _ _ h0 h, view_addRange]
    · rw [if_neg hc]
      have : data.length / (8 * n) = 0 := Nat.div_eq_of_lt (by omega)
      exact ⟨A, by simp [this], by simp [this, absorbFull]⟩

theorem fastLoopAbsorb_eq (s : Spec.Lanes) (n : Nat) (data : Bytes) (h0 : 0 < n) (h : n ≤ 25) :
    ∃ s', fastLoopAbsorb s n data = .ok (s', data.length / (8 * n) * (8 * n)) ∧ ofLanes s' = absorbFull keccakF (8 * n) (data.length / (8 * n)) (ofLanes s) data := by
  obtain ⟨s', e, g⟩ := fastLoop_eq n data.length s data h0 h le_rfl
  refine ⟨s', ?_, g⟩
  unfold fastLoopAbsorb
  rw [bindOk e]
  simp only [List.length_drop]
  have := Nat.div_mul_le_self data.length (8 * n)
  congr 2
  omega

theorem view_init : ofLanes init = Vector.replicate 200 0 := by
  refine Vector.ext fun i hi => ?_
  rw [view_get _ _ hi]
  simp [init, byteOf]

theorem snp_ok : Snp keccakF snp ofLanes where
  init := view_init
  addByte := addByte_eq
  addBytes := addBytes_eq
  extractBytes := extractBytes_eq
  permute := view_rounds24
  fastLoop s n data := fastLoopAbsorb_eq s n data

/-- The four states of the 4-way fallback. -/
def view4 (s : Vector Spec.Lanes 4) (l : Fin 4) : St := ofLanes s[l]

theorem view4_set (s : Vector Spec.Lanes 4) (l l' : Fin 4) (t : Spec.Lanes) : view4 (s.set l t) l' = if l' = l then ofLanes t else view4 s l' := by
  simp only [view4, Fin.getElem_fin, Vector.getElem_set]
  by_cases h : l' = l
  · subst h
    simp
  · rw [if_neg (fun e => h (Fin.ext e.symm)), if_neg h]

theorem view4_init (l : Fin 4) : view4 (Vector.replicate 4 init) l = Vector.replicate 200 0 := by
  rw [view4, Fin.getElem_fin, Vector.getElem_replicate, view_init]

theorem view4_permute (s : Vector Spec.Lanes 4) (l : Fin 4) : view4 (s.map permute) l = keccakF (view4 s l) := by
  rw [view4, Fin.getElem_fin, Vector.getElem_map]
  exact view_rounds24 _

theorem plSnp_addByte (s : Vector Spec.Lanes 4) (l : Fin 4) (b : Byte) (offset : Nat) (h : offset < 200) :
    ∃ s' : Vector Spec.Lanes 4, plSnp.addByte s l b offset = .ok s' ∧ ∀ l', view4 s' l' = if l' = l then Spec.addByte (view4 s l) b offset else view4 s l' := by
  obtain ⟨t, e, g⟩ := addByte_eq s[l] b offset h
  refine ⟨s.set l t, bindOk e _, fun l' => ?_⟩
  rw [view4_set, g]
  rfl

theorem plSnp_addBytes (s : Vector Spec.Lanes 4) (l : Fin 4) (data : Bytes) (offset : Nat) (h : offset + data.length ≤ 200) :
    ∃ s' : Vector Spec.Lanes 4, plSnp.addBytes s l data offset = .ok s' ∧ ∀ l', view4 s' l' = if l' = l then Spec.addBytes (view4 s l) data offset else view4 s l' := by
  obtain ⟨t, e, g⟩ := addBytes_eq s[l] data offset h
  refine ⟨s.set l t, bindOk e _, fun l' => ?_⟩
  rw [view4_set, g]
  rfl

theorem plSnp_ok : PlSnp keccakF plSnp view4 where
  init := view4_init
  addByte := plSnp_addByte
  addBytes := plSnp_addBytes
  extractBytes _ _ offset len h := extractBytes_eq _ offset len h
  permute := view4_permute

end Banquet.Opt64
