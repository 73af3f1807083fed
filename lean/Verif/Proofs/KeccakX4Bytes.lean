import Verif.Proofs.KeccakX4
import Verif.Proofs.KeccakRest
import Verif.Model.KeccakX4Bytes

/-! The functions of `Model/KeccakX4Bytes`. -/

namespace Banquet.X4

open Spec
open Opt64 (byteOf le64)

/-! ## Overwriting -/

theorem setLane_eq (s : Regs) (l : Fin 4) (pos : Nat) (w : W64) (hp : pos < 25) :
    ∃ s', setLane s l pos w = .ok s' ∧ ∀ l', inst l' s' = if l' = l then (inst l s).set pos w else inst l' s := by
  obtain ⟨h1, h2⟩ := laneIndex_div l pos
  refine ⟨s.set pos fun j => if j.val = l.val then w else s[pos] j, ?_, fun l' => ?_⟩
  · unfold setLane
    generalize laneIndex l pos = i at *
    subst h1
    rw [dif_pos hp, h2]
  · refine Vector.ext fun i hi => ?_
    rw [inst_get]
    by_cases hl : l' = l
    · subst hl
      rw [if_pos rfl]
      by_cases hp : pos = i
      · subst hp
        rw [Vector.getElem_set_self, Vector.getElem_set_self, if_pos rfl]
      · rw [Vector.getElem_set_ne _ _ hp, Vector.getElem_set_ne _ _ hp, inst_get]
    · rw [if_neg hl, inst_get]
      by_cases hp : pos = i
      · subst hp
        rw [Vector.getElem_set_self, if_neg (fun e => hl (Fin.ext e))]
      · rw [Vector.getElem_set_ne _ _ hp]

theorem setLane_ub (s : Regs) (l : Fin 4) (pos : Nat) (w : W64) (hp : 25 ≤ pos) : setLane s l pos w = .error .ub := by
  rw [setLane, dif_neg (by rw [(laneIndex_div l pos).1]; omega)]

theorem byteOf_overlay (w : W64) (start : Nat) (data : Bytes) (k : Nat) (hk : k < 8) :
    byteOf (overlay w start data) k = if start ≤ k ∧ k < start + data.length then data.getD (k - start) 0 else byteOf w k := by
  rw [overlay, Opt64.byteOf_le64 _ _ hk]
  simp [hk]

theorem view_set (s : Spec.Lanes) (pos start : Nat) (hp : pos < 25) (data : Bytes) (h : start + data.length ≤ 8) :
    ofLanes (s.set pos (overlay s[pos] start data)) = replaceBytes (ofLanes s) data (8 * pos + start) := by
  refine Vector.ext fun i hi => ?_
  rw [Opt64.view_get _ _ hi, Opt64.overwrite_get _ _ _ _ hi, Opt64.view_get _ _ hi]
  by_cases hb : pos = i / 8
  · subst hb
    rw [Vector.getElem_set_self, byteOf_overlay _ _ _ _ (by omega)]
    by_cases hc : start ≤ i % 8 ∧ i % 8 < start + data.length
    · rw [if_pos hc, if_pos (by omega), show i - (8 * (i / 8) + start) = i % 8 - start by omega]
    · rw [if_neg hc, if_neg (by omega)]
  · rw [Vector.getElem_set_ne _ _ hb, if_neg (by omega)]

theorem le64_overlay (w : W64) (data : Bytes) (h : data.length = 8) : le64 data = overlay w 0 data := by
  refine Opt64.eq_of_byteOf fun k hk => ?_
  rw [byteOf_overlay _ _ _ _ hk, if_pos (by omega), Opt64.byteOf_le64 _ _ hk, Nat.sub_zero]

theorem zero_overlay (w : W64) : (0 : W64) = overlay w 0 (List.replicate 8 0) := by
  refine Opt64.eq_of_byteOf fun k hk => ?_
  rw [byteOf_overlay _ _ _ _ hk, if_pos (by simp; omega), Nat.sub_zero]
  have : byteOf 0 k = 0 := by
    apply BitVec.eq_of_getLsbD_eq
    intro i hi
    rw [Opt64.byteOf_bit _ _ _ hi]
    simp
  rw [this]
  rw [List.getD_eq_getElem?_getD, List.getElem?_replicate, if_pos hk]
  rfl

theorem setOverlay_eq (s : Regs) (l : Fin 4) (pos start : Nat) (data : Bytes) (hp : pos < 25) (h : start + data.length ≤ 8) :
    ∃ s', setLane s l pos (overlay (s[pos] l) start data) = .ok s' ∧ ∀ l', view s' l' = if l' = l then replaceBytes (view s l) data (8 * pos + start) else view s l' := by
  obtain ⟨s', e, g⟩ := setLane_eq s l pos (overlay (s[pos] l) start data) hp
  refine ⟨s', e, fun l' => ?_⟩
  rw [view, g]
  by_cases hl : l' = l
  · rw [if_pos hl, if_pos hl, ← inst_get l s pos hp, view_set _ _ _ hp _ h]
    rfl
  · rw [if_neg hl, if_neg hl]
    rfl

theorem copyIn_eq (s : Regs) (l : Fin 4) (pos start : Nat) (data : Bytes) (hp : pos < 25) (h : start + data.length ≤ 8) :
    ∃ s', copyIn s l pos start data = .ok s' ∧ ∀ l', view s' l' = if l' = l then replaceBytes (view s l) data (8 * pos + start) else view s l' := by
  obtain ⟨h1, h2⟩ := laneIndex_div l pos
  rw [copyIn, bindOk (getWord_eq s h1 h2 hp)]
  exact setOverlay_eq s l pos start data hp h

theorem getWord_ub (s : Regs) (l : Fin 4) (pos : Nat) (hp : 25 ≤ pos) : getWord s (laneIndex l pos) = .error .ub := by
  rw [getWord, dif_neg (by rw [(laneIndex_div l pos).1]; omega)]

theorem copyIn_ub (s : Regs) (l : Fin 4) (pos start : Nat) (data : Bytes) (hp : 25 ≤ pos) : copyIn s l pos start data = .error .ub := by
  rw [copyIn, getWord_ub s l pos hp]
  rfl

/-- One write after another. -/
theorem chain {s s1 s2 : Regs} {l : Fin 4} {a b : Bytes} {o o' : Nat} (ho : o' = o + a.length)
    (g1 : ∀ l', view s1 l' = if l' = l then replaceBytes (view s l) a o else view s l')
    (g2 : ∀ l', view s2 l' = if l' = l then replaceBytes (view s1 l) b o' else view s1 l') :
    ∀ l', view s2 l' = if l' = l then replaceBytes (view s l) (a ++ b) o else view s l' := by
  intro l'
  rw [g2, g1 l, g1 l', if_pos rfl, ho, Opt64.overwrite_append]
  by_cases hl : l' = l
  · rw [if_pos hl, if_pos hl]
  · rw [if_neg hl, if_neg hl, if_neg hl]

theorem overwriteLoop_eq (l : Fin 4) (fuel : Nat) (s : Regs) (data : Bytes) (pos : Nat) (h : 8 * pos + data.length ≤ 200) (hf : data.length ≤ fuel) :
    ∃ s', overwriteLoop l fuel s data pos = .ok s' ∧ ∀ l', view s' l' = if l' = l then replaceBytes (view s l) data (8 * pos) else view s l' := by
  have hnil : ∀ s : Regs, ∀ l', view s l' = if l' = l then replaceBytes (view s l) [] (8 * pos) else view s l' := by
    intro s l'
    rw [Opt64.overwrite_nil]
    split
    · next e => rw [e]
    · rfl
  induction fuel generalizing s data pos with
  | zero =>
    have : data = [] := List.eq_nil_of_length_eq_zero (by omega)
    subst this
    exact ⟨s, rfl, hnil s⟩
  | succ fuel ih =>
    rw [overwriteLoop]
    by_cases h8 : data.length ≥ 8
    · have hlt : (data.take 8).length = 8 := by rw [List.length_take]; omega
      have hp : pos < 25 := by omega
      obtain ⟨s1, e1, g1⟩ := setOverlay_eq s l pos 0 (data.take 8) hp (by omega)
      rw [← le64_overlay _ _ hlt] at e1
      obtain ⟨s2, e2, g2⟩ := ih s1 (data.drop 8) (pos + 1) (by rw [List.length_drop]; omega) (by rw [List.length_drop]; omega) (by
        intro s l'
        rw [Opt64.overwrite_nil]
        split
        · next e => rw [e]
        · rfl)
      refine ⟨s2, ?_, ?_⟩
      · rw [if_pos h8, bindOk e1, e2]
      · have := chain (by omega) g1 g2
        rwa [List.take_append_drop] at this
    · rw [if_neg h8]
      by_cases h0 : data.length > 0
      · rw [if_pos h0]
        exact copyIn_eq s l pos 0 data (by omega) (by omega)
      · have : data = [] := List.eq_nil_of_length_eq_zero (by omega)
        subst this
        rw [if_neg h0]
        exact ⟨s, rfl, hnil s⟩

theorem overwriteLoop_ub (l : Fin 4) (fuel : Nat) (s : Regs) (data : Bytes) (pos : Nat) (h : 200 < 8 * pos + data.length) (h0 : 0 < data.length) (hf : data.length ≤ fuel) :
    overwriteLoop l fuel s data pos = .error .ub := by
  induction fuel generalizing s data pos with
  | zero => omega
  | succ fuel ih =>
    rw [overwriteLoop]
    by_cases h8 : data.length ≥ 8
    · rw [if_pos h8]
      by_cases hp : pos < 25
      · obtain ⟨s1, e1, _⟩ := setLane_eq s l pos (le64 (data.take 8)) hp
        rw [bindOk e1]
        exact ih s1 (data.drop 8) (pos + 1) (by rw [List.length_drop]; omega) (by rw [List.length_drop]; omega) (by rw [List.length_drop]; omega)
      · rw [setLane_ub _ _ _ _ (by omega)]
        rfl
    · rw [if_neg h8, if_pos h0]
      exact copyIn_ub _ _ _ _ _ (by omega)

theorem overwriteBytes_eq (s : Regs) (l : Fin 4) (data : Bytes) (offset : Nat) (h : offset + data.length ≤ 200) :
    ∃ s', overwriteBytes s l data offset = .ok s' ∧ ∀ l', view s' l' = if l' = l then replaceBytes (view s l) data offset else view s l' := by
  unfold overwriteBytes
  simp only
  by_cases hc : data.length > 0 ∧ offset % 8 ≠ 0
  · rw [if_pos hc]
    generalize hn : (if 8 - offset % 8 > data.length then data.length else 8 - offset % 8) = n
    have hp : n ≤ data.length ∧ offset % 8 + n ≤ 8 ∧ 0 < n ∧ (n = data.length ∨ offset % 8 + n = 8) := by
      subst hn
      split <;> omega
    have hlt : (data.take n).length = n := by rw [List.length_take]; omega
    obtain ⟨s1, e1, g1⟩ := copyIn_eq s l (offset / 8) (offset % 8) (data.take n) (by omega) (by omega)
    rw [bindOk e1]
    rw [show 8 * (offset / 8) + offset % 8 = offset by omega] at g1
    by_cases hd : n = data.length
    · rw [hd, List.drop_length]
      rw [hd, List.take_length] at g1
      refine ⟨s1, ?_, g1⟩
      cases data.length <;> rfl
    · obtain ⟨s2, e2, g2⟩ := overwriteLoop_eq l data.length s1 (data.drop n) (offset / 8 + 1) (by rw [List.length_drop]; omega) (by rw [List.length_drop]; omega)
      refine ⟨s2, e2, ?_⟩
      have := chain (by omega) g1 g2
      rwa [List.take_append_drop] at this
  · rw [if_neg hc]
    by_cases h0 : data.length = 0
    · have : data = [] := List.eq_nil_of_length_eq_zero h0
      subst this
      refine ⟨s, rfl, fun l' => ?_⟩
      rw [Opt64.overwrite_nil]
      split
      · next e => rw [e]
      · rfl
    · have := overwriteLoop_eq l data.length s data (offset / 8) (by omega) le_rfl
      rwa [show 8 * (offset / 8) = offset by omega] at this

theorem overwriteBytes_ub (s : Regs) (l : Fin 4) (data : Bytes) (offset : Nat) (h : 200 < offset + data.length) (h0 : 0 < data.length) :
    overwriteBytes s l data offset = .error .ub := by
  unfold overwriteBytes
  simp only
  by_cases hc : data.length > 0 ∧ offset % 8 ≠ 0
  · rw [if_pos hc]
    generalize hn : (if 8 - offset % 8 > data.length then data.length else 8 - offset % 8) = n
    have hp : n ≤ data.length ∧ offset % 8 + n ≤ 8 ∧ 0 < n ∧ (n = data.length ∨ offset % 8 + n = 8) := by
      subst hn
      split <;> omega
    have hlt : (data.take n).length = n := by rw [List.length_take]; omega
    by_cases hq : offset / 8 < 25
    · obtain ⟨s1, e1, _⟩ := copyIn_eq s l (offset / 8) (offset % 8) (data.take n) hq (by omega)
      rw [bindOk e1]
      exact overwriteLoop_ub _ _ _ _ _ (by rw [List.length_drop]; omega) (by rw [List.length_drop]; omega) (by rw [List.length_drop]; omega)
    · rw [copyIn_ub _ _ _ _ _ (by omega)]
      rfl
  · rw [if_neg hc]
    exact overwriteLoop_ub _ _ _ _ _ (by omega) h0 le_rfl

theorem zeroLoop_eq (l : Fin 4) (fuel : Nat) (s : Regs) (pos n : Nat) (h : 8 * pos + n ≤ 200) (hf : n ≤ fuel) :
    zeroLoop l fuel s pos n = overwriteLoop l fuel s (List.replicate n 0) pos := by
  induction fuel generalizing s pos n with
  | zero => rfl
  | succ fuel ih =>
    rw [zeroLoop, overwriteLoop, List.length_replicate]
    by_cases h8 : n ≥ 8
    · have hz : le64 ((List.replicate n (0 : Byte)).take 8) = 0 := by
        rw [List.take_replicate, show min 8 n = 8 by omega]
        rfl
      rw [if_pos h8, if_pos h8, hz, List.drop_replicate]
      refine congrArg (Bind.bind _) (funext fun s1 => ?_)
      exact ih s1 (pos + 1) (n - 8) (by omega) (by omega)
    · rw [if_neg h8, if_neg h8]

theorem zeroLoop_ub (l : Fin 4) (fuel : Nat) (s : Regs) (pos n : Nat) (h : 200 < 8 * pos + n) (h0 : 0 < n) (hf : n ≤ fuel) : zeroLoop l fuel s pos n = .error .ub := by
  induction fuel generalizing s pos n with
  | zero => omega
  | succ fuel ih =>
    rw [zeroLoop]
    by_cases h8 : n ≥ 8
    · rw [if_pos h8]
      by_cases hp : pos < 25
      · obtain ⟨s1, e1, _⟩ := setLane_eq s l pos 0 hp
        rw [bindOk e1]
        exact ih s1 (pos + 1) (n - 8) (by omega) (by omega) (by omega)
      · rw [setLane_ub _ _ _ _ (by omega)]
        rfl
    · rw [if_neg h8, if_pos h0]
      exact copyIn_ub _ _ _ _ _ (by omega)

theorem overwriteWithZeroes_eq (s : Regs) (l : Fin 4) (n : Nat) (h : n ≤ 200) :
    ∃ s', overwriteWithZeroes s l n = .ok s' ∧ ∀ l', view s' l' = if l' = l then replaceBytes (view s l) (List.replicate n 0) 0 else view s l' := by
  rw [overwriteWithZeroes, zeroLoop_eq _ _ _ _ _ (by omega) le_rfl]
  exact overwriteLoop_eq l n s (List.replicate n 0) 0 (by rw [List.length_replicate]; omega) (by rw [List.length_replicate])

/-! ## Reading with XOR -/

theorem addOut_eq (w : W64) (start : Nat) (input : Bytes) : addOut (w >>> (8 * start)) input = (List.range input.length).map fun i => input.getD i 0 ^^^ byteOf w (start + i) := by
  induction input generalizing start with
  | nil => rfl
  | cons b input ih =>
    have e : w >>> (8 * start) >>> 8 = w >>> (8 * (start + 1)) := by
      rw [← BitVec.shiftRight_add]
      congr 1
    rw [addOut, e, ih (start + 1), List.length_cons, List.range_succ_eq_map, List.map_cons, List.map_map]
    refine congr (congrArg _ ?_) ?_
    · rfl
    · refine List.map_congr_left fun i _ => ?_
      simp only [Function.comp, List.getD_cons_succ]
      rw [show start + 1 + i = start + i.succ by omega]

theorem addOut_view (s : Regs) (l : Fin 4) (pos start : Nat) (input : Bytes) (hp : pos < 25) (h : start + input.length ≤ 8) :
    addOut (s[pos] l >>> (8 * start)) input = List.zipWith (· ^^^ ·) input (Spec.extractBytes (view s l) (8 * pos + start) input.length) := by
  have e := Opt64.extractBytesInLane_eq (inst l s) pos start input.length hp h
  rw [Opt64.extractBytesInLane, dif_pos hp] at e
  rw [addOut_eq, view, ← Except.ok.inj e, inst_get]
  refine List.ext_getElem (by simp) fun i h1 h2 => ?_
  simp at h1
  simp [h1]

theorem wordOut_view (s : Regs) (l : Fin 4) (pos : Nat) (input : Bytes) (hp : pos < 25) (h : input.length = 8) :
    (List.range 8).map (byteOf (le64 input ^^^ s[pos] l)) = List.zipWith (· ^^^ ·) input (Spec.extractBytes (view s l) (8 * pos) 8) := by
  have := addOut_view s l pos 0 input hp (by omega)
  rw [addOut_eq, h, Nat.add_zero] at this
  rw [← this]
  refine List.map_congr_left fun i hi => ?_
  rw [Opt64.byteOf_xor, Opt64.byteOf_le64 _ _ (List.mem_range.1 hi), Nat.zero_add]

theorem andAddLoop_eq (s : Regs) (l : Fin 4) (fuel : Nat) (input : Bytes) (pos : Nat) (h : 8 * pos + input.length ≤ 200) (hf : input.length ≤ fuel) :
    andAddLoop s l fuel input pos = .ok (List.zipWith (· ^^^ ·) input (Spec.extractBytes (view s l) (8 * pos) input.length)) := by
  induction fuel generalizing input pos with
  | zero =>
    have : input = [] := List.eq_nil_of_length_eq_zero (by omega)
    subst this
    rfl
  | succ fuel ih =>
    obtain ⟨h1, h2⟩ := laneIndex_div l pos
    rw [andAddLoop]
    by_cases h8 : input.length ≥ 8
    · have hlt : (input.take 8).length = 8 := by rw [List.length_take]; omega
      have hld : (input.drop 8).length = input.length - 8 := List.length_drop
      have hp : pos < 25 := by omega
      rw [if_pos h8, bindOk (getWord_eq s h1 h2 hp), bindOk (ih (input.drop 8) (pos + 1) (by omega) (by omega)), wordOut_view s l pos _ hp hlt,
        Opt64.zip_append _ _ _ _ (by rw [hlt, Opt64.extract_length]), List.take_append_drop, show 8 * (pos + 1) = 8 * pos + 8 by omega, Opt64.extract_append, hld,
        show 8 + (input.length - 8) = input.length by omega]
    · rw [if_neg h8]
      by_cases h0 : input.length ≠ 0
      · have hp : pos < 25 := by omega
        have := addOut_view s l pos 0 input hp (by omega)
        rw [Nat.mul_zero, BitVec.ushiftRight_zero] at this
        rw [if_pos h0, bindOk (getWord_eq s h1 h2 hp), this, Nat.add_zero]
      · rw [if_neg h0, List.eq_nil_of_length_eq_zero (Classical.not_not.1 h0)]
        rfl

theorem andAddLoop_ub (s : Regs) (l : Fin 4) (fuel : Nat) (input : Bytes) (pos : Nat) (h : 200 < 8 * pos + input.length) (h0 : 0 < input.length) (hf : input.length ≤ fuel) :
    andAddLoop s l fuel input pos = .error .ub := by
  induction fuel generalizing input pos with
  | zero => omega
  | succ fuel ih =>
    obtain ⟨h1, h2⟩ := laneIndex_div l pos
    rw [andAddLoop]
    by_cases h8 : input.length ≥ 8
    · rw [if_pos h8]
      by_cases hp : pos < 25
      · rw [bindOk (getWord_eq s h1 h2 hp), ih (input.drop 8) (pos + 1) (by rw [List.length_drop]; omega) (by rw [List.length_drop]; omega) (by rw [List.length_drop]; omega)]
        rfl
      · rw [getWord_ub _ _ _ (by omega)]
        rfl
    · rw [if_neg h8, if_pos (by omega), getWord_ub _ _ _ (by omega)]
      rfl

theorem extractAndAddBytes_eq (s : Regs) (l : Fin 4) (input : Bytes) (offset : Nat) (h : offset + input.length ≤ 200) :
    extractAndAddBytes s l input offset = .ok (List.zipWith (· ^^^ ·) input (Spec.extractBytes (view s l) offset input.length)) := by
  unfold extractAndAddBytes
  simp only
  by_cases hc : input.length > 0 ∧ offset % 8 ≠ 0
  · rw [if_pos hc]
    generalize hn : (if 8 - offset % 8 > input.length then input.length else 8 - offset % 8) = n
    have hp : n ≤ input.length ∧ offset % 8 + n ≤ 8 ∧ 0 < n ∧ (n = input.length ∨ offset % 8 + n = 8) := by
      subst hn
      split <;> omega
    have hlt : (input.take n).length = n := by rw [List.length_take]; omega
    have hld : (input.drop n).length = input.length - n := List.length_drop
    have hq : offset / 8 < 25 := by omega
    obtain ⟨h1, h2⟩ := laneIndex_div l (offset / 8)
    have hrest : andAddLoop s l input.length (input.drop n) (offset / 8 + 1) = .ok (List.zipWith (· ^^^ ·) (input.drop n) (Spec.extractBytes (view s l) (offset + n) (input.length - n))) := by
      by_cases hd : n = input.length
      · rw [hd, List.drop_length]
        cases input.length <;> rfl
      · rw [andAddLoop_eq s l input.length (input.drop n) (offset / 8 + 1) (by omega) (by omega), hld, show 8 * (offset / 8 + 1) = offset + n by omega]
    rw [bindOk (getWord_eq s h1 h2 hq), bindOk hrest, addOut_view s l (offset / 8) (offset % 8) (input.take n) hq (by omega), hlt, show 8 * (offset / 8) + offset % 8 = offset by omega,
      Opt64.zip_append _ _ _ _ (by rw [hlt, Opt64.extract_length]), List.take_append_drop, Opt64.extract_append, show n + (input.length - n) = input.length by omega]
  · rw [if_neg hc]
    by_cases h0 : input.length = 0
    · have : input = [] := List.eq_nil_of_length_eq_zero h0
      subst this
      rfl
    · rw [andAddLoop_eq s l input.length input (offset / 8) (by omega) le_rfl, show 8 * (offset / 8) = offset by omega]

theorem extractAndAddBytes_ub (s : Regs) (l : Fin 4) (input : Bytes) (offset : Nat) (h : 200 < offset + input.length) (h0 : 0 < input.length) :
    extractAndAddBytes s l input offset = .error .ub := by
  unfold extractAndAddBytes
  simp only
  by_cases hc : input.length > 0 ∧ offset % 8 ≠ 0
  · rw [if_pos hc]
    generalize hn : (if 8 - offset % 8 > input.length then input.length else 8 - offset % 8) = n
    have hp : n ≤ input.length ∧ offset % 8 + n ≤ 8 ∧ 0 < n ∧ (n = input.length ∨ offset % 8 + n = 8) := by
      subst hn
      split <;> omega
    have hld : (input.drop n).length = input.length - n := List.length_drop
    obtain ⟨h1, h2⟩ := laneIndex_div l (offset / 8)
    by_cases hq : offset / 8 < 25
    · rw [bindOk (getWord_eq s h1 h2 hq), andAddLoop_ub _ _ _ _ _ (by omega) (by omega) (by omega)]
      rfl
    · rw [getWord_ub _ _ _ (by omega)]
      rfl
  · rw [if_neg hc]
    exact andAddLoop_ub _ _ _ _ _ (by omega) h0 le_rfl

end Banquet.X4
