import Verif.Proofs.KeccakAvx2State
import Verif.Proofs.KeccakRest
import Verif.Model.KeccakAvx2Rest

/-! The functions of `Model/KeccakAvx2Rest`. -/

namespace Banquet.Avx2

open Spec
open Opt64 (byteOf le64 overwrite_nil overwrite_append overwrite_get extract_append toLanes_ofLanes)

/-! ## Overwriting -/

/-- Lane `i` is replaced; its bytes from `off` on become `bs`. -/
theorem view_replace (m : Mem) (i off : Nat) (hi : i < 25) (w : W64) (bs : Bytes) (h : off + bs.length ≤ 8)
    (hw : ∀ k, k < 8 → byteOf w k = if off ≤ k ∧ k < off + bs.length then bs.getD (k - off) 0 else byteOf (m[mapState[i] / 8]'(map_lt hi)) k) :
    view (m.set (mapState[i] / 8) w (map_lt hi)) = replaceBytes (view m) bs (8 * i + off) := by
  rw [view, lanesMem_set m i hi, view]
  refine Vector.ext fun j hj => ?_
  rw [Opt64.view_get _ _ hj, overwrite_get _ _ _ _ hj, Opt64.view_get _ _ hj]
  by_cases hb : i = j / 8
  · subst hb
    rw [Vector.getElem_set_self, hw _ (by omega), lanesMem_get]
    by_cases hc : off ≤ j % 8 ∧ j % 8 < off + bs.length
    · rw [if_pos hc, if_pos (by omega), show j - (8 * (j / 8) + off) = j % 8 - off by omega]
    · rw [if_neg hc, if_neg (by omega)]
  · rw [Vector.getElem_set_ne _ _ hb, if_neg (by omega)]

theorem setb_eq (m : Mem) (b : Byte) (i off : Nat) (hi : i < 25) (h : off < 8) :
    ∃ m', setb m b (mapState[i] + off) = .ok m' ∧ view m' = replaceBytes (view m) [b] (8 * i + off) := by
  have h8 := map_mod hi
  have hl := map_lt hi
  have e1 : (mapState[i] + off) / 8 = mapState[i] / 8 := by omega
  have e2 : (mapState[i] + off) % 8 = off := by omega
  refine ⟨_, ?_, view_replace m i off hi ((m[mapState[i] / 8]'hl &&& ~~~(0xFF#64 <<< (8 * off))) ||| (b.setWidth 64 <<< (8 * off))) [b] (by simp; omega) fun k hk => ?_⟩
  · simp only [setb, e1, e2, dif_pos hl]
  · rw [Opt64.byteOf_write _ _ _ _ h hk]
    by_cases hc : k = off
    · rw [if_pos hc, if_pos (by simp; omega), show k - off = 0 by omega]
      rfl
    · rw [if_neg hc, if_neg (by simp; omega)]

theorem setq_eq (m : Mem) (bs : Bytes) (hb : bs.length = 8) (i : Nat) (hi : i < 25) :
    ∃ m', setq m (le64 bs) mapState[i] = .ok m' ∧ view m' = replaceBytes (view m) bs (8 * i) := by
  refine ⟨_, dif_pos (map_lt hi), view_replace m i 0 hi _ bs (by omega) fun k hk => ?_⟩
  rw [if_pos (by omega), Opt64.byteOf_le64 _ _ hk, Nat.sub_zero]

theorem setBytes_eq (m : Mem) (bs : Bytes) (i off : Nat) (hi : i < 25) (h : off + bs.length ≤ 8) :
    ∃ m', setBytes m bs (mapState[i] + off) = .ok m' ∧ view m' = replaceBytes (view m) bs (8 * i + off) := by
  induction bs generalizing m off with
  | nil => exact ⟨m, rfl, (overwrite_nil _ _).symm⟩
  | cons b bs ih =>
    rw [List.length_cons] at h
    obtain ⟨m1, e1, g1⟩ := setb_eq m b i off hi (by omega)
    obtain ⟨m2, e2, g2⟩ := ih m1 (off + 1) (by omega)
    refine ⟨m2, ?_, ?_⟩
    · rw [setBytes, bindOk e1]
      exact e2
    · rw [g2, g1]
      exact overwrite_append _ [b] bs _

theorem overwriteLanes_eq (fuel : Nat) (m : Mem) (data : Bytes) (i : Nat) (h : 8 * i + data.length ≤ 200) (hf : data.length ≤ fuel) :
    ∃ m', overwriteLanes fuel m data i = .ok m' ∧ view m' = replaceBytes (view m) data (8 * i) := by
  induction fuel generalizing m data i with
  | zero =>
    have : data = [] := List.eq_nil_of_length_eq_zero (by omega)
    subst this
    exact ⟨m, rfl, (overwrite_nil _ _).symm⟩
  | succ fuel ih =>
    rw [overwriteLanes]
    by_cases h8 : data.length ≥ 8
    · rw [if_pos h8]
      have hlen : (data.take 8).length = 8 := by rw [List.length_take]; omega
      obtain ⟨m1, e1, g1⟩ := setq_eq m (data.take 8) hlen i (by omega)
      obtain ⟨m2, e2, g2⟩ := ih m1 (data.drop 8) (i + 1) (by rw [List.length_drop]; omega) (by rw [List.length_drop]; omega)
      refine ⟨m2, ?_, ?_⟩
      · rw [bindOk (mapAt_ok (by omega)), bindOk e1, e2]
      · have := overwrite_append (view m) (data.take 8) (data.drop 8) (8 * i)
        rw [hlen, List.take_append_drop] at this
        rw [g2, g1, ← this]
        rfl
    · rw [if_neg h8]
      by_cases h0 : data.length = 0
      · rw [if_pos h0, List.eq_nil_of_length_eq_zero h0]
        exact ⟨m, rfl, (overwrite_nil _ _).symm⟩
      · rw [if_neg h0]
        obtain ⟨m1, e1, g1⟩ := setBytes_eq m data i 0 (by omega) (by omega)
        exact ⟨m1, by rw [bindOk (mapAt_ok (by omega))]; exact e1, g1⟩

theorem mapAt_ub {i : Nat} (hi : 25 ≤ i) : mapAt i = .error .ub := dif_neg (by omega)

theorem bindErr {α β : Type} {x : M α} (h : x = .error .ub) (f : α → M β) : (x >>= f) = .error .ub := by
  rw [h]
  rfl

theorem overwriteLanes_ub (fuel : Nat) (m : Mem) (data : Bytes) (i : Nat) (h : 200 < 8 * i + data.length) (h0 : 0 < data.length) (hf : data.length ≤ fuel) :
    overwriteLanes fuel m data i = .error .ub := by
  induction fuel generalizing m data i with
  | zero => omega
  | succ fuel ih =>
    rw [overwriteLanes]
    by_cases h8 : data.length ≥ 8
    · rw [if_pos h8]
      by_cases hi : i < 25
      · have hlen : (data.take 8).length = 8 := by rw [List.length_take]; omega
        obtain ⟨m1, e1, _⟩ := setq_eq m (data.take 8) hlen i hi
        rw [bindOk (mapAt_ok hi), bindOk e1]
        exact ih m1 _ _ (by rw [List.length_drop]; omega) (by rw [List.length_drop]; omega) (by rw [List.length_drop]; omega)
      · exact bindErr (mapAt_ub (by omega)) _
    · rw [if_neg h8, if_neg (by omega)]
      exact bindErr (mapAt_ub (by omega)) _

theorem overwriteBytes_eq (m : Mem) (data : Bytes) (offset : Nat) (h : offset + data.length ≤ 200) :
    ∃ m', overwriteBytes m data offset = .ok m' ∧ view m' = replaceBytes (view m) data offset := by
  unfold overwriteBytes
  by_cases h0 : data.length = 0
  · rw [if_pos h0, List.eq_nil_of_length_eq_zero h0]
    exact ⟨m, rfl, (overwrite_nil _ _).symm⟩
  rw [if_neg h0]
  by_cases h8 : offset % 8 = 0
  · rw [if_pos h8]
    obtain ⟨m1, e1, g1⟩ := overwriteLanes_eq data.length m data (offset / 8) (by omega) le_rfl
    refine ⟨m1, e1, ?_⟩
    rw [g1]
    congr 1
    omega
  · rw [if_neg h8]
    simp only
    generalize hn : (if 8 - offset % 8 ≥ data.length then data.length else 8 - offset % 8) = n
    have hp : n ≤ data.length ∧ offset % 8 + n ≤ 8 ∧ (n = data.length ∨ offset % 8 + n = 8) := by
      subst hn
      split <;> omega
    obtain ⟨m1, e1, g1⟩ := setBytes_eq m (data.take n) (offset / 8) (offset % 8) (by omega) (by rw [List.length_take]; omega)
    obtain ⟨m2, e2, g2⟩ := overwriteLanes_eq data.length m1 (data.drop n) (offset / 8 + 1) (by rw [List.length_drop]; omega) (by rw [List.length_drop]; omega)
    refine ⟨m2, ?_, ?_⟩
    · rw [bindOk (mapAt_ok (by omega)), Nat.add_comm (offset % 8), bindOk e1, e2]
    · rw [g2, g1]
      rcases hp.2.2 with h1 | h1
      · subst h1
        rw [List.drop_length, List.take_length, overwrite_nil]
        congr 1
        omega
      · have := overwrite_append (view m) (data.take n) (data.drop n) (8 * (offset / 8) + offset % 8)
        rw [List.take_append_drop, List.length_take, Nat.min_eq_left hp.1] at this
        rw [show 8 * (offset / 8 + 1) = 8 * (offset / 8) + offset % 8 + n by omega, this]
        congr 1
        omega

theorem overwriteBytes_ub (m : Mem) (data : Bytes) (offset : Nat) (h : 200 < offset + data.length) (h0 : 0 < data.length) : overwriteBytes m data offset = .error .ub := by
  unfold overwriteBytes
  rw [if_neg (by omega)]
  by_cases h8 : offset % 8 = 0
  · rw [if_pos h8]
    exact overwriteLanes_ub _ _ _ _ (by omega) h0 le_rfl
  · rw [if_neg h8]
    simp only
    generalize hn : (if 8 - offset % 8 ≥ data.length then data.length else 8 - offset % 8) = n
    have hp : n ≤ data.length ∧ offset % 8 + n ≤ 8 ∧ (n = data.length ∨ offset % 8 + n = 8) := by
      subst hn
      split <;> omega
    by_cases hi : offset / 8 < 25
    · obtain ⟨m1, e1, _⟩ := setBytes_eq m (data.take n) (offset / 8) (offset % 8) hi (by rw [List.length_take]; omega)
      rw [bindOk (mapAt_ok hi), Nat.add_comm (offset % 8), bindOk e1]
      exact overwriteLanes_ub _ _ _ _ (by rw [List.length_drop]; omega) (by rw [List.length_drop]; omega) (by rw [List.length_drop]; omega)
    · exact bindErr (mapAt_ub (by omega)) _

theorem zeroBytes_eq (m : Mem) (n p : Nat) : zeroBytes m n p = setBytes m (List.replicate n 0) p := by
  induction n generalizing m p with
  | zero => rfl
  | succ n ih =>
    rw [zeroBytes, List.replicate_succ, setBytes]
    exact congrArg (Bind.bind _) (funext fun m1 => ih m1 (p + 1))

theorem zeroLanes_eq (fuel : Nat) (m : Mem) (i n : Nat) : zeroLanes fuel m i n = overwriteLanes fuel m (List.replicate n 0) i := by
  induction fuel generalizing m i n with
  | zero => rfl
  | succ fuel ih =>
    rw [zeroLanes, overwriteLanes, List.length_replicate]
    by_cases h8 : n ≥ 8
    · have hz : le64 ((List.replicate n (0 : Byte)).take 8) = 0 := by
        rw [List.take_replicate, show min 8 n = 8 by omega]
        rfl
      rw [if_pos h8, if_pos h8, hz, List.drop_replicate]
      exact congrArg (Bind.bind _) (funext fun p => congrArg (Bind.bind _) (funext fun m1 => ih m1 (i + 1) (n - 8)))
    · rw [if_neg h8, if_neg h8]
      by_cases h0 : n = 0
      · rw [if_pos h0, if_pos h0]
      · rw [if_neg h0, if_neg h0]
        exact congrArg (Bind.bind _) (funext fun p => zeroBytes_eq m n p)

theorem zeroes_eq (m : Mem) (n : Nat) : overwriteWithZeroes m n = overwriteBytes m (List.replicate n 0) 0 := by
  rw [overwriteWithZeroes, overwriteBytes, List.length_replicate, zeroLanes_eq]
  rfl

/-! ## Reading with XOR -/

theorem extract_length (s : St) (o n : Nat) : (Spec.extractBytes s o n).length = n := by simp [Spec.extractBytes]

theorem addMovBytes_eq (m : Mem) (input : Bytes) (i off : Nat) (hi : i < 25) (h : off + input.length ≤ 8) :
    addMovBytes m input (mapState[i] + off) = .ok (List.zipWith (· ^^^ ·) input (Spec.extractBytes (view m) (8 * i + off) input.length)) := by
  induction input generalizing off with
  | nil => rfl
  | cons b input ih =>
    rw [List.length_cons] at h
    rw [addMovBytes, bindOk (movb_eq m i off hi (by omega)), Nat.add_assoc, bindOk (ih (off + 1) (by omega)), List.length_cons, extract_cons, List.zipWith_cons_cons, BitVec.xor_comm]
    rfl

theorem addLowBytes_eq (input : Bytes) (w : W64) : addLowBytes input w = List.zipWith (· ^^^ ·) input (lowBytes input.length w) := by
  induction input generalizing w with
  | nil => rfl
  | cons b input ih => rw [addLowBytes, List.length_cons, lowBytes, List.zipWith_cons_cons, ih, BitVec.xor_comm]

theorem wordXor_eq (input : Bytes) (h : input.length = 8) (w : W64) : lowBytes 8 (w ^^^ le64 input) = List.zipWith (· ^^^ ·) input (lowBytes 8 w) := by
  rw [lowBytes_eq, lowBytes_eq]
  refine List.ext_getElem (by simp [h]) fun i h1 h2 => ?_
  simp at h1
  simp only [List.getElem_map, List.getElem_range, List.getElem_zipWith]
  rw [Opt64.byteOf_xor, Opt64.byteOf_le64 _ _ h1, List.getD_eq_getElem?_getD, List.getElem?_eq_getElem (by omega), Option.getD_some, BitVec.xor_comm]

theorem zip_take (input : Bytes) (n : Nat) (hn : n ≤ input.length) (s : St) (o : Nat) :
    List.zipWith (· ^^^ ·) (input.take n) (Spec.extractBytes s o n) ++ List.zipWith (· ^^^ ·) (input.drop n) (Spec.extractBytes s (o + n) (input.length - n)) =
      List.zipWith (· ^^^ ·) input (Spec.extractBytes s o input.length) := by
  rw [← List.zipWith_append (by rw [List.length_take, extract_length]; omega), List.take_append_drop, extract_append, Nat.add_sub_cancel' hn]

theorem addExtractLanes_eq (m : Mem) (fuel : Nat) (input : Bytes) (i : Nat) (h : 8 * i + input.length ≤ 200) (hf : input.length ≤ fuel) :
    addExtractLanes m fuel input i = .ok (List.zipWith (· ^^^ ·) input (Spec.extractBytes (view m) (8 * i) input.length)) := by
  induction fuel generalizing input i with
  | zero =>
    have : input = [] := List.eq_nil_of_length_eq_zero (by omega)
    subst this
    rfl
  | succ fuel ih =>
    rw [addExtractLanes]
    by_cases h8 : input.length ≥ 8
    · have hlen : (input.take 8).length = 8 := by rw [List.length_take]; omega
      rw [if_pos h8, bindOk (mapAt_ok (by omega)), bindOk (movq_eq m i (by omega)), bindOk (ih (input.drop 8) (i + 1) (by rw [List.length_drop]; omega) (by rw [List.length_drop]; omega)),
        wordXor_eq _ hlen, lowBytes_view _ _ _ (by omega) le_rfl, List.length_drop, show 8 * (i + 1) = 8 * i + 8 by omega, zip_take _ _ h8]
    · rw [if_neg h8]
      by_cases h0 : input.length = 0
      · rw [if_pos h0, List.eq_nil_of_length_eq_zero h0]
        rfl
      · rw [if_neg h0, bindOk (mapAt_ok (by omega)), bindOk (movq_eq m i (by omega)), addLowBytes_eq, lowBytes_view _ _ _ (by omega) (by omega)]

theorem addExtractLanes_ub (m : Mem) (fuel : Nat) (input : Bytes) (i : Nat) (h : 200 < 8 * i + input.length) (h0 : 0 < input.length) (hf : input.length ≤ fuel) :
    addExtractLanes m fuel input i = .error .ub := by
  induction fuel generalizing input i with
  | zero => omega
  | succ fuel ih =>
    rw [addExtractLanes]
    by_cases h8 : input.length ≥ 8
    · rw [if_pos h8]
      by_cases hi : i < 25
      · rw [bindOk (mapAt_ok hi), bindOk (movq_eq m i hi)]
        exact bindErr (ih _ _ (by rw [List.length_drop]; omega) (by rw [List.length_drop]; omega) (by rw [List.length_drop]; omega)) _
      · exact bindErr (mapAt_ub (by omega)) _
    · rw [if_neg h8, if_neg (by omega)]
      exact bindErr (mapAt_ub (by omega)) _

theorem extractAndAddBytes_eq (m : Mem) (input : Bytes) (offset : Nat) (h : offset + input.length ≤ 200) :
    extractAndAddBytes m input offset = .ok (List.zipWith (· ^^^ ·) input (Spec.extractBytes (view m) offset input.length)) := by
  unfold extractAndAddBytes
  by_cases h0 : input.length = 0
  · rw [if_pos h0, List.eq_nil_of_length_eq_zero h0]
    rfl
  rw [if_neg h0]
  by_cases h8 : offset % 8 = 0
  · rw [if_pos h8, addExtractLanes_eq _ _ _ _ (by omega) le_rfl, show 8 * (offset / 8) = offset by omega]
  · rw [if_neg h8]
    simp only
    generalize hn : (if 8 - offset % 8 ≥ input.length then input.length else 8 - offset % 8) = n
    have hp : n ≤ input.length ∧ offset % 8 + n ≤ 8 ∧ (n = input.length ∨ offset % 8 + n = 8) := by
      subst hn
      split <;> omega
    have hlen : (input.take n).length = n := by rw [List.length_take]; omega
    rw [bindOk (mapAt_ok (by omega)), bindOk (addMovBytes_eq m (input.take n) (offset / 8) (offset % 8) (by omega) (by omega)),
      bindOk (addExtractLanes_eq _ _ _ _ (by rw [List.length_drop]; omega) (by rw [List.length_drop]; omega)), hlen, show 8 * (offset / 8) + offset % 8 = offset by omega, List.length_drop]
    congr 1
    rcases hp.2.2 with h1 | h1
    · rw [← zip_take input n hp.1, h1, Nat.sub_self, List.drop_length, List.zipWith_nil_left, List.zipWith_nil_left]
    · rw [show 8 * (offset / 8 + 1) = offset + n by omega, zip_take _ _ hp.1]

theorem extractAndAddBytes_ub (m : Mem) (input : Bytes) (offset : Nat) (h : 200 < offset + input.length) (h0 : 0 < input.length) : extractAndAddBytes m input offset = .error .ub := by
  unfold extractAndAddBytes
  rw [if_neg (by omega)]
  by_cases h8 : offset % 8 = 0
  · rw [if_pos h8]
    exact addExtractLanes_ub _ _ _ _ (by omega) h0 le_rfl
  · rw [if_neg h8]
    simp only
    generalize hn : (if 8 - offset % 8 ≥ input.length then input.length else 8 - offset % 8) = n
    have hp : n ≤ input.length ∧ offset % 8 + n ≤ 8 ∧ (n = input.length ∨ offset % 8 + n = 8) := by
      subst hn
      split <;> omega
    by_cases hi : offset / 8 < 25
    · rw [bindOk (mapAt_ok hi), bindOk (addMovBytes_eq m (input.take n) (offset / 8) (offset % 8) hi (by rw [List.length_take]; omega))]
      exact bindErr (addExtractLanes_ub _ _ _ _ (by rw [List.length_drop]; omega) (by rw [List.length_drop]; omega) (by rw [List.length_drop]; omega)) _
    · exact bindErr (mapAt_ub (by omega)) _

/-! ## Fewer rounds -/

theorem iotaAt_ok (k : Nat) (h : k < 24) : iotaAt k = .ok iotas[k] := by
  rw [iotaAt, dif_pos ⟨by omega, by simpa using h⟩]
  rfl

/-- The loop from row `k` to the end of the table. -/
theorem keccakLoop_eq (n k : Nat) (h : k + n + 1 = 24) (s : Regs) : keccakLoop n k s = .ok ((iotas.toList.drop k).foldl (fun s iota => round iota s) s) := by
  induction n generalizing k s with
  | zero =>
    have : k = 23 := by omega
    subst this
    have hd : iotas.toList.drop 23 = [iotas[23]] := by
      rw [List.drop_eq_getElem_cons (by simp)]
      simp
    rw [keccakLoop, bindOk (iotaAt_ok 23 (by omega)), hd]
    rfl
  | succ n ih =>
    have hd : iotas.toList.drop k = iotas[k] :: iotas.toList.drop (k + 1) := by
      rw [List.drop_eq_getElem_cons (by simp; omega)]
      simp
    rw [keccakLoop, bindOk (iotaAt_ok k (by omega)), hd, List.foldl_cons]
    exact ih (k + 1) (by omega) _

theorem rounds_eq (n : Nat) (s : Regs) (h0 : ∀ l, s[0] l = s[0] 0) : lanesOf ((iotas.toList.drop (24 - n)).foldl (fun s iota => round iota s) s) = keccakRounds n (lanesOf s) ∧
    ∀ l, ((iotas.toList.drop (24 - n)).foldl (fun s iota => round iota s) s)[0] l = ((iotas.toList.drop (24 - n)).foldl (fun s iota => round iota s) s)[0] 0 := by
  have h := rounds_fold (iotas.toList.drop (24 - n)) (fun i hi => iotas_const i (List.mem_of_mem_drop hi)) s h0
  rw [List.map_drop, iotas_eq] at h
  exact h

theorem loop12_eq (s : Regs) (h0 : ∀ l, s[0] l = s[0] 0) : ∃ s', keccakLoop 11 12 s = .ok s' ∧ lanesOf s' = keccakRounds 12 (lanesOf s) ∧ ∀ l, s'[0] l = s'[0] 0 := by
  obtain ⟨h1, h2⟩ := rounds_eq 12 s h0
  exact ⟨_, keccakLoop_eq 11 12 rfl s, h1, h2⟩

theorem permute12_eq (m : Mem) : ∃ m', permute12 m = .ok m' ∧ lanesMem m' = keccakRounds 12 (lanesMem m) := by
  obtain ⟨s', e, g, _⟩ := loop12_eq (loadState m) fun l => rfl
  refine ⟨storeState s', ?_, ?_⟩
  · rw [permute12, bindOk e]
  · rw [lanesMem_store, g, lanesOf_load]

theorem permuteN_eq (m : Mem) (nr : BitVec 32) (h0 : 0 < nr.toNat) (h : nr.toNat ≤ 24) : ∃ m', permuteN m nr = .ok m' ∧ lanesMem m' = keccakRounds nr.toNat (lanesMem m) := by
  obtain ⟨h1, _⟩ := rounds_eq nr.toNat (loadState m) fun l => rfl
  have hs : (nr - 1).toNat = nr.toNat - 1 := by
    rw [BitVec.toNat_sub]
    simp
    omega
  have e := keccakLoop_eq (nr.toNat - 1) (24 - nr.toNat) (by omega) (loadState m)
  refine ⟨_, ?_, (lanesMem_store _).trans (h1.trans (by rw [lanesOf_load]))⟩
  rw [permuteN, hs, show (24 - (nr.toNat : Int)) = ((24 - nr.toNat : Nat) : Int) by omega, bindOk e]

theorem permuteN_ub (m : Mem) (nr : BitVec 32) (h : nr.toNat = 0 ∨ 24 < nr.toNat) : permuteN m nr = .error .ub := by
  have hi : iotaAt (24 - (nr.toNat : Int)) = .error .ub := by
    rw [iotaAt, dif_neg]
    omega
  rw [permuteN]
  refine bindErr ?_ _
  rw [keccakLoop]
  exact bindErr hi _

/-! ## Fast loop -/

/-- Keccak-p[1600, 12] on bytes. -/
abbrev f12 (s : St) : St := ofLanes (keccakRounds 12 (toLanes s))

theorem view_permute12 (m : Mem) : ∃ m', permute12 m = .ok m' ∧ view m' = f12 (view m) := by
  obtain ⟨m', e, g⟩ := permute12_eq m
  refine ⟨m', e, ?_⟩
  rw [view, g, view, f12, toLanes_ofLanes]

theorem lanesLoop12_eq (n fuel : Nat) (m : Mem) (data : Bytes) (h0 : 0 < n) (h25 : n ≤ 25) (hd : n ≤ data.length / 8) (hf : data.length / 8 ≤ fuel) :
    ∃ m', lanesLoop12 n fuel m data (data.length / 8) = .ok (m', data.drop (data.length / (8 * n) * (8 * n))) ∧ view m' = absorbFull f12 (8 * n) (data.length / (8 * n)) (view m) data := by
  induction fuel generalizing m data with
  | zero => omega
  | succ fuel ih =>
    obtain ⟨m1, e1, g1⟩ := lanesAddLoop_eq m data 0 n (by omega) (by omega)
    simp only [Nat.mul_zero, List.drop_zero] at g1
    obtain ⟨p1, e3, g3⟩ := view_permute12 m1
    have hq := div_step data.length n h0 (by omega)
    rw [lanesLoop12, if_neg (by omega), bindOk e1, bindOk e3]
    simp only
    rw [Nat.mul_comm n 8]
    have hl : (data.drop (8 * n)).length = data.length - 8 * n := List.length_drop
    by_cases hc : data.length / 8 - n < n
    · rw [if_pos hc]
      have hz : (data.length - 8 * n) / (8 * n) = 0 := Nat.div_eq_of_lt (by omega)
      rw [hz] at hq
      refine ⟨_, by rw [hq, Nat.zero_add, Nat.one_mul], ?_⟩
      rw [hq, absorbFull, absorbFull, g3, g1]
    · rw [if_neg hc]
      obtain ⟨m2, e2, g2⟩ := ih p1 (data.drop (8 * n)) (by omega) (by omega)
      rw [hl, show (data.length - 8 * n) / 8 = data.length / 8 - n by omega] at e2
      refine ⟨m2, ?_, ?_⟩
      · rw [e2, List.drop_drop, hq]
        congr 3
        ring
      · rw [g2, hl, hq, absorbFull, g3, g1]

theorem blockLoop12_eq (add : Regs → Bytes → M Regs) (n : Nat) (h0 : 0 < n)
    (ha : ∀ (s : Regs) (data : Bytes), (∀ l, s[0] l = s[0] 0) → 8 * n ≤ data.length → ∃ s', add s data = .ok s' ∧ lanesOf s' = Opt64.addRange (lanesOf s) data 0 n ∧ ∀ l, s'[0] l = s'[0] 0)
    (fuel : Nat) (s : Regs) (hs : ∀ l, s[0] l = s[0] 0) (data : Bytes) (hd : n ≤ data.length / 8) (hf : data.length / 8 - n ≤ fuel) :
    ∃ s', blockLoop12 add n fuel s data (data.length / 8 - n) = .ok (s', data.drop (data.length / (8 * n) * (8 * n))) ∧
      ofLanes (lanesOf s') = absorbFull f12 (8 * n) (data.length / (8 * n)) (ofLanes (lanesOf s)) data := by
  induction fuel generalizing s data with
  | zero =>
    obtain ⟨s1, e1, g1, c1⟩ := ha s data hs (by omega)
    obtain ⟨p1, e3, g3, _⟩ := loop12_eq s1 c1
    have hq := div_step data.length n h0 (by omega)
    rw [Nat.div_eq_of_lt (show data.length - 8 * n < 8 * n by omega)] at hq
    rw [blockLoop12, bindOk e1, bindOk e3]
    simp only
    rw [if_pos (by omega), hq]
    refine ⟨_, by rw [Nat.zero_add, Nat.one_mul, Nat.mul_comm n 8], ?_⟩
    rw [absorbFull, absorbFull, g3, g1, f12, ← Opt64.view_addRange, toLanes_ofLanes]
  | succ fuel ih =>
    obtain ⟨s1, e1, g1, c1⟩ := ha s data hs (by omega)
    obtain ⟨p1, e3, g3, c3⟩ := loop12_eq s1 c1
    have hq := div_step data.length n h0 (by omega)
    have hl : (data.drop (8 * n)).length = data.length - 8 * n := List.length_drop
    have hv : ofLanes (lanesOf p1) = f12 (Spec.addBytes (ofLanes (lanesOf s)) (data.take (8 * n)) 0) := by
      rw [g3, g1, f12, ← Opt64.view_addRange, toLanes_ofLanes]
    rw [blockLoop12, bindOk e1, bindOk e3]
    simp only
    rw [Nat.mul_comm n 8]
    by_cases hc : data.length / 8 - n < n
    · rw [Nat.div_eq_of_lt (show data.length - 8 * n < 8 * n by omega)] at hq
      rw [if_pos hc, hq]
      refine ⟨_, by rw [Nat.zero_add, Nat.one_mul], ?_⟩
      rw [absorbFull, absorbFull, hv]
    · rw [if_neg hc]
      obtain ⟨s2, e2, g2⟩ := ih p1 c3 (data.drop (8 * n)) (by omega) (by omega)
      rw [hl, show (data.length - 8 * n) / 8 - n = data.length / 8 - n - n by omega] at e2
      refine ⟨s2, ?_, ?_⟩
      · rw [e2, List.drop_drop, hq]
        congr 3
        ring
      · rw [g2, hl, hq, absorbFull, hv]

theorem fastLoopAbsorb12_eq (m : Mem) (n : Nat) (data : Bytes) (h0 : 0 < n) (h : n ≤ 25) :
    ∃ m', fastLoopAbsorb12 m n data = .ok (m', data.length / (8 * n) * (8 * n)) ∧ view m' = absorbFull f12 (8 * n) (data.length / (8 * n)) (view m) data := by
  have hlen : data.length - (data.drop (data.length / (8 * n) * (8 * n))).length = data.length / (8 * n) * (8 * n) := by
    have := Nat.div_mul_le_self data.length (8 * n)
    rw [List.length_drop]
    omega
  unfold fastLoopAbsorb12
  simp only
  by_cases hc : data.length / 8 < n
  · rw [if_pos hc, Nat.div_eq_of_lt (show data.length < 8 * n by omega), Nat.zero_mul]
    exact ⟨m, rfl, rfl⟩
  rw [if_neg hc]
  have blk : ∀ (add : Regs → Bytes → M Regs)
      (ha : ∀ (s : Regs) (data : Bytes), (∀ l, s[0] l = s[0] 0) → 8 * n ≤ data.length → ∃ s', add s data = .ok s' ∧ lanesOf s' = Opt64.addRange (lanesOf s) data 0 n ∧ ∀ l, s'[0] l = s'[0] 0),
      ∃ m', (blockLoop12 add n (data.length / 8) (loadState m) data (data.length / 8 - n) >>= fun r => (.ok (storeState r.1, data.length - r.2.length) : M (Mem × Nat))) =
          .ok (m', data.length / (8 * n) * (8 * n)) ∧ view m' = absorbFull f12 (8 * n) (data.length / (8 * n)) (view m) data := by
    intro add ha
    obtain ⟨s', e, g⟩ := blockLoop12_eq add n h0 ha (data.length / 8) (loadState m) (fun l => rfl) data (by omega) (by omega)
    refine ⟨storeState s', ?_, ?_⟩
    · rw [bindOk e]
      simp only [hlen]
    · rw [view, lanesMem_store, g, lanesOf_load, view]
  by_cases h21 : n = 21
  · subst h21
    rw [if_pos rfl]
    exact blk _ fun s data hs hd => absorbBlock21_eq s hs data hd
  rw [if_neg h21]
  by_cases h17 : n = 17
  · subst h17
    rw [if_pos rfl]
    exact blk _ fun s data hs hd => absorbBlock17_eq s hs data hd
  rw [if_neg h17]
  obtain ⟨m', e, g⟩ := lanesLoop12_eq n (data.length / 8) m data h0 h (by omega) le_rfl
  refine ⟨m', ?_, g⟩
  rw [bindOk e]
  simp only [hlen]

end Banquet.Avx2
