import Verif.Proofs.KeccakPl4

/-! Property theorems C91: the functions of the portable 4-way Keccak code that the library does not call. -/

namespace Banquet.Props

open Spec Pl4

/-- **C91.** `AddLanesAll`: bytes `8 * laneOffset * l, …, 8 * (laneOffset * l + laneCount) - 1` of the buffer are XORed into the first bytes of state `l`. -/
theorem C91_addLanesAll (s : Vector Opt64.Lanes 4) (data : Bytes) (n off : Nat) (ho : 8 * off < 2 ^ 32) (hn : n ≤ 25) (hl : 8 * (3 * off + n) ≤ data.length) :
    ∃ s', Pl4.addLanesAll s data n off = .ok s' ∧ ∀ l : Fin 4, ofLanes s'[l] = Spec.addBytes (ofLanes s[l]) ((data.drop (8 * off * l.val)).take (8 * n)) 0 := by
  refine eachState_view (P := fun l t => ofLanes t = Spec.addBytes (ofLanes s[l]) ((data.drop (8 * off * l.val)).take (8 * n)) 0) fun i => ?_
  have hb : i.val * bytes off + bytes n ≤ data.length := by
    rw [bytes_eq (by omega), bytes_eq (by omega)]
    have := Nat.mul_le_mul_right (8 * off) (show i.val ≤ 3 by omega)
    omega
  rw [load_eq hb, Opt64.okThen, bytes_eq (n := off) (by omega), bytes_eq (n := n) (by omega), Nat.mul_comm i.val]
  refine Opt64.addBytes_eq s[i] _ 0 ?_
  rw [bytes_eq (n := off) (by omega), bytes_eq (n := n) (by omega), Nat.mul_comm i.val] at hb
  rw [load_length hb]
  omega

/-- **C91.** `OverwriteLanesAll`: the same with replacement instead of XOR. -/
theorem C91_overwriteLanesAll (s : Vector Opt64.Lanes 4) (data : Bytes) (n off : Nat) (ho : 8 * off < 2 ^ 32) (hn : n ≤ 25) (hl : 8 * (3 * off + n) ≤ data.length) :
    ∃ s', Pl4.overwriteLanesAll s data n off = .ok s' ∧ ∀ l : Fin 4, ofLanes s'[l] = replaceBytes (ofLanes s[l]) ((data.drop (8 * off * l.val)).take (8 * n)) 0 := by
  refine eachState_view (P := fun l t => ofLanes t = replaceBytes (ofLanes s[l]) ((data.drop (8 * off * l.val)).take (8 * n)) 0) fun i => ?_
  have hb : i.val * bytes off + bytes n ≤ data.length := by
    rw [bytes_eq (by omega), bytes_eq (by omega)]
    have := Nat.mul_le_mul_right (8 * off) (show i.val ≤ 3 by omega)
    omega
  rw [load_eq hb, Opt64.okThen, bytes_eq (n := off) (by omega), bytes_eq (n := n) (by omega), Nat.mul_comm i.val]
  refine Opt64.overwriteBytes_write s[i] _ 0 ?_
  rw [bytes_eq (n := off) (by omega), bytes_eq (n := n) (by omega), Nat.mul_comm i.val] at hb
  rw [load_length hb]
  omega

/-- One lane of each state from a buffer with two words per state; the last word is not needed. -/
example : ∃ s', Pl4.overwriteLanesAll (Vector.replicate 4 (Vector.replicate 25 0)) ((List.range 56).map (BitVec.ofNat 8)) 1 2 = .ok s' ∧ (ofLanes s'[2])[3] = 35 ∧ (ofLanes s'[2])[8] = 0 := by
  obtain ⟨s', e, h⟩ := C91_overwriteLanesAll (Vector.replicate 4 (Vector.replicate 25 0)) ((List.range 56).map (BitVec.ofNat 8)) 1 2 (by decide) (by decide) (by simp)
  exact ⟨s', e, by rw [show s'[2] = s'[(2 : Fin 4)] from rfl, h 2]; decide +kernel, by rw [show s'[2] = s'[(2 : Fin 4)] from rfl, h 2]; decide +kernel⟩

private theorem setState {t : Opt64.Lanes} (s : Vector Opt64.Lanes 4) (l : Fin 4) (k : Fin 4) : ofLanes (s.set l t)[k] = if k = l then ofLanes t else ofLanes s[k] := by
  by_cases h : k = l
  · subst h
    rw [if_pos rfl]
    exact congrArg _ (Vector.getElem_set_self ..)
  · rw [if_neg h]
    exact congrArg _ (Vector.getElem_set_ne _ _ fun c => h (Fin.ext c.symm))

/-- **C91.** `OverwriteBytes` and `OverwriteWithZeroes` act on the given state only. -/
theorem C91_overwrite (s : Vector Opt64.Lanes 4) (l : Fin 4) (data : Bytes) (offset n : Nat) :
    (offset + data.length ≤ 200 → ∃ s', Pl4.overwriteBytes s l data offset = .ok s' ∧ ∀ k : Fin 4, ofLanes s'[k] = if k = l then replaceBytes (ofLanes s[l]) data offset else ofLanes s[k]) ∧
    (n ≤ 200 → ∃ s', Pl4.overwriteWithZeroes s l n = .ok s' ∧ ∀ k : Fin 4, ofLanes s'[k] = if k = l then replaceBytes (ofLanes s[l]) (List.replicate n 0) 0 else ofLanes s[k]) := by
  refine ⟨fun h => ?_, fun h => ?_⟩
  · obtain ⟨t, e, g⟩ := Opt64.overwriteBytes_write s[l] data offset h
    refine ⟨s.set l t, by rw [Pl4.overwriteBytes, bindOk e], fun k => ?_⟩
    rw [setState, g]
  · obtain ⟨t, e, g⟩ := Opt64.writeBytes_eq s[l] 0 (List.replicate n 0) (by rw [List.length_replicate]; omega)
    have e' : Opt64.overwriteWithZeroes s[l] n = .ok t := e
    refine ⟨s.set l t, by rw [Pl4.overwriteWithZeroes, bindOk e'], fun k => ?_⟩
    rw [setState, g]

example : ((do
    let s ← Pl4.overwriteWithZeroes (← Pl4.overwriteBytes (Vector.replicate 4 Opt64.init) 1 [1, 2, 3] 7) 1 8
    .ok (← Opt64.extractBytes s[1] 6 5, ← Opt64.extractBytes s[2] 6 5) : M (Bytes × Bytes))).toOption = some ([0, 0, 2, 3, 0], [0, 0, 0, 0, 0]) := by decide +kernel

/-- **C91.** The versions with 12, 6 and 4 rounds apply the last 12, 6 and 4 rounds of Keccak-f[1600] to each of the four states. -/
theorem C91_rounds (s : Vector Opt64.Lanes 4) : (∃ s', Pl4.permute12 s = .ok s' ∧ ∀ l : Fin 4, s'[l] = keccakRounds 12 s[l]) ∧
    (∃ s', Pl4.permute6 s = .ok s' ∧ ∀ l : Fin 4, s'[l] = keccakRounds 6 s[l]) ∧ ∃ s', Pl4.permute4 s = .ok s' ∧ ∀ l : Fin 4, s'[l] = keccakRounds 4 s[l] :=
  ⟨eachState_view (P := fun l t => t = keccakRounds 12 s[l]) fun i => ⟨_, rfl, Opt64.rounds12_eq s[i]⟩,
    eachState_view (P := fun l t => t = keccakRounds 6 s[l]) fun i => ⟨_, Opt64.permuteN_eq s[i] 6 (by decide), rfl⟩,
    eachState_view (P := fun l t => t = keccakRounds 4 s[l]) fun i => ⟨_, Opt64.permuteN_eq s[i] 4 (by decide), rfl⟩⟩

/-- **C91.** `ExtractAndAddBytes` returns the input XOR the bytes of the given state; as in C83, up to the last byte but one. -/
theorem C91_extractAdd (s : Vector Opt64.Lanes 4) (l : Fin 4) (input : Bytes) (offset : Nat) (h : offset + input.length < 200) :
    Pl4.extractAndAddBytes s l input offset = .ok (List.zipWith (· ^^^ ·) input (Spec.extractBytes (ofLanes s[l]) offset input.length)) := Opt64.andAdd_eq s[l] input offset h

example : (Pl4.extractAndAddBytes (Vector.replicate 4 (Vector.replicate 25 0x0807060504030201)) 3 [16, 16, 16] 7).toOption = some [24, 17, 18] := by decide +kernel

private theorem extract_get (s : St) (n j : Nat) (hj : j < n) : (Spec.extractBytes s 0 n)[j]? = some (s.getD j 0) := by
  simp [Spec.extractBytes, hj]

/-- **C91, as far as it holds.** `ExtractLanesAll` writes byte `j` of state `l` to byte `8 * laneOffset * l + j` for `j < 8 * laneCount`, and nothing else, for `laneCount ≤ 24`.
Missing: `laneCount = 25`, see `C91_extractLanesAll_violated`. -/
theorem C91_extractLanesAll_partial (s : Vector Opt64.Lanes 4) (out : Bytes) (n off : Nat) (ho : 8 * off < 2 ^ 32) (hn : n ≤ off) (h : n ≤ 24) (hl : 8 * (3 * off + n) ≤ out.length) :
    ∃ out', Pl4.extractLanesAll s out n off = .ok out' ∧ out'.length = out.length ∧ (∀ (l : Fin 4) (j : Nat), j < 8 * n → out'[l.val * (8 * off) + j]? = some ((ofLanes s[l]).getD j 0)) ∧
      ∀ p, (∀ l j : Nat, l < 4 → j < 8 * n → p ≠ l * (8 * off) + j) → out'[p]? = out[p]? := by
  unfold Pl4.extractLanesAll
  rw [bytes_eq (n := off) (by omega), bytes_eq (n := n) (by omega)]
  obtain ⟨o, e, h1, h2, h3⟩ := stores_eq (f := fun i => Opt64.extractBytes s[i] 0 (8 * n)) (out := out) (n := 8 * n) (step := 8 * off) (fun i => Opt64.extractBytes_eq s[i] 0 (8 * n) (by omega))
    (fun i => Opt64.extract_length _ _ _) (by omega) (by omega)
  exact ⟨o, e, h1, fun l j hj => (h2 l j hj).trans (extract_get _ _ _ hj), h3⟩

/-- **C91, as far as it holds.** `ExtractAndAddLanesAll`: the same with the byte of a separate input buffer added. -/
theorem C91_extractAndAddLanesAll_partial (s : Vector Opt64.Lanes 4) (input out : Bytes) (n off : Nat) (ho : 8 * off < 2 ^ 32) (hn : n ≤ off) (h : n ≤ 24) (hi : 8 * (3 * off + n) ≤ input.length)
    (hl : 8 * (3 * off + n) ≤ out.length) :
    ∃ out', Pl4.extractAndAddLanesAll s input out n off = .ok out' ∧ out'.length = out.length ∧
      (∀ (l : Fin 4) (j : Nat), j < 8 * n → out'[l.val * (8 * off) + j]? = some (input.getD (l.val * (8 * off) + j) 0 ^^^ (ofLanes s[l]).getD j 0)) ∧
      ∀ p, (∀ l j : Nat, l < 4 → j < 8 * n → p ≠ l * (8 * off) + j) → out'[p]? = out[p]? := by
  have hb : ∀ i : Fin 4, i.val * (8 * off) + 8 * n ≤ input.length := fun i => by
    have := Nat.mul_le_mul_right (8 * off) (show i.val ≤ 3 by omega)
    omega
  have hf : ∀ i : Fin 4, (load input (i.val * (8 * off)) (8 * n) >>= fun bs => Opt64.extractAndAddBytes s[i] bs 0) =
      .ok (List.zipWith (· ^^^ ·) ((input.drop (i.val * (8 * off))).take (8 * n)) (Spec.extractBytes (ofLanes s[i]) 0 (8 * n))) := fun i => by
    rw [load_eq (hb i), Opt64.okThen, Opt64.andAdd_eq s[i] _ 0 (by rw [load_length (hb i)]; omega), load_length (hb i)]
  obtain ⟨o, e, h1, h2, h3⟩ := stores_eq (out := out) (n := 8 * n) (step := 8 * off) hf (fun i => by rw [List.length_zipWith, load_length (hb i), Opt64.extract_length, Nat.min_self]) (by omega) (by omega)
  refine ⟨o, ?_, h1, fun l j hj => ?_, h3⟩
  · unfold Pl4.extractAndAddLanesAll
    rw [bytes_eq (n := off) (by omega), bytes_eq (n := n) (by omega), ← e]
    simp only [bind_assoc]
  · have hk : l.val * (8 * off) + j < input.length := by have := hb l; omega
    rw [h2 l j hj, List.getElem?_zipWith, extract_get _ _ _ hj, List.getElem?_take_of_lt hj, List.getElem?_drop, List.getElem?_eq_getElem hk, List.getD_eq_getElem?_getD, List.getElem?_eq_getElem hk]
    rfl

/-- The hypotheses hold for 24 of 25 words per state, and for two words per state of which the first is read. -/
example : (8 * 25 < 2 ^ 32 ∧ 24 ≤ 25 ∧ 24 ≤ 24 ∧ 8 * (3 * 25 + 24) ≤ 792) ∧ 8 * 2 < 2 ^ 32 ∧ 1 ≤ 2 ∧ 1 ≤ 24 ∧ 8 * (3 * 2 + 1) ≤ 56 := by decide

example : ∃ out', Pl4.extractLanesAll (Vector.replicate 4 (Vector.replicate 25 0x0807060504030201)) (List.replicate 56 9) 1 2 = .ok out' ∧ out'[18]? = some 3 ∧ out'[25]? = some 9 := by
  obtain ⟨o, e, _, h2, h3⟩ := C91_extractLanesAll_partial (Vector.replicate 4 (Vector.replicate 25 0x0807060504030201)) (List.replicate 56 9) 1 2 (by decide) (by decide) (by decide) (by simp)
  exact ⟨o, e, (h2 1 2 (by decide)).trans (by decide +kernel), (h3 25 (by omega)).trans (by decide +kernel)⟩

/-- **C91, violated.** With `laneCount = 25`, all lanes of each state, both functions read a lane behind the state (of the fourth state: behind the memory of the four states), whatever the buffers;
the AVX2 versions read and write all 25 lanes (C86). -/
theorem C91_extractLanesAll_violated (s : Vector Opt64.Lanes 4) (input out : Bytes) (off : Nat) (hi : 200 ≤ input.length) :
    Pl4.extractLanesAll s out 25 off = .error .ub ∧ Pl4.extractAndAddLanesAll s input out 25 off = .error .ub := by
  have hb : bytes 25 = 200 := rfl
  constructor
  · unfold Pl4.extractLanesAll
    rw [hb, List.foldlM_cons]
    simp only [extract_200]
    rfl
  · unfold Pl4.extractAndAddLanesAll
    rw [hb, List.foldlM_cons]
    have h0 : (0 : Fin 4).val * bytes off + 200 ≤ input.length := by
      rw [show (0 : Fin 4).val = 0 from rfl]
      omega
    rw [load_eq h0, Opt64.okThen, andAdd_200 _ _ (load_length h0)]
    rfl

example : 200 ≤ (List.replicate 800 (0 : Byte)).length := by
  rw [List.length_replicate]
  omega

end Banquet.Props
