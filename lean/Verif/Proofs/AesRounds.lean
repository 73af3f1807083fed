import Verif.Proofs.AesFips
import Mathlib.Tactic.IntervalCases

/-! The rounds of aes.cpp and FIPS 197. -/

namespace Banquet

open Spec.Aes

/-- The register holding a state. -/
def ofState (s : State) : Blk := Blk.ofWords s[0] s[1] s[2] s[3]

theorem getElem_ofState (s : State) (i : Nat) (h : i < 16) : (ofState s)[i] = (s[i / 4]'(by omega))[i % 4] := by
  unfold ofState
  rw [getElem_ofWords]
  split
  · have : i / 4 = 0 := by omega
    simp only [this]
  split
  · have : i / 4 = 1 := by omega
    simp only [this]
  split
  · have : i / 4 = 2 := by omega
    simp only [this]
  · have : i / 4 = 3 := by omega
    simp only [this]

theorem ofState_toList (s : State) : (ofState s).toList = s.bytes := by
  obtain ⟨⟨l⟩, hl⟩ := s
  have h4 : l.length = 4 := hl
  match l, h4 with
  | [a, b, c, d], _ =>
    have hw : ∀ w : Word, w.toList = [w[0], w[1], w[2], w[3]] := by
      intro w
      apply List.ext_getElem
      · simp
      · intro i h1 h2
        have : i < 4 := by simpa using h1
        interval_cases i <;> simp
    have hb : ∀ m : Blk, m.toList = [m[0], m[1], m[2], m[3], m[4], m[5], m[6], m[7], m[8], m[9], m[10], m[11], m[12], m[13], m[14], m[15]] := by
      intro w
      apply List.ext_getElem
      · simp
      · intro i h1 h2
        have : i < 16 := by simpa using h1
        interval_cases i <;> simp
    rw [hb]
    unfold State.bytes
    simp only [getElem_ofState]
    simp [hw]

theorem subShift_ofState (s : State) : (ofState s).subShift = ofState s.subBytes.shiftRows := by
  apply Vector.ext
  intro i hi
  rw [getElem_ofState]
  unfold Blk.subShift State.shiftRows State.subBytes subWord
  simp only [Vector.getElem_ofFn, getElem_ofState, hwSbox_eq]
  have e1 : (4 * ((i / 4 + i % 4) % 4) + i % 4) / 4 = (i / 4 + i % 4) % 4 := by omega
  have e2 : (4 * ((i / 4 + i % 4) % 4) + i % 4) % 4 = i % 4 := by omega
  simp only [e1, e2, Fin.getElem_fin, Vector.getElem_ofFn]

theorem mixColumns_ofState (s : State) : (ofState s).mixColumns = ofState s.mixColumns := by
  apply Vector.ext
  intro i hi
  rw [getElem_ofState]
  unfold Blk.mixColumns State.mixColumns mixColumn
  simp only [Vector.getElem_ofFn, getElem_ofState, Fin.getElem_fin, (mul_23 _).1, (mul_23 _).2]
  have e1 : ∀ j, j < 4 → (4 * (i / 4) + j) / 4 = i / 4 := fun j _ => by omega
  have e2 : ∀ j, j < 4 → (4 * (i / 4) + j) % 4 = j := fun j _ => by omega
  simp only [e1 _ (Nat.mod_lt _ (by omega : 4 > 0)), e2 _ (Nat.mod_lt _ (by omega : 4 > 0))]
  simp only [BitVec.xor_assoc]

/-! ## AESIMC three times -/

/-- InvMixColumns on a word. -/
def imcW (a : Word) : Word := Vector.ofFn fun r =>
  (hwXtime (hwXtime (hwXtime a[r])) ^^^ hwXtime (hwXtime a[r]) ^^^ hwXtime a[r]) ^^^
  (hwXtime (hwXtime (hwXtime a[(r.val + 1) % 4])) ^^^ hwXtime a[(r.val + 1) % 4] ^^^ a[(r.val + 1) % 4]) ^^^
  (hwXtime (hwXtime (hwXtime a[(r.val + 2) % 4])) ^^^ hwXtime (hwXtime a[(r.val + 2) % 4]) ^^^ a[(r.val + 2) % 4]) ^^^
  (hwXtime (hwXtime (hwXtime a[(r.val + 3) % 4])) ^^^ a[(r.val + 3) % 4])

theorem aesimc_ofState (s : State) : (ofState s).aesimc = ofState (Vector.ofFn fun c => imcW s[c]) := by
  apply Vector.ext
  intro i hi
  rw [getElem_ofState]
  unfold Blk.aesimc imcW
  simp only [Vector.getElem_ofFn, getElem_ofState, Fin.getElem_fin]
  have e1 : ∀ j, j < 4 → (4 * (i / 4) + j) / 4 = i / 4 := fun j _ => by omega
  have e2 : ∀ j, j < 4 → (4 * (i / 4) + j) % 4 = j := fun j _ => by omega
  simp only [e1 _ (Nat.mod_lt _ (by omega : 4 > 0)), e2 _ (Nat.mod_lt _ (by omega : 4 > 0))]

theorem imcW_xor (a b : Word) : imcW (a.xor b) = (imcW a).xor (imcW b) := by
  apply word_ext
  intro r hr
  unfold imcW
  simp only [Word.getElem_xor, Vector.getElem_ofFn, Fin.getElem_fin, Blk.hwXtime_xor]
  ac_rfl

/-- The column mixing of the code. -/
def mixW (a : Word) : Word := Vector.ofFn fun r =>
  (hwXtime a[r] ^^^ (hwXtime a[(r.val + 1) % 4] ^^^ a[(r.val + 1) % 4])) ^^^ (a[(r.val + 2) % 4] ^^^ a[(r.val + 3) % 4])

theorem mixW_xor (a b : Word) : mixW (a.xor b) = (mixW a).xor (mixW b) := by
  apply word_ext
  intro r hr
  unfold mixW
  simp only [Word.getElem_xor, Vector.getElem_ofFn, Fin.getElem_fin, Blk.hwXtime_xor]
  ac_rfl

/-- A word with one byte. -/
def singleW (k : Fin 4) (b : Byte) : Word := Vector.ofFn fun r => if r = k then b else 0

theorem word_singles (a : Word) : a = (singleW 0 a[0]).xor ((singleW 1 a[1]).xor ((singleW 2 a[2]).xor (singleW 3 a[3]))) := by
  apply word_ext
  intro r hr
  simp only [Word.getElem_xor, singleW, Vector.getElem_ofFn]
  interval_cases r <;> simp

/-- The four coefficients of InvMixColumns. -/
def ce (b : Byte) : Byte := hwXtime (hwXtime (hwXtime b)) ^^^ hwXtime (hwXtime b) ^^^ hwXtime b
/-- Coefficient 11. -/
def cb (b : Byte) : Byte := hwXtime (hwXtime (hwXtime b)) ^^^ hwXtime b ^^^ b
/-- Coefficient 13. -/
def cd (b : Byte) : Byte := hwXtime (hwXtime (hwXtime b)) ^^^ hwXtime (hwXtime b) ^^^ b
/-- Coefficient 9. -/
def c9 (b : Byte) : Byte := hwXtime (hwXtime (hwXtime b)) ^^^ b

theorem imcW_lit (a b c d : Byte) : imcW #v[a, b, c, d] = #v[ce a ^^^ cb b ^^^ cd c ^^^ c9 d, ce b ^^^ cb c ^^^ cd d ^^^ c9 a, ce c ^^^ cb d ^^^ cd a ^^^ c9 b, ce d ^^^ cb a ^^^ cd b ^^^ c9 c] := rfl

theorem mixW_lit (a b c d : Byte) : mixW #v[a, b, c, d] = #v[(hwXtime a ^^^ (hwXtime b ^^^ b)) ^^^ (c ^^^ d), (hwXtime b ^^^ (hwXtime c ^^^ c)) ^^^ (d ^^^ a),
  (hwXtime c ^^^ (hwXtime d ^^^ d)) ^^^ (a ^^^ b), (hwXtime d ^^^ (hwXtime a ^^^ a)) ^^^ (b ^^^ c)] := rfl

/-- Entries of the square of the matrix. -/
theorem imc_sq : ∀ b : Byte, (ce (ce b) ^^^ cb (c9 b) ^^^ cd (cd b) ^^^ c9 (cb b) = hwXtime (hwXtime b) ^^^ b) ∧ (ce (c9 b) ^^^ cb (cd b) ^^^ cd (cb b) ^^^ c9 (ce b) = 0) ∧
    (ce (cd b) ^^^ cb (cb b) ^^^ cd (ce b) ^^^ c9 (c9 b) = hwXtime (hwXtime b)) ∧ (ce (cb b) ^^^ cb (ce b) ^^^ cd (c9 b) ^^^ c9 (cd b) = 0) := by
  have : ∀ n : Fin 256, (ce (ce (BitVec.ofFin n)) ^^^ cb (c9 (BitVec.ofFin n)) ^^^ cd (cd (BitVec.ofFin n)) ^^^ c9 (cb (BitVec.ofFin n)) = hwXtime (hwXtime (BitVec.ofFin n)) ^^^ BitVec.ofFin n) ∧
      (ce (c9 (BitVec.ofFin n)) ^^^ cb (cd (BitVec.ofFin n)) ^^^ cd (cb (BitVec.ofFin n)) ^^^ c9 (ce (BitVec.ofFin n)) = 0) ∧
      (ce (cd (BitVec.ofFin n)) ^^^ cb (cb (BitVec.ofFin n)) ^^^ cd (ce (BitVec.ofFin n)) ^^^ c9 (c9 (BitVec.ofFin n)) = hwXtime (hwXtime (BitVec.ofFin n))) ∧
      (ce (cb (BitVec.ofFin n)) ^^^ cb (ce (BitVec.ofFin n)) ^^^ cd (c9 (BitVec.ofFin n)) ^^^ c9 (cd (BitVec.ofFin n)) = 0) := by decide +kernel
  intro ⟨n⟩
  exact this n

/-- Entries of the cube. -/
theorem imc_cube : ∀ b : Byte, (ce (hwXtime (hwXtime b) ^^^ b) ^^^ cd (hwXtime (hwXtime b)) = hwXtime b) ∧ (cb (hwXtime (hwXtime b)) ^^^ c9 (hwXtime (hwXtime b) ^^^ b) = b) ∧
    (ce (hwXtime (hwXtime b)) ^^^ cd (hwXtime (hwXtime b) ^^^ b) = b) ∧ (cb (hwXtime (hwXtime b) ^^^ b) ^^^ c9 (hwXtime (hwXtime b)) = hwXtime b ^^^ b) := by
  have : ∀ n : Fin 256, (ce (hwXtime (hwXtime (BitVec.ofFin n)) ^^^ BitVec.ofFin n) ^^^ cd (hwXtime (hwXtime (BitVec.ofFin n))) = hwXtime (BitVec.ofFin n)) ∧
      (cb (hwXtime (hwXtime (BitVec.ofFin n))) ^^^ c9 (hwXtime (hwXtime (BitVec.ofFin n)) ^^^ BitVec.ofFin n) = BitVec.ofFin n) ∧
      (ce (hwXtime (hwXtime (BitVec.ofFin n))) ^^^ cd (hwXtime (hwXtime (BitVec.ofFin n)) ^^^ BitVec.ofFin n) = BitVec.ofFin n) ∧
      (cb (hwXtime (hwXtime (BitVec.ofFin n)) ^^^ BitVec.ofFin n) ^^^ c9 (hwXtime (hwXtime (BitVec.ofFin n))) = hwXtime (BitVec.ofFin n) ^^^ BitVec.ofFin n) := by decide +kernel
  intro ⟨n⟩
  exact this n

theorem c_zero : ce 0 = 0 ∧ cb 0 = 0 ∧ cd 0 = 0 ∧ c9 0 = 0 ∧ hwXtime 0 = 0 := by decide

theorem xor_zero' (b : Byte) : b ^^^ 0 = b := BitVec.xor_zero
theorem zero_xor' (b : Byte) : 0 ^^^ b = b := BitVec.zero_xor

theorem imcW_rot (a : Word) : imcW (rotWord a) = rotWord (imcW a) := by
  apply word_ext
  intro r hr
  unfold imcW rotWord
  simp only [Vector.getElem_ofFn, Fin.getElem_fin]
  interval_cases r <;> rfl

theorem mixW_rot (a : Word) : mixW (rotWord a) = rotWord (mixW a) := by
  apply word_ext
  intro r hr
  unfold mixW rotWord
  simp only [Vector.getElem_ofFn, Fin.getElem_fin]
  interval_cases r <;> rfl

theorem imcW_single : ∀ k b, imcW (imcW (imcW (singleW k b))) = mixW (singleW k b) := by
  obtain ⟨ze, zb, zd, z9, zx⟩ := c_zero
  intro k b
  obtain ⟨h0, h1, h2, h3⟩ := imc_sq b
  obtain ⟨g0, g1, g2, g3⟩ := imc_cube b
  have e0 : singleW 0 b = #v[b, 0, 0, 0] := rfl
  have h : imcW (imcW (imcW (singleW 0 b))) = mixW (singleW 0 b) := by
    simp only [e0, imcW_lit, mixW_lit, ze, zb, zd, z9, zx, xor_zero', zero_xor', h0, h1, h2, h3, g0, g1, g2, g3]
  have e3 : singleW 3 b = rotWord (singleW 0 b) := rfl
  have e2 : singleW 2 b = rotWord (singleW 3 b) := rfl
  have e1 : singleW 1 b = rotWord (singleW 2 b) := rfl
  fin_cases k
  · exact h
  · change imcW (imcW (imcW (singleW 1 b))) = mixW (singleW 1 b)
    rw [e1, e2, e3]
    simp only [imcW_rot, mixW_rot, h]
  · change imcW (imcW (imcW (singleW 2 b))) = mixW (singleW 2 b)
    rw [e2, e3]
    simp only [imcW_rot, mixW_rot, h]
  · change imcW (imcW (imcW (singleW 3 b))) = mixW (singleW 3 b)
    rw [e3]
    simp only [imcW_rot, mixW_rot, h]

theorem imcW_three (a : Word) : imcW (imcW (imcW a)) = mixColumn a := by
  have h : mixColumn a = mixW a := by
    unfold mixColumn mixW
    simp only [(mul_23 _).1, (mul_23 _).2]
  rw [h, word_singles a]
  simp only [imcW_xor, mixW_xor, imcW_single]

theorem imc3_ofState (s : State) : (ofState s).imc3 = ofState s.mixColumns := by
  unfold Blk.imc3
  rw [aesimc_ofState, aesimc_ofState, aesimc_ofState]
  congr 1
  apply Vector.ext
  intro c hc
  unfold State.mixColumns
  simp only [Vector.getElem_ofFn, Fin.getElem_fin, imcW_three]

/-! ## Rounds -/

theorem xor_roundKey (nk : Nat) (key : Bytes) (n : Nat) (s : State) (j : Nat) (h : 4 * j + 3 < n) : (ofState s).xor (roundKey nk key j) = ofState (s.addRoundKey (keyExpansion nk key n) j) := by
  unfold ofState roundKey
  rw [ofWords_xor]
  unfold State.addRoundKey
  simp only [Vector.getElem_ofFn, Fin.getElem_fin]
  rw [getD_keyExpansion _ _ _ _ (by omega), getD_keyExpansion _ _ _ _ (by omega), getD_keyExpansion _ _ _ _ (by omega), getD_keyExpansion _ _ _ _ (by omega)]
  rfl

theorem loadBlk_toState (pt : Bytes) (off : Nat) : loadBlk pt off = ofState (toState (slice pt off 16)) := by
  apply Vector.ext
  intro i hi
  rw [getElem_ofState]
  unfold loadBlk toState slice
  simp only [Vector.getElem_ofFn]
  rw [show 4 * (i / 4) + i % 4 = i by omega, List.getD_eq_getElem?_getD, List.getD_eq_getElem?_getD, List.getElem?_take, if_pos (by omega), List.getElem?_drop]

/-- State after the last round. -/
def lastState (nr : Nat) (w : List Word) (s : State) : State := ((roundState w s (nr - 1)).subBytes.shiftRows).addRoundKey w nr

/-- S-box inputs of the rounds in the order of the code. -/
def roundIns (nr : Nat) (w : List Word) (s : State) : Bytes := (List.range nr).flatMap fun i => (ofState (roundState w s i)).rowOrder.toList

theorem rounds_mono (T : Bytes) (f : Bool) (ks : List Blk) (pt : Blk) : Mono (rounds (subShare f T) Blk.imc3 ks pt) := by
  unfold rounds
  exact (Mono.foldlM _ (fun a b => (sub_mono _ _ _).bind fun _ => Mono.pure _) _).bind fun _ => (sub_mono _ _ _).bind fun _ => Mono.pure _

theorem rounds_tr (nk : Nat) (key : Bytes) (n : Nat) (w : List Word) (hw : keyExpansion nk key (4 * (n + 2)) = w) (s : State) :
    Tr (roundIns (n + 1) w s) (· = ofState (lastState (n + 1) w s))
      (rounds subPlain Blk.mixColumns ((List.range (n + 2)).map (roundKey nk key)) (ofState s)) (rounds subSave Blk.mixColumns ((List.range (n + 2)).map (roundKey nk key)) (ofState s))
      (fun T => rounds (subShare true T) Blk.imc3 ((List.range (n + 2)).map (roundKey nk key)) (ofState s)) := by
  have hk : (List.range (n + 2)).map (roundKey nk key) = roundKey nk key 0 :: ((List.range n).map (fun i => roundKey nk key (i + 1)) ++ [roundKey nk key (n + 1)]) := by
    rw [List.range_succ, List.range_succ_eq_map, List.map_append, List.map_cons, List.map_map]
    rfl
  have hx : ∀ (s : State) j, j < n + 2 → (ofState s).xor (roundKey nk key j) = ofState (s.addRoundKey w j) := by
    intro s j hj
    rw [← hw]
    exact xor_roundKey nk key _ s j (by omega)
  rw [hk]
  simp only [rounds_mid]
  rw [hx s 0 (by omega)]
  unfold roundIns
  rw [List.range_succ, List.flatMap_append, List.flatMap_singleton]
  refine Tr.bind (Tr.foldlM n (fun i => roundKey nk key (i + 1)) (fun i => ofState (roundState w s i)) (fun i => (ofState (roundState w s i)).rowOrder.toList) ?_ ?_) ?_ ?_ ?_
  · intro i hi
    refine Tr.cast (Tr.bind (i2 := []) (sub_tr _) ?_ (fun _ _ => Mono.pure _) (fun _ => sub_mono _ _ _)) (List.append_nil _)
    rintro _ _ _ rfl rfl rfl
    rw [subShift_ofState, mixColumns_ofState, imc3_ofState, hx _ _ (by omega)]
    exact Tr.pure rfl rfl rfl
  · intro T a b
    exact (sub_mono _ _ _).bind fun _ => Mono.pure _
  · rintro _ _ _ rfl rfl rfl
    refine Tr.cast (Tr.bind (i2 := []) (sub_tr _) ?_ (fun _ _ => Mono.pure _) (fun _ => sub_mono _ _ _)) (List.append_nil _)
    rintro _ _ _ rfl rfl rfl
    rw [subShift_ofState, hx _ _ (by omega)]
    exact Tr.pure rfl rfl rfl
  · intro T c
    exact (sub_mono _ _ _).bind fun _ => Mono.pure _
  · intro T
    exact Mono.foldlM _ (fun a b => (sub_mono _ _ _).bind fun _ => Mono.pure _) _

end Banquet
