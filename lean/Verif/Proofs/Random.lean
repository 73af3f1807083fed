import Verif.Spec.Random
import Verif.Spec.Aes
import Mathlib.Tactic.Ring

/-! Lemmas on randomness.c and key generation. -/

namespace Banquet

open Spec Spec.Aes

theorem length_overwrite {buf bs : Bytes} (h : bs.length ≤ buf.length) : (overwrite buf bs).length = buf.length := by
  unfold overwrite
  rw [List.length_append, List.length_drop]
  omega

theorem getD_overwrite (buf bs : Bytes) (p : Nat) : (overwrite buf bs).getD p 0 = if p < bs.length then bs.getD p 0 else buf.getD p 0 := by
  unfold overwrite
  rw [List.getD_eq_getElem?_getD, List.getD_eq_getElem?_getD, List.getD_eq_getElem?_getD, List.getElem?_append]
  split
  · rfl
  · rw [List.getElem?_drop]
    congr 2
    omega

theorem delivered_succ (r : Nat → ReadResult) (n : Nat) : delivered r (n + 1) = delivered r n ++ bytesOf (r n) := by
  unfold delivered
  rw [List.range_succ, List.flatMap_append]
  simp

/-- The loop around `read`. -/
theorem readLoop_spec (r : Nat → ReadResult) (buf : Bytes) (hr : ∀ i bs, r i = .data bs → (delivered r i).length + bs.length ≤ buf.length) (fuel i : Nat) (hi : (delivered r i).length ≤ buf.length) :
    (∃ n, i ≤ n ∧ n ≤ i + fuel ∧ (delivered r n).length = buf.length ∧ (∀ j, i ≤ j → j < n → r j ≠ .failed) ∧ readLoop r fuel i (delivered r i) (buf.drop (delivered r i).length) = .ok (true, delivered r n)) ∨
    (∃ n, i ≤ n ∧ n < i + fuel ∧ (delivered r n).length < buf.length ∧ r n = .failed ∧
      readLoop r fuel i (delivered r i) (buf.drop (delivered r i).length) = .ok (false, delivered r n ++ buf.drop (delivered r n).length)) ∨
    ((delivered r (i + fuel)).length < buf.length ∧ (∀ j, i ≤ j → j < i + fuel → r j ≠ .failed) ∧ readLoop r fuel i (delivered r i) (buf.drop (delivered r i).length) = .error .fuel) := by
  induction fuel generalizing i with
  | zero =>
    cases hb : buf.drop (delivered r i).length with
    | nil =>
      have : buf.length ≤ (delivered r i).length := by simpa using hb
      exact .inl ⟨i, le_refl i, by omega, by omega, fun j h1 h2 => by omega, rfl⟩
    | cons b rest =>
      have : (delivered r i).length < buf.length := by
        by_contra h
        rw [List.drop_eq_nil_of_le (by omega)] at hb
        cases hb
      exact .inr (.inr ⟨this, fun j h1 h2 => by omega, rfl⟩)
  | succ fuel ih =>
    cases hb : buf.drop (delivered r i).length with
    | nil =>
      have : buf.length ≤ (delivered r i).length := by simpa using hb
      exact .inl ⟨i, le_refl i, by omega, by omega, fun j h1 h2 => by omega, rfl⟩
    | cons b rest =>
      have hlt : (delivered r i).length < buf.length := by
        by_contra h
        rw [List.drop_eq_nil_of_le (by omega)] at hb
        cases hb
      have next : r i ≠ .failed → readLoop r (fuel + 1) i (delivered r i) (b :: rest) = readLoop r fuel (i + 1) (delivered r (i + 1)) (buf.drop (delivered r (i + 1)).length) ∧
          (delivered r (i + 1)).length ≤ buf.length := by
        intro hf
        have hlen : (b :: rest).length = buf.length - (delivered r i).length := by rw [← hb, List.length_drop]
        cases hri : r i with
        | failed => exact absurd hri hf
        | again =>
          have e : delivered r (i + 1) = delivered r i := by
            rw [delivered_succ, hri]
            exact List.append_nil _
          rw [e, hb]
          refine ⟨?_, hi⟩
          rw [readLoop, hri]
        | data bs =>
          have e : delivered r (i + 1) = delivered r i ++ bs := by rw [delivered_succ, hri, bytesOf]
          have hl := hr i bs hri
          rw [e, List.length_append]
          refine ⟨?_, hl⟩
          rw [readLoop, hri]
          simp only
          rw [if_neg (by rw [hlen]; omega), ← List.drop_drop, hb]
      by_cases hf : r i = .failed
      · refine .inr (.inl ⟨i, le_refl i, by omega, hlt, hf, ?_⟩)
        rw [readLoop, hf, hb]
      · obtain ⟨e, hle⟩ := next hf
        rw [e]
        rcases ih (i + 1) hle with ⟨n, h1, h2, h3, h4, h5⟩ | ⟨n, h1, h2, h3, h4, h5⟩ | ⟨h3, h4, h5⟩
        · refine .inl ⟨n, by omega, by omega, h3, fun j hj1 hj2 => ?_, h5⟩
          rcases Nat.eq_or_lt_of_le hj1 with rfl | h
          · exact hf
          · exact h4 j h hj2
        · exact .inr (.inl ⟨n, by omega, by omega, h3, h4, h5⟩)
        · refine .inr (.inr ⟨by rwa [show i + (fuel + 1) = i + 1 + fuel by omega], fun j hj1 hj2 => ?_, h5⟩)
          rcases Nat.eq_or_lt_of_le hj1 with rfl | h
          · exact hf
          · exact h4 j h (by omega)

/-- The contents of a buffer after `n` calls. -/
def contents (w : Nat → Bytes) (start : Bytes) : Nat → Bytes
  | 0 => start
  | n + 1 => overwrite (contents w start n) (w n)

theorem length_contents {w : Nat → Bytes} {start : Bytes} (h : ∀ i, (w i).length ≤ start.length) (n : Nat) : (contents w start n).length = start.length := by
  induction n with
  | zero => rfl
  | succ n ih => rw [contents, length_overwrite (by rw [ih]; exact h n), ih]

theorem contents_getD (w : Nat → Bytes) (start : Bytes) (p : Nat) (n : Nat) : (∃ j < n, p < (w j).length ∧ (contents w start n).getD p 0 = (w j).getD p 0) ∨
    (∀ j < n, (w j).length ≤ p) ∧ (contents w start n).getD p 0 = start.getD p 0 := by
  induction n with
  | zero => exact .inr ⟨fun j hj => absurd hj (Nat.not_lt_zero j), rfl⟩
  | succ n ih =>
    rw [contents, getD_overwrite]
    by_cases hp : p < (w n).length
    · exact .inl ⟨n, Nat.lt_succ_self n, hp, if_pos hp⟩
    · rw [if_neg hp]
      rcases ih with ⟨j, h1, h2, h3⟩ | ⟨h1, h2⟩
      · exact .inl ⟨j, by omega, h2, h3⟩
      · refine .inr ⟨fun j hj => ?_, h2⟩
        rcases Nat.lt_succ_iff_lt_or_eq.1 hj with h | rfl
        · exact h1 j h
        · omega

theorem keygenLoop_eq (I : Instance) (w : Nat → Bytes × Bytes) (key pt : Bytes) (fuel i : Nat) :
    keygenLoop I w fuel i (contents (fun j => (w j).1) key i) (contents (fun j => (w j).2) pt i) =
    keygen I (fun j => (contents (fun j => (w j).1) key (j + 1), contents (fun j => (w j).2) pt (j + 1))) fuel i := by
  induction fuel generalizing i with
  | zero => rfl
  | succ fuel ih =>
    unfold keygenLoop keygen
    simp only [contents]
    split
    · split
      · rename_i ct h
        rw [h]
      · rename_i h
        rw [h]
        exact ih (i + 1)
    · rfl

theorem keygenRand_eq (I : Instance) (w : Nat → Bytes × Bytes) (fuel : Nat) : keygenRand I w fuel =
    keygen I (fun j => (contents (fun j => (w j).1) (List.replicate I.aes.keySize 0) (j + 1), contents (fun j => (w j).2) (List.replicate I.ctSize 0) (j + 1))) fuel 0 := keygenLoop_eq I w _ _ fuel 0

theorem keyInputs_mono (nk : Nat) (key : Bytes) {m n : Nat} (h : m ≤ n) {b : Byte} (hb : b ∈ keyInputs nk key m) : b ∈ keyInputs nk key n := by
  induction h with
  | refl => exact hb
  | step _ ih => exact List.mem_append_left _ ih

/-- The last byte of the key is an S-box input of the key expansion. -/
theorem last_mem {nk : Nat} (hk : 0 < nk) (key : Bytes) {n : Nat} (hn : nk < n) : key.getD (4 * nk - 1) 0 ∈ keyInputs nk key n := by
  have hl : ∀ n, (keyExpansion nk key n).length = n := fun n => by
    induction n with
    | zero => rfl
    | succ n ih => rw [keyExpansion, List.length_append, ih]; rfl
  refine keyInputs_mono nk key hn ?_
  rw [keyInputs, if_neg (lt_irrefl nk)]
  refine List.mem_append_right _ ?_
  obtain ⟨m, rfl⟩ : ∃ m, nk = m + 1 := ⟨nk - 1, by omega⟩
  unfold nextInputs
  simp only [hl, Nat.mod_self, if_true]
  have : (keyExpansion (m + 1) key (m + 1)).getD m (Vector.replicate 4 0) = keyWord key m := by
    rw [keyExpansion, if_pos (by omega), List.getD_eq_getElem?_getD, List.getElem?_append_right (by rw [hl]), hl]
    simp
  rw [Nat.add_sub_cancel, this]
  have h3 : (rotWord (keyWord key m)).toList[2]'(by simp) = key.getD (4 * (m + 1) - 1) 0 := by
    simp [rotWord, keyWord, show 4 * (m + 1) - 1 = 4 * m + 3 by omega]
  rw [← h3]
  exact List.getElem_mem _

end Banquet
