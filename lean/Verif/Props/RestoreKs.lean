import Verif.Model.RestoreKs
import Verif.Proofs.AesLin
import Verif.Proofs.AesSbox
import Verif.Proofs.Shared
import Verif.Spec.Aes

/-! Property theorems C96: the unused macro `restore_t_shares_KS`. -/

namespace Banquet.Props

open Spec.Aes

private theorem sbox_inverse : ∀ b : Byte, hwSbox (aesInv b) = affine b := by
  have : ∀ b : Fin 256, hwSbox (aesInv (BitVec.ofFin b)) = affine (BitVec.ofFin b) := by decide +kernel
  exact fun b => this b.toFin

private theorem affine_eq (b : Byte) : affine b = affLin b ^^^ 0x63 := by
  rw [affLin_affine, BitVec.xor_assoc, BitVec.xor_self, BitVec.xor_zero]

private theorem step_ok (t s : Bytes) (m : Blk) (j : Nat) (k : Fin 16) (hs : j < s.length) (ht : j < t.length) :
    restoreKsStep t (m, s, j) k = .ok (m.set k (aesInv (t.getD j 0)), s.set j m[k], j + 1) := by
  unfold restoreKsStep
  simp only [hs, ht, decide_true]
  rfl

/-- C96. With room for four bytes the macro records the last word of `m` in rotated order, changes nothing else in the shares, and leaves an `m` for which `aeskeygenassist` gives in its last word the affine map of the four `t` values
(and the round constant), which is what the key schedule of FIPS 197 has there if the `t` values are the inverses. -/
theorem C96_word (t s : Bytes) (m : Blk) (j : Nat) (rcon : Byte) (hs : j + 4 ≤ s.length) (ht : j + 4 ≤ t.length) :
    ∃ (m' : Blk) (s' : Bytes), restoreKs t m s j = .ok (m', s', j + 4) ∧ s' = s.take j ++ [m[13], m[14], m[15], m[12]] ++ s.drop (j + 4) ∧
      (∀ i : Fin 16, i.val < 12 → m'[i] = m[i]) ∧
      (∀ r : Fin 4, (m'.keygenassist rcon)[12 + r.val] = affine (t.getD (j + r.val) 0) ^^^ if r.val = 0 then rcon else 0) := by
  refine ⟨(((m.set 13 (aesInv (t.getD j 0))).set 14 (aesInv (t.getD (j + 1) 0))).set 15 (aesInv (t.getD (j + 2) 0))).set 12 (aesInv (t.getD (j + 3) 0)),
    (((s.set j m[13]).set (j + 1) m[14]).set (j + 2) m[15]).set (j + 3) m[12], ?_, ?_, ?_, ?_⟩
  · unfold restoreKs
    rw [List.foldlM_cons, step_ok _ _ _ _ _ (by omega) (by omega)]
    refine (?_ : List.foldlM (restoreKsStep t) _ [14, 15, 12] = _)
    rw [List.foldlM_cons, step_ok _ _ _ _ _ (by rw [List.length_set]; omega) (by omega)]
    refine (?_ : List.foldlM (restoreKsStep t) _ [15, 12] = _)
    rw [List.foldlM_cons, step_ok _ _ _ _ _ (by simp only [List.length_set]; omega) (by omega)]
    refine (?_ : List.foldlM (restoreKsStep t) _ [12] = _)
    rw [List.foldlM_cons, step_ok _ _ _ _ _ (by simp only [List.length_set]; omega) (by omega)]
    refine congrArg Except.ok (?_ : _ = _)
    simp
  · apply List.ext_getElem?
    intro i
    simp only [List.getElem?_set, List.length_set]
    rw [List.append_assoc, List.getElem?_append, List.length_take, Nat.min_eq_left (by omega)]
    by_cases h1 : i < j
    · rw [if_pos h1, List.getElem?_take, if_pos h1, if_neg (by omega), if_neg (by omega), if_neg (by omega), if_neg (by omega)]
    · rw [if_neg h1]
      by_cases h2 : i < j + 4
      · obtain ⟨d, rfl, hd⟩ : ∃ d, i = j + d ∧ d < 4 := ⟨i - j, by omega, by omega⟩
        rw [Nat.add_sub_cancel_left]
        have : d = 0 ∨ d = 1 ∨ d = 2 ∨ d = 3 := by omega
        rcases this with rfl | rfl | rfl | rfl
        · rw [if_neg (by omega), if_neg (by omega), if_neg (by omega), if_pos (by omega), if_pos (by omega)]; rfl
        · rw [if_neg (by omega), if_neg (by omega), if_pos (by omega), if_pos (by omega)]; rfl
        · rw [if_neg (by omega), if_pos (by omega), if_pos (by omega)]; rfl
        · rw [if_pos (by omega), if_pos (by omega)]; rfl
      · rw [if_neg (by omega), if_neg (by omega), if_neg (by omega), if_neg (by omega), List.getElem?_append_right (by simp only [List.length_cons, List.length_nil]; omega), List.getElem?_drop]
        congr 1
        simp only [List.length_cons, List.length_nil]
        omega
  · intro i hi
    have h := i.2
    simp only [Fin.getElem_fin]
    rw [Vector.getElem_set_ne _ _ (by show (12 : Nat) ≠ i.val; omega), Vector.getElem_set_ne _ _ (by show (15 : Nat) ≠ i.val; omega), Vector.getElem_set_ne _ _ (by show (14 : Nat) ≠ i.val; omega),
      Vector.getElem_set_ne _ _ (by show (13 : Nat) ≠ i.val; omega)]
  · intro r
    unfold Blk.keygenassist
    rw [Vector.getElem_ofFn]
    fin_cases r <;> simp [Vector.getD, sbox_inverse]

/-- C96. Without room for four bytes the program is terminated. -/
theorem C96_short (t s : Bytes) (m : Blk) (j : Nat) (h : s.length < j + 4 ∨ t.length < j + 4) : restoreKs t m s j = .error .abort := by
  have bad : ∀ (s : Bytes) (m : Blk) (j : Nat) (k : Fin 16), s.length ≤ j ∨ t.length ≤ j → restoreKsStep t (m, s, j) k = .error .abort := fun s m j k h => by
    unfold restoreKsStep
    by_cases h1 : j < s.length
    · have h2 : ¬ j < t.length := by omega
      simp only [h1, h2, decide_true, decide_false]
      rfl
    · simp only [h1, decide_false]
      rfl
  have key : ∀ (ks : List (Fin 16)) (s : Bytes) (m : Blk) (j : Nat), ks ≠ [] → s.length < j + ks.length ∨ t.length < j + ks.length → ks.foldlM (restoreKsStep t) (m, s, j) = .error .abort := fun ks => by
    induction ks with
    | nil => exact fun _ _ _ h0 => absurd rfl h0
    | cons k ks ih =>
      intro s m j _ h
      rw [List.foldlM_cons]
      by_cases h1 : s.length ≤ j ∨ t.length ≤ j
      · rw [bad s m j k h1]; rfl
      · rw [step_ok t s m j k (by omega) (by omega)]
        rw [List.length_cons] at h
        refine ih _ _ _ (fun e => ?_) ?_
        · rw [e, List.length_nil] at h
          omega
        · rw [List.length_set]
          omega
  exact key [13, 14, 15, 12] s m j (by simp) h

private theorem cancel (a b x c : Byte) : a ^^^ (x ^^^ c) ^^^ (b ^^^ x) ^^^ 0#8 = a ^^^ b ^^^ c := by
  apply BitVec.eq_of_getLsbD_eq
  intro i _
  simp only [BitVec.xor_zero, BitVec.getLsbD_xor]
  cases a.getLsbD i <;> cases b.getLsbD i <;> cases x.getLsbD i <;> cases c.getLsbD i <;> rfl

private theorem cancel' (a b x c : Byte) : a ^^^ (x ^^^ c) ^^^ (b ^^^ x) ^^^ c = a ^^^ b ^^^ 0#8 := by
  apply BitVec.eq_of_getLsbD_eq
  intro i _
  simp only [BitVec.xor_zero, BitVec.getLsbD_xor]
  cases a.getLsbD i <;> cases b.getLsbD i <;> cases x.getLsbD i <;> cases c.getLsbD i <;> rfl

private theorem parties (ts : List Byte) :
    (ts.map affine).foldl (· ^^^ ·) 0 = affine (ts.foldl (· ^^^ ·) 0) ↔ ts.length % 2 = 1 := by
  have key : ∀ (ts : List Byte) (a b : Byte), (ts.map affine).foldl (· ^^^ ·) a ^^^ affLin (ts.foldl (· ^^^ ·) b) = a ^^^ affLin b ^^^ if ts.length % 2 = 1 then 0x63 else 0 := fun ts => by
    induction ts with
    | nil => intro a b; simp
    | cons x ts ih =>
      intro a b
      rw [List.map_cons, List.foldl_cons, List.foldl_cons, ih, affLin_xor, affine_eq, List.length_cons]
      rcases Nat.mod_two_eq_zero_or_one ts.length with h | h
      · rw [if_neg (by omega), if_pos (by omega)]
        exact cancel _ _ _ _
      · rw [if_pos h, if_neg (by omega)]
        exact cancel' _ _ _ _
  have h := key ts 0 0
  rw [show affLin 0 = 0 by decide] at h
  rw [affine_eq]
  generalize (ts.map affine).foldl (· ^^^ ·) 0 = A at h ⊢
  generalize affLin (ts.foldl (· ^^^ ·) 0) = B at h ⊢
  have hA : A = B ^^^ if ts.length % 2 = 1 then 0x63 else 0 := by
    have : A ^^^ B ^^^ B = (0 ^^^ 0 ^^^ if ts.length % 2 = 1 then 0x63 else 0) ^^^ B := by rw [h]
    rw [BitVec.xor_assoc, BitVec.xor_self, BitVec.xor_zero, BitVec.xor_self, BitVec.zero_xor, BitVec.xor_comm] at this
    exact this
  rw [hA]
  split
  · next h1 => exact ⟨fun _ => h1, fun _ => rfl⟩
  · next h1 =>
    refine ⟨fun e => ?_, fun e => absurd e h1⟩
    have : B ^^^ (B ^^^ (0 : Byte)) = B ^^^ (B ^^^ 0x63) := by rw [e]
    rw [← BitVec.xor_assoc, ← BitVec.xor_assoc, BitVec.xor_self] at this
    exact absurd this (by decide)

/-- C96. Why it cannot replace the macros in use: it adds the constant of the S-box for every party, not only the first. If every party (`t` shares, `s` shares and `m`) runs the macro and then `aeskeygenassist`, the outputs add up to the S-box
value for the sum of their `t` shares exactly for an odd number of parties; all parameter sets have an even number. -/
theorem C96_parties (ps : List (Bytes × Bytes × Blk)) (j : Nat) (r : Fin 4) (h : ∀ p ∈ ps, j + 4 ≤ p.1.length ∧ j + 4 ≤ p.2.1.length) :
    ∃ ms : List Blk, List.Forall₂ (fun p m' => ∃ s', restoreKs p.1 p.2.2 p.2.1 j = .ok (m', s', j + 4)) ps ms ∧
      ((ms.map fun m' => (m'.keygenassist 0)[12 + r.val]).foldl (· ^^^ ·) 0 = affine ((ps.map fun p => p.1.getD (j + r.val) 0).foldl (· ^^^ ·) 0) ↔ ps.length % 2 = 1) := by
  have key : ∀ ps : List (Bytes × Bytes × Blk), (∀ p ∈ ps, j + 4 ≤ p.1.length ∧ j + 4 ≤ p.2.1.length) →
      ∃ ms : List Blk, List.Forall₂ (fun p m' => ∃ s', restoreKs p.1 p.2.2 p.2.1 j = .ok (m', s', j + 4)) ps ms ∧
        (ms.map fun m' => (m'.keygenassist 0)[12 + r.val]) = (ps.map fun p => p.1.getD (j + r.val) 0).map affine := fun ps => by
    induction ps with
    | nil => exact fun _ => ⟨[], .nil, rfl⟩
    | cons p ps ih =>
      intro h
      obtain ⟨ms, h1, h2⟩ := ih fun q hq => h q (List.mem_cons_of_mem _ hq)
      obtain ⟨ht, hs⟩ := h p List.mem_cons_self
      obtain ⟨m', s', e1, -, -, e4⟩ := C96_word p.1 p.2.1 p.2.2 j 0 hs ht
      refine ⟨m' :: ms, .cons ⟨s', e1⟩ h1, ?_⟩
      rw [List.map_cons, List.map_cons, List.map_cons, h2, e4 r, ite_self]
      exact congrArg (· :: _) BitVec.xor_zero
  obtain ⟨ms, h1, h2⟩ := key ps h
  refine ⟨ms, h1, ?_⟩
  rw [h2, parties, List.length_map]

/-- Two parties, as in C96_parties: the constants cancel. Three parties: they add up. -/
example : ([0x57, 0x83].map affine).foldl (· ^^^ ·) (0 : Byte) ≠ affine (0x57 ^^^ 0x83) ∧ ([0x57, 0x83, 0x01].map affine).foldl (· ^^^ ·) (0 : Byte) = affine (0x57 ^^^ 0x83 ^^^ 0x01) := by decide +kernel

/-- The last word of an `m` with bytes 0 to 15, the second of three words of shares. -/
example : (restoreKs (List.replicate 12 0x53) (Vector.ofFn fun i => BitVec.ofNat 8 i.val) (List.replicate 12 0) 4).toOption.map (fun r => (r.1.toList.drop 12, r.2)) =
    some ([0xca, 0xca, 0xca, 0xca], [0, 0, 0, 0, 13, 14, 15, 12, 0, 0, 0, 0], 8) := by decide +kernel

end Banquet.Props
