import Verif.Proofs.AesFull
import Verif.Spec.Xor
import Verif.Model.Banquet

/-! Consequences of the traces for the whole AES functions. -/

namespace Banquet

open Spec.Aes

theorem foldl_xorBytes_length {n : Nat} (l : List Bytes) (a : Bytes) (ha : a.length = n) (hl : ∀ b ∈ l, b.length = n) : (l.foldl xorBytes a).length = n := by
  induction l generalizing a with
  | nil => exact ha
  | cons b l ih =>
    rw [List.foldl_cons]
    exact ih _ (by rw [length_xorBytes, ha, hl b List.mem_cons_self, Nat.min_self]) fun c hc => hl c (List.mem_cons_of_mem _ hc)

theorem foldl_xorBytes_getD {n : Nat} (l : List Bytes) (a : Bytes) (ha : a.length = n) (hl : ∀ b ∈ l, b.length = n) (i : Nat) :
    (l.foldl xorBytes a).getD i 0 = (l.map fun b => b.getD i 0).foldl (· ^^^ ·) (a.getD i 0) := by
  induction l generalizing a with
  | nil => rfl
  | cons b l ih =>
    have hb := hl b List.mem_cons_self
    rw [List.foldl_cons, ih _ (by rw [length_xorBytes, ha, hb, Nat.min_self]) fun c hc => hl c (List.mem_cons_of_mem _ hc), getD_xorBytes (by rw [ha, hb])]
    rfl

/-- The XOR of a nonempty list as a fold. -/
theorem xorOf_eq {n : Nat} (a : Bytes) (l : List Bytes) (ha : a.length = n) (hl : ∀ b ∈ l, b.length = n) : Spec.xorOf n (a :: l) = l.foldl xorBytes a := by
  apply List.ext_getElem
  · rw [foldl_xorBytes_length l a ha hl]
    simp [Spec.xorOf]
  · intro i h1 h2
    have h := foldl_xorBytes_getD l a ha hl i
    rw [List.getD_eq_getElem?_getD, List.getElem?_eq_getElem h2] at h
    rw [show (l.foldl xorBytes a)[i] = (some (l.foldl xorBytes a)[i]).getD 0 from rfl, h]
    unfold Spec.xorOf
    simp only [List.getElem_map, List.getElem_range, List.map_cons, List.foldl_cons, zero_xor']

theorem length_xorOf (n : Nat) (l : List Bytes) : (Spec.xorOf n l).length = n := by simp [Spec.xorOf]

/-- The shared evaluation of several parties. -/
theorem parties_fold (keySize : Nat) (f : Bool) (pt : Bytes) {kl tl : Nat} (ps : List (Bytes × Bytes)) (hps : ∀ q ∈ ps, q.1.length = kl ∧ q.2.length = tl) (k t : Bytes) (hk : k.length = kl) (ht : t.length = tl) :
    (aesParty keySize f ((ps.map (·.1)).foldl xorBytes k) ((ps.map (·.2)).foldl xorBytes t) pt).1 = (ps.map fun q => (aesParty keySize false q.1 q.2 pt).1).foldl xorBytes (aesParty keySize f k t pt).1 ∧
    (aesParty keySize f ((ps.map (·.1)).foldl xorBytes k) ((ps.map (·.2)).foldl xorBytes t) pt).2 = (ps.map fun q => (aesParty keySize false q.1 q.2 pt).2).foldl xorBytes (aesParty keySize f k t pt).2 := by
  induction ps generalizing k t with
  | nil => exact ⟨rfl, rfl⟩
  | cons q ps ih =>
    obtain ⟨hq1, hq2⟩ := hps q List.mem_cons_self
    obtain ⟨_, _, e1, _, _, e2⟩ := aesParty_lin keySize f (hk.trans hq1.symm) (ht.trans hq2.symm) pt
    obtain ⟨i1, i2⟩ := ih (fun p hp => hps p (List.mem_cons_of_mem _ hp)) (xorBytes k q.1) (xorBytes t q.2) (by rw [length_xorBytes, hk, hq1, Nat.min_self]) (by rw [length_xorBytes, ht, hq2, Nat.min_self])
    simp only [List.map_cons, List.foldl_cons]
    rw [i1, i2, e1, e2]
    exact ⟨rfl, rfl⟩

theorem length_codeInputs (keySize : Nat) (h : keySize = 16 ∨ keySize = 24 ∨ keySize = 32) (key pt : Bytes) : (codeInputs (keySize / 4) (nBlocks keySize) key pt).length = sboxCount keySize := by
  obtain ⟨v, _, e⟩ := (aes_tr keySize h key pt).share ((codeInputs (keySize / 4) (nBlocks keySize) key pt).map aesInv) [] [] (by simp)
  have := (aesParty_length keySize true key ((codeInputs (keySize / 4) (nBlocks keySize) key pt).map aesInv) pt).1
  rw [aesParty_eq, e] at this
  simpa using this

theorem mem_codeInputs (keySize : Nat) (key pt : Bytes) (x : Byte) : x ∈ codeInputs (keySize / 4) (nBlocks keySize) key pt ↔ x ∈ sboxInputs (keySize / 4) (nBlocks keySize) key pt :=
  (codeInputs_perm _ _ _ _).mem_iff

/-- `aes_*`: FIPS 197, or false if some S-box input is zero. -/
theorem aesPlain_fips (keySize : Nat) (h : keySize = 16 ∨ keySize = 24 ∨ keySize = 32) (key pt : Bytes) :
    aesPlain keySize key pt = if 0 ∈ sboxInputs (keySize / 4) (nBlocks keySize) key pt then none else some (encrypt (keySize / 4) (nBlocks keySize) key pt) := by
  rw [aesPlain_eq]
  by_cases h0 : 0 ∈ sboxInputs (keySize / 4) (nBlocks keySize) key pt
  · rw [if_pos h0, (aes_tr keySize h key pt).plainZero ((mem_codeInputs _ _ _ _).2 h0)]
  · rw [if_neg h0]
    obtain ⟨v, rfl, e⟩ := (aes_tr keySize h key pt).plain (fun hx => h0 ((mem_codeInputs _ _ _ _).1 hx))
    rw [e]

/-- `aes_*_with_sbox_output` for a usable key. -/
theorem aesSave_fips (keySize : Nat) (h : keySize = 16 ∨ keySize = 24 ∨ keySize = 32) (key pt : Bytes) (h0 : 0 ∉ sboxInputs (keySize / 4) (nBlocks keySize) key pt) :
    aesSave keySize key pt = (some (encrypt (keySize / 4) (nBlocks keySize) key pt),
      (codeInputs (keySize / 4) (nBlocks keySize) key pt, (codeInputs (keySize / 4) (nBlocks keySize) key pt).map aesInv)) := by
  rw [aesSave_eq]
  obtain ⟨v, rfl, e⟩ := (aes_tr keySize h key pt).save (fun hx => h0 ((mem_codeInputs _ _ _ _).1 hx)) ([], [])
  rw [e]
  simp

/-- `aes_*_with_sbox_output` for an unusable key. -/
theorem aesSave_zero (keySize : Nat) (h : keySize = 16 ∨ keySize = 24 ∨ keySize = 32) (key pt : Bytes) (h0 : 0 ∈ sboxInputs (keySize / 4) (nBlocks keySize) key pt) :
    (aesSave keySize key pt).1 = none ∧ (aesSave keySize key pt).2.1.length < sboxCount keySize ∧ (aesSave keySize key pt).2.2.length < sboxCount keySize := by
  rw [aesSave_eq]
  obtain ⟨e, d, _, hl, e2⟩ := (aes_tr keySize h key pt).saveZero ((mem_codeInputs _ _ _ _).2 h0) ([], [])
  rw [length_codeInputs keySize h] at hl
  refine ⟨e, ?_, ?_⟩
  · rw [e2]; simpa using hl
  · rw [e2]; simpa using hl

/-- The shared evaluation with the recorded S-box outputs. -/
theorem aesParty_fips (keySize : Nat) (h : keySize = 16 ∨ keySize = 24 ∨ keySize = 32) (key pt : Bytes) :
    aesParty keySize true key ((codeInputs (keySize / 4) (nBlocks keySize) key pt).map aesInv) pt = (codeInputs (keySize / 4) (nBlocks keySize) key pt, encrypt (keySize / 4) (nBlocks keySize) key pt) := by
  obtain ⟨v, rfl, e⟩ := (aes_tr keySize h key pt).share ((codeInputs (keySize / 4) (nBlocks keySize) key pt).map aesInv) [] [] (by simp)
  rw [aesParty_eq, e, List.nil_append]
  simp only [Option.getD_some]

/-- A shared evaluation in which all products are 1 is an AES evaluation. -/
theorem aesParty_conv (keySize : Nat) (h : keySize = 16 ∨ keySize = 24 ∨ keySize = 32) (key T pt : Bytes)
    (hc : ∀ i < sboxCount keySize, aesMul ((aesParty keySize true key T pt).1.getD i 0) (T.getD i 0) = 1) :
    (aesParty keySize true key T pt).1 = codeInputs (keySize / 4) (nBlocks keySize) key pt ∧ (aesParty keySize true key T pt).2 = encrypt (keySize / 4) (nBlocks keySize) key pt ∧
    0 ∉ sboxInputs (keySize / 4) (nBlocks keySize) key pt := by
  have hl := (aesParty_length keySize true key T pt).1
  rw [← mem_codeInputs]
  obtain ⟨v, _, _, d, _, e, _⟩ := partyM_lin keySize true (rfl : key.length = key.length) (rfl : T.length = T.length) pt [] [] rfl
  rw [aesParty_eq, e, List.nil_append] at hc hl ⊢
  simp only [Option.getD_some] at hc hl ⊢
  obtain ⟨h1, h2, h3⟩ := (aes_tr keySize h key pt).conv T [] v d e (fun i hi => by
    have := hc i (by omega)
    rw [List.getD_eq_getElem?_getD, List.getElem?_eq_getElem hi] at this
    simpa using this)
  exact ⟨h1, h2, h3⟩

end Banquet
