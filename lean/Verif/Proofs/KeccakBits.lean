import Mathlib.Tactic.IntervalCases
import Mathlib.Tactic.Ring
import Mathlib.Tactic.Positivity
import Verif.Spec.KeccakHash
import Verif.Model.KeccakHash

/-! Bit strings and byte strings: the padding of the code, byte by byte, is `pad10*1`. -/

namespace Banquet

open Spec

theorem repAdd {α : Type} (m n : Nat) (a : α) : List.replicate (m + n) a = List.replicate m a ++ List.replicate n a := List.replicate_append_replicate.symm

theorem bitsOf_append (a b : Bytes) : bitsOf (a ++ b) = bitsOf a ++ bitsOf b := by simp [bitsOf]

theorem bitsOf_length (a : Bytes) : (bitsOf a).length = 8 * a.length := by
  induction a with
  | nil => rfl
  | cons x a ih =>
    rw [show x :: a = [x] ++ a from rfl, bitsOf_append, List.length_append, ih, List.length_append, List.length_singleton]
    have : (bitsOf [x]).length = 8 := by simp [bitsOf]
    omega

theorem bitsOf_get (a : Bytes) (i j : Nat) (hj : j < 8) : (bitsOf a).getD (8 * i + j) false = (a.getD i 0).getLsbD j := by
  induction a generalizing i with
  | nil => simp [bitsOf]
  | cons x a ih =>
    have e : bitsOf (x :: a) = ((List.range 8).map fun i => x.getLsbD i) ++ bitsOf a := by simp [bitsOf]
    rw [e, List.getD_eq_getElem?_getD]
    cases i with
    | zero =>
      rw [List.getElem?_append_left (by simp; omega)]
      simp [hj]
    | succ i =>
      rw [List.getElem?_append_right (by simp; omega), List.length_map, List.length_range, show 8 * (i + 1) + j - 8 = 8 * i + j by omega, ← List.getD_eq_getElem?_getD, ih]
      rfl

theorem byteOfBits_get (b : Byte) : byteOfBits (fun j => b.getLsbD j) = b := by
  obtain ⟨n⟩ := b
  revert n
  decide +kernel

theorem byteOfBits_congr (f g : Nat → Bool) (h : ∀ j < 8, f j = g j) : byteOfBits f = byteOfBits g := by
  simp only [byteOfBits, List.range, List.range.loop, List.foldl_cons, List.foldl_nil]
  rw [h 0 (by omega), h 1 (by omega), h 2 (by omega), h 3 (by omega), h 4 (by omega), h 5 (by omega), h 6 (by omega), h 7 (by omega)]

theorem pack_bitsOf (a : Bytes) : pack (bitsOf a) = a := by
  apply List.ext_getElem?
  intro i
  rw [pack, bitsOf_length, Nat.mul_div_cancel_left _ (by omega)]
  by_cases hi : i < a.length
  · rw [List.getElem?_map, List.getElem?_range hi, Option.map_some, List.getElem?_eq_getElem hi]
    refine congrArg some ?_
    rw [byteOfBits_congr _ (fun j => (a.getD i 0).getLsbD j) (fun j hj => bitsOf_get a i j hj), byteOfBits_get, List.getD_eq_getElem?_getD, List.getElem?_eq_getElem hi]
    rfl
  · rw [List.getElem?_eq_none (by simp; omega), List.getElem?_eq_none (by omega)]

theorem bitsOf_zeros (k : Nat) : bitsOf (List.replicate k 0) = List.replicate (8 * k) false := by
  induction k with
  | zero => rfl
  | succ k ih =>
    rw [List.replicate_succ, show (0 : Byte) :: List.replicate k 0 = [0] ++ List.replicate k 0 from rfl, bitsOf_append, ih, show 8 * (k + 1) = 8 + 8 * k by omega, repAdd]
    rfl

theorem log2_lt (d : Byte) : Nat.log2 d.toNat < 8 := by
  by_cases h : d.toNat = 0
  · rw [h]; decide
  · exact (Nat.log2_lt h).2 d.isLt

theorem bitsOf_delim (d : Byte) (h : d ≠ 0) : bitsOf [d] = suffixBits d ++ [true] ++ List.replicate (7 - Nat.log2 d.toNat) false := by
  obtain ⟨n⟩ := d
  revert n
  decide +kernel

theorem bitsOf_delim_last (d : Byte) (h : d ≠ 0) (h' : ¬ d ≥ 0x80) : bitsOf [d ^^^ 0x80] = suffixBits d ++ [true] ++ List.replicate (6 - Nat.log2 d.toNat) false ++ [true] := by
  obtain ⟨n⟩ := d
  revert n
  decide +kernel

theorem log2_small (d : Byte) (h' : ¬ d ≥ 0x80) : Nat.log2 d.toNat < 7 := by
  obtain ⟨n⟩ := d
  revert n
  decide +kernel

theorem log2_big (d : Byte) (h' : d ≥ 0x80) : Nat.log2 d.toNat = 7 := by
  obtain ⟨n⟩ := d
  revert n
  decide +kernel

theorem suffixBits_length (d : Byte) : (suffixBits d).length = Nat.log2 d.toNat := by simp [suffixBits, lowBits]

/-- What the code absorbs: message, delimited suffix, zeros, last bit of the block. -/
def padWith (d : Byte) (rate : Nat) (msg : Bytes) : Bytes :=
  let z := rate - msg.length % rate
  msg ++ (if z = 1 then (if d ≥ 0x80 then [d] ++ (List.replicate (rate - 1) 0 ++ [0x80]) else [d ^^^ 0x80]) else [d] ++ List.replicate (z - 2) 0 ++ [0x80])

/-- The number of zeros, by its defining congruence. -/
theorem emod_of (a : Int) (x j k : Nat) (hj : j < x) (h' : a + k * (x : Int) = j) : (a % (x : Int)).toNat = j := by
  have e : a = j + (x : Int) * (-(k : Int)) := by rw [Int.mul_neg, Int.mul_comm]; omega
  rw [e, Int.add_mul_emod_self_left, Int.emod_eq_of_lt (by omega) (by omega)]
  rfl

theorem padWith_bits (d : Byte) (hd : d ≠ 0) (rate : Nat) (hr : 0 < rate) (msg : Bytes) :
    bitsOf (padWith d rate msg) = (bitsOf msg ++ suffixBits d) ++ pad101 (8 * rate) (bitsOf msg ++ suffixBits d).length := by
  have hm := Nat.mod_lt msg.length hr
  have hdm := Nat.div_add_mod msg.length rate
  have hl := log2_lt d
  have key : ∀ j : Nat, j < 8 * rate → ((8 * (rate - msg.length % rate) : Nat) - 2 - (Nat.log2 d.toNat : Nat) : Int) = j ∨ ((8 * (rate - msg.length % rate) : Nat) - 2 - (Nat.log2 d.toNat : Nat) : Int) + 8 * rate = j →
      ((-((8 * msg.length + Nat.log2 d.toNat : Nat) : Int) - 2) % ((8 * rate : Nat) : Int)).toNat = j := fun j hj h => by
    have e1 : (msg.length : Int) = rate * (msg.length / rate : Nat) + (msg.length % rate : Nat) := by exact_mod_cast hdm.symm
    rcases h with h | h
    · have c : (-((8 * msg.length + Nat.log2 d.toNat : Nat) : Int) - 2) + ((msg.length / rate + 1 : Nat) : Int) * ((8 * rate : Nat) : Int) = j := by
        push_cast
        rw [Nat.cast_mul, Nat.cast_sub hm.le] at h
        push_cast at h e1
        have : ((msg.length : Int) / rate + 1) * (8 * rate) = 8 * (rate * (msg.length / rate) + rate) := by ring
        rw [this]
        omega
      exact emod_of _ _ j _ hj c
    · have c : (-((8 * msg.length + Nat.log2 d.toNat : Nat) : Int) - 2) + ((msg.length / rate + 2 : Nat) : Int) * ((8 * rate : Nat) : Int) = j := by
        push_cast
        rw [Nat.cast_mul, Nat.cast_sub hm.le] at h
        push_cast at h e1
        have : ((msg.length : Int) / rate + 2) * (8 * rate) = 8 * (rate * (msg.length / rate) + rate) + 8 * rate := by ring
        rw [this]
        omega
      exact emod_of _ _ j _ hj c
  have len : (bitsOf msg ++ suffixBits d).length = 8 * msg.length + Nat.log2 d.toNat := by rw [List.length_append, bitsOf_length, suffixBits_length]
  have b80 : bitsOf [0x80] = List.replicate 7 false ++ [true] := by decide
  unfold padWith pad101
  simp only
  rw [len, bitsOf_append]
  by_cases hz : rate - msg.length % rate = 1
  · rw [if_pos hz]
    by_cases h80 : d ≥ 0x80
    · rw [if_pos h80, key (8 * rate - 1) (by omega) (.inr (by rw [hz, log2_big d h80]; omega)), bitsOf_append, bitsOf_append, bitsOf_zeros, b80, bitsOf_delim d hd, log2_big d h80,
        show 8 * rate - 1 = 8 * (rate - 1) + 7 by omega, repAdd]
      simp
    · have hs := log2_small d h80
      rw [if_neg h80, key (6 - Nat.log2 d.toNat) (by omega) (.inl (by rw [hz]; omega)), bitsOf_delim_last d hd h80]
      simp
  · rw [if_neg hz, key (7 - Nat.log2 d.toNat + 8 * (rate - msg.length % rate - 2) + 7) (by omega) (.inl (by omega)), bitsOf_append, bitsOf_append, bitsOf_zeros, b80, bitsOf_delim d hd, repAdd, repAdd]
    simp

theorem pack_pad (d : Byte) (hd : d ≠ 0) (rate : Nat) (hr : 0 < rate) (msg : Bytes) :
    pack ((bitsOf msg ++ suffixBits d) ++ pad101 (8 * rate) (bitsOf msg ++ suffixBits d).length) = padWith d rate msg := by
  rw [← padWith_bits d hd rate hr, pack_bitsOf]

/-! ## A message that is not a whole number of bytes -/

theorem delim_toNat (l d : Byte) (n : Nat) (hn : n < 8) : (delimitedLast l d n).toNat = l.toNat % 2 ^ n ||| d.toNat <<< n := by
  have hl := l.isLt
  have hd := d.isLt
  have h1 : d.toNat <<< n < 2 ^ 16 := by
    rw [Nat.shiftLeft_eq]
    calc d.toNat * 2 ^ n < 2 ^ 8 * 2 ^ n := (Nat.mul_lt_mul_right (by positivity)).2 hd
      _ ≤ 2 ^ 8 * 2 ^ 8 := Nat.mul_le_mul_left _ (Nat.pow_le_pow_right (by omega) (by omega))
  have h2 : 2 ^ n - 1 < 2 ^ 16 := by
    have : 2 ^ n ≤ 2 ^ 8 := Nat.pow_le_pow_right (by omega) (by omega)
    omega
  rw [delimitedLast, BitVec.toNat_or, BitVec.toNat_and, BitVec.toNat_shiftLeft, BitVec.toNat_ofNat, BitVec.toNat_setWidth, BitVec.toNat_setWidth, Nat.mod_eq_of_lt (by omega : l.toNat < 2 ^ 16),
    Nat.mod_eq_of_lt (by omega : d.toNat < 2 ^ 16), Nat.mod_eq_of_lt h1, Nat.mod_eq_of_lt h2, Nat.and_two_pow_sub_one_eq_mod]

/-- The bits of the 16 bit value are the last bits of the message, the bits of the suffix and the delimiter. -/
theorem delim_bit (l d : Byte) (n : Nat) (hn : n < 8) (i : Nat) : (delimitedLast l d n).getLsbD i = if i < n then l.getLsbD i else d.getLsbD (i - n) := by
  rw [BitVec.getLsbD, delim_toNat l d n hn, Nat.testBit_or, Nat.testBit_mod_two_pow, Nat.testBit_shiftLeft]
  by_cases h : i < n
  · simp [h, BitVec.getLsbD, Nat.not_le.2 h]
  · simp [h, BitVec.getLsbD, Nat.not_lt.1 h]

end Banquet
