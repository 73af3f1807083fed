import Verif.Proofs.Reduce
import Verif.Model.Macros
import Mathlib.Data.Nat.Log

/-! Barrett reduction and `ceil_log2`. -/

namespace Banquet

open Polynomial Spec

/-- A linear function into words that agrees with another on the basis agrees everywhere below the bound. -/
theorem IsLin.ext_basis {m n : Nat} {f g : BitVec m → BitVec n} (hf : IsLin f) (hg : IsLin g) (k : Nat) (hk : k ≤ m)
    (h : ∀ i < k, f (1#m <<< i) = g (1#m <<< i)) (x : BitVec m) (hx : x.toNat < 2 ^ k) : f x = g x := by
  have hf0 : f 0 = 0 := by have := hf 0 0; simpa using this
  have hg0 : g 0 = 0 := by have := hg 0 0; simpa using this
  induction k generalizing x with
  | zero =>
    have : x = 0 := BitVec.eq_of_toNat_eq (by simpa using hx)
    rw [this, hf0, hg0]
  | succ k ih =>
    by_cases hb : x.getLsbD k
    · have hy : (x ^^^ (1#m <<< k)).toNat < 2 ^ k := by
        apply lt_of_getLsbD
        intro i hi
        rw [BitVec.getLsbD_xor, BitVec.getLsbD_shiftLeft, BitVec.getLsbD_one]
        by_cases hik : i = k
        · subst hik
          simp [hb]; omega
        · rw [getLsbD_of_lt x hx (by omega)]
          simp; omega
      have h1 := ih (by omega) (fun i hi => h i (by omega)) _ hy
      have h2 := h k (by omega)
      generalize (1#m <<< k) = y at h1 h2
      rw [hf, hg, h2] at h1
      have := congrArg (· ^^^ g y) h1
      simpa [BitVec.xor_assoc] using this
    · apply ih (by omega) (fun i hi => h i (by omega))
      apply lt_of_getLsbD
      intro i hi
      by_cases hik : i = k
      · simpa [hik] using hb
      · exact getLsbD_of_lt x hx (by omega)

theorem clmul_xor_left (a b c : W64) : clmul (a ^^^ b) c = clmul a c ^^^ clmul b c := by
  apply wordPoly_injective
  rw [wordPoly_clmul, wordPoly_xor, wordPoly_xor, wordPoly_clmul, wordPoly_clmul, add_mul]

theorem IsLin.clmul {m : Nat} {f : BitVec m → W64} (hf : IsLin f) (c : W64) : IsLin fun x => Banquet.clmul (f x) c := by
  intro x y
  show Banquet.clmul (f (x ^^^ y)) c = _
  rw [hf, clmul_xor_left]

theorem IsLin.lo {m : Nat} {f : BitVec m → W128} (hf : IsLin f) : IsLin fun x => lo64 (f x) := by
  intro x y
  show lo64 (f (x ^^^ y)) = _
  rw [hf, lo64_xor]

theorem reduce32Barret_lin : IsLin reduce32Barret := by
  have u : IsLin fun x : W128 => lo64 x >>> 32 := isLin_lo.shr 32
  have t1 := (u.clmul ((1#64 <<< 32) ||| (1#64 <<< 7) ||| (1#64 <<< 3) ||| (1#64 <<< 2) ||| (1#64 <<< 0))).lo
  have t2 := ((t1.shr 32).clmul ((1#64 <<< 32) ||| (1#64 <<< 7) ||| (1#64 <<< 3) ||| (1#64 <<< 2) ||| (1#64 <<< 0))).lo
  exact (isLin_lo.xor t2).mask 0xFFFFFFFF#64

set_option maxRecDepth 100000 in
theorem barret_basis : ∀ i < 128, reduce32Barret (1#128 <<< i) = reduce32 (1#128 <<< i) := by decide +kernel

theorem barret_eq (x : W128) : reduce32Barret x = reduce32 x :=
  reduce32Barret_lin.ext_basis reduce32_lin 128 le_rfl barret_basis x x.isLt

/-! ## ceil_log2 -/

theorem clz32_eq (x : BitVec 32) : 32 - clz32 x = Nat.clog 2 (x.toNat + 1) := by
  unfold clz32 builtinClz32
  split
  · rename_i h; subst h; simp
  · rename_i h
    have h0 : x.toNat ≠ 0 := fun hc => h (BitVec.eq_of_toNat_eq (by simpa using hc))
    have hl : Nat.log2 x.toNat < 32 := (Nat.log2_lt h0).2 x.isLt
    rw [show 32 - (31 - Nat.log2 x.toNat) = Nat.log2 x.toNat + 1 by omega, Nat.log2_eq_log_two]
    apply le_antisymm
    · rw [Nat.succ_le_iff, Nat.lt_clog_iff_pow_lt (by norm_num)]
      have := Nat.pow_log_le_self 2 h0
      omega
    · rw [Nat.clog_le_iff_le_pow (by norm_num)]
      exact Nat.lt_pow_succ_log_self (by norm_num) _

theorem ceilLog2_eq (x : Nat) (hx : x < 2 ^ 32) : ceilLog2 x = Nat.clog 2 x := by
  unfold ceilLog2
  by_cases h : x = 0
  · subst h; simp
  · have h1 : BitVec.ofNat 32 x ≠ 0 := by
      intro hc
      have := congrArg BitVec.toNat hc
      simp only [BitVec.toNat_ofNat, Nat.mod_eq_of_lt hx, show (0 : BitVec 32).toNat = 0 from rfl] at this
      exact h this
    simp only [h1, if_false]
    rw [clz32_eq]
    congr 1
    rw [BitVec.toNat_sub_of_le]
    · simp; omega
    · rw [BitVec.le_def]; simp; omega

/-- State of the portable `clz`: `n` and the shifted `x`. -/
def ClzInv (x : BitVec 32) (s : Nat) (st : BitVec 32 × BitVec 32) : Prop :=
  st.2 ≠ 0 ∧ 2 ^ (32 - s) ≤ st.2.toNat ∧ st.1.toNat + (31 - Nat.log2 st.2.toNat) = 1 + (31 - Nat.log2 x.toNat)

theorem clz_step (x : BitVec 32) (s : Nat) (hs : 0 < s) (hs2 : 2 * s ≤ 32) (st : BitVec 32 × BitVec 32) (h : ClzInv x (2 * s) st) :
    ClzInv x s (if st.2 >>> (32 - s) = 0 then (st.1 + BitVec.ofNat 32 s, st.2 <<< s) else st) := by
  obtain ⟨n, y⟩ := st
  obtain ⟨h0, h1, h2⟩ := h
  simp only at h0 h1 h2
  have hy0 : y.toNat ≠ 0 := fun hc => h0 (BitVec.eq_of_toNat_eq (by simpa using hc))
  have hlog : Nat.log2 y.toNat < 32 := (Nat.log2_lt hy0).2 y.isLt
  by_cases hz : y >>> (32 - s) = 0
  · rw [if_pos hz]
    have hlt : y.toNat < 2 ^ (32 - s) := by
      have := congrArg BitVec.toNat hz
      simp only [BitVec.toNat_ushiftRight, Nat.shiftRight_eq_div_pow] at this
      have h3 : y.toNat / 2 ^ (32 - s) = 0 := by simpa using this
      exact (Nat.div_eq_zero_iff.1 h3).resolve_left (by positivity)
    have hlog2 : Nat.log2 y.toNat < 32 - s := (Nat.log2_lt hy0).2 hlt
    have hsh : (y <<< s).toNat = y.toNat * 2 ^ s := by
      rw [BitVec.toNat_shiftLeft, Nat.shiftLeft_eq, Nat.mod_eq_of_lt]
      calc y.toNat * 2 ^ s < 2 ^ (32 - s) * 2 ^ s := Nat.mul_lt_mul_of_pos_right hlt (by positivity)
        _ = 2 ^ 32 := by rw [← pow_add]; congr 1; omega
    have hl : Nat.log2 (y <<< s).toNat = Nat.log2 y.toNat + s := by
      rw [hsh, Nat.log2_eq_log_two, Nat.log2_eq_log_two]
      clear h1 h2 hlt hlog hlog2 hsh hz
      induction s with
      | zero => simp
      | succ k ih =>
        rcases Nat.eq_zero_or_pos k with rfl | hk
        · simp only [zero_add, pow_one]; exact Nat.log_mul_base (by norm_num) hy0
        · rw [pow_succ, ← mul_assoc, Nat.log_mul_base (by norm_num) (by positivity), ih hk (by omega)]; rfl
    refine ⟨?_, ?_, ?_⟩
    · intro hc
      simp only at hc
      rw [hc] at hsh
      have : y.toNat * 2 ^ s ≠ 0 := by positivity
      exact this (by simpa using hsh.symm)
    · simp only; rw [hsh]
      calc 2 ^ (32 - s) = 2 ^ (32 - 2 * s) * 2 ^ s := by rw [← pow_add]; congr 1; omega
        _ ≤ _ := Nat.mul_le_mul_right _ h1
    · simp only
      rw [hl, BitVec.toNat_add, BitVec.toNat_ofNat, Nat.mod_eq_of_lt (by omega : s < 2 ^ 32), Nat.mod_eq_of_lt (by omega)]
      omega
  · rw [if_neg hz]
    refine ⟨h0, ?_, h2⟩
    by_contra hc
    apply hz
    apply BitVec.eq_of_toNat_eq
    simp only [BitVec.toNat_ushiftRight, Nat.shiftRight_eq_div_pow]
    rw [Nat.div_eq_of_lt (by simpa using hc)]; rfl

theorem clzFallback_eq (x : BitVec 32) : (clz32Fallback x).toNat = clz32 x := by
  unfold clz32Fallback clz32 builtinClz32
  by_cases hx : x = 0
  · simp [hx]
  · have hx0 : x.toNat ≠ 0 := fun hc => hx (BitVec.eq_of_toNat_eq (by simpa using hc))
    rw [if_neg hx, if_neg hx]
    have h0 : ClzInv x (2 * 16) (1, x) := ⟨hx, by simp; omega, rfl⟩
    have h1 := clz_step x 16 (by norm_num) (by norm_num) _ h0
    generalize hst1 : (if ((1, x) : BitVec 32 × BitVec 32).2 >>> (32 - 16) = 0 then _ else _ : BitVec 32 × BitVec 32) = st1 at h1
    have h2 := clz_step x 8 (by norm_num) (by norm_num) _ h1
    generalize hst2 : (if st1.2 >>> (32 - 8) = 0 then _ else _ : BitVec 32 × BitVec 32) = st2 at h2
    have h3 := clz_step x 4 (by norm_num) (by norm_num) _ h2
    generalize hst3 : (if st2.2 >>> (32 - 4) = 0 then _ else _ : BitVec 32 × BitVec 32) = st3 at h3
    have h4 := clz_step x 2 (by norm_num) (by norm_num) _ h3
    generalize hst4 : (if st3.2 >>> (32 - 2) = 0 then _ else _ : BitVec 32 × BitVec 32) = st4 at h4
    have e1 : (if x >>> 16 = 0 then ((1 : BitVec 32) + 16, x <<< 16) else (1, x)) = st1 := hst1
    have e2 : (if st1.2 >>> 24 = 0 then (st1.1 + 8, st1.2 <<< 8) else (st1.1, st1.2)) = st2 := hst2
    have e3 : (if st2.2 >>> 28 = 0 then (st2.1 + 4, st2.2 <<< 4) else (st2.1, st2.2)) = st3 := hst3
    have e4 : (if st3.2 >>> 30 = 0 then (st3.1 + 2, st3.2 <<< 2) else (st3.1, st3.2)) = st4 := hst4
    have e : (let st1 := (if x >>> 16 = 0 then ((1 : BitVec 32) + 16, x <<< 16) else (1, x))
        let st2 := (if st1.2 >>> 24 = 0 then (st1.1 + 8, st1.2 <<< 8) else (st1.1, st1.2))
        let st3 := (if st2.2 >>> 28 = 0 then (st2.1 + 4, st2.2 <<< 4) else (st2.1, st2.2))
        let st4 := (if st3.2 >>> 30 = 0 then (st3.1 + 2, st3.2 <<< 2) else (st3.1, st3.2))
        (st4.1 - (st4.2 >>> 31)).toNat) = 31 - Nat.log2 x.toNat := by
      simp only [e1, e2, e3, e4]
      obtain ⟨g0, g1, g2⟩ := h4
      have hlt := st4.2.isLt
      have hy0 : st4.2.toNat ≠ 0 := fun hc => g0 (BitVec.eq_of_toNat_eq (by simpa using hc))
      have hshift : (st4.2 >>> 31).toNat = st4.2.toNat / 2 ^ 31 := by
        simp only [BitVec.toNat_ushiftRight, Nat.shiftRight_eq_div_pow]
      have hlog := Nat.log2_lt hx0 (k := 32) |>.2 x.isLt
      have hl30 : 30 ≤ Nat.log2 st4.2.toNat := (Nat.le_log2 hy0).2 g1
      rw [BitVec.toNat_sub, hshift]
      by_cases hb : st4.2.toNat < 2 ^ 31
      · have := (Nat.log2_lt hy0 (k := 31)).2 hb
        rw [Nat.div_eq_of_lt hb]
        omega
      · have h31 : 31 ≤ Nat.log2 st4.2.toNat := (Nat.le_log2 hy0).2 (by omega)
        have : st4.2.toNat / 2 ^ 31 = 1 := by omega
        rw [this]
        omega
    exact e

end Banquet
