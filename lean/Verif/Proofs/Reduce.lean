import Verif.Proofs.WordPoly
import Verif.Model.Field

namespace Banquet

open Polynomial Spec

theorem clmul_fold (a b : W64) (k : Nat) (hk : k ≤ 64) :
    wordPoly ((List.range k).foldl (fun (acc : W128) i => if b.getLsbD i then acc ^^^ (a.setWidth 128 <<< i) else acc) 0)
      = wordPoly a * ∑ i ∈ Finset.range k, if b.getLsbD i then X ^ i else 0 := by
  induction k with
  | zero => rw [List.range_zero, List.foldl_nil, wordPoly_zero, Finset.range_zero, Finset.sum_empty, mul_zero]
  | succ k ih =>
    rw [List.range_succ, List.foldl_append, Finset.sum_range_succ, mul_add, ← ih (by omega)]
    simp only [List.foldl_cons, List.foldl_nil]
    by_cases hb : b.getLsbD k
    · have ha : a.toNat < 2 ^ 64 := a.isLt
      rw [if_pos hb, if_pos hb, wordPoly_xor, wordPoly_shiftLeft, wordPoly_setWidth]
      · exact lt_of_lt_of_le ha (Nat.pow_le_pow_right (by norm_num) (by omega))
      · rw [BitVec.toNat_setWidth]
        refine lt_of_le_of_lt (Nat.mod_le _ _) (lt_of_lt_of_le ha (Nat.pow_le_pow_right (by norm_num) (by omega)))
    · simp [hb]

theorem wordPoly_clmul (a b : W64) : wordPoly (clmul a b) = wordPoly a * wordPoly b := by
  unfold clmul
  rw [clmul_fold a b 64 le_rfl]
  rfl

theorem clmul_comm (a b : W64) : clmul a b = clmul b a := by
  apply wordPoly_injective
  rw [wordPoly_clmul, wordPoly_clmul, mul_comm]

/-- Product of words below `2^k` and `2^l` (`k ≥ 1`). -/
theorem clmul_lt {a b : W64} {k l : Nat} (ha : a.toNat < 2 ^ (k + 1)) (hb : b.toNat < 2 ^ l) : (clmul a b).toNat < 2 ^ (k + l) := by
  rw [← degree_wordPoly_lt, wordPoly_clmul] at *
  rw [degree_lt_iff_coeff_zero]
  intro i hi
  rw [coeff_mul]
  apply Finset.sum_eq_zero
  rintro ⟨x, y⟩ hxy
  rw [Finset.mem_antidiagonal] at hxy
  simp only at hxy ⊢
  by_cases hx : k + 1 ≤ x
  · rw [coeff_eq_zero_of_degree_lt (lt_of_lt_of_le ha (by exact_mod_cast hx)), zero_mul]
  · rw [coeff_eq_zero_of_degree_lt (lt_of_lt_of_le hb (by exact_mod_cast (by omega : l ≤ y))), mul_zero]

/-- Multiplication by `X` of a word of `n` bits modulo a polynomial of degree `n`. -/
def xtimeW (n : Nat) (p w : W64) : W64 := if w.getLsbD (n - 1) then (w <<< 1) ^^^ p else w <<< 1

theorem wordPoly_xtimeW {n : Nat} (hn : n < 64) (p w : W64) (hw : w.toNat < 2 ^ n) : wordPoly p ∣ wordPoly (xtimeW n p w) - wordPoly w * X := by
  have h : wordPoly (w <<< 1) = wordPoly w * X := by
    rw [wordPoly_shiftLeft, pow_one]
    exact lt_of_lt_of_le hw (Nat.pow_le_pow_right (by norm_num) (by omega))
  unfold xtimeW
  split
  · rw [wordPoly_xor, h, add_sub_cancel_left]
  · rw [h, sub_self]; exact dvd_zero _

/-- What has to be checked about a reduction function: linear, output of `n` bits, correct on powers of `X`. -/
structure ReduceOk (n : Nat) (p : W64) (R : W128 → W64) : Prop where
  npos : 0 < n
  nlt : n < 64
  xor : ∀ x y, R (x ^^^ y) = R x ^^^ R y
  lt : ∀ x, (R x).toNat < 2 ^ n
  one : R 1 = 1
  step : ∀ i < 2 * n - 2, R (1#128 <<< (i + 1)) = xtimeW n p (R (1#128 <<< i))

namespace ReduceOk
variable {n : Nat} {p : W64} {R : W128 → W64}

theorem zero (h : ReduceOk n p R) : R 0 = 0 := by
  have := h.xor 0 0
  simpa using this

theorem pow (h : ReduceOk n p R) (i : Nat) (hi : i < 2 * n - 1) : wordPoly p ∣ wordPoly (R (1#128 <<< i)) - X ^ i := by
  have hn := h.nlt
  induction i with
  | zero =>
    have : R (1#128 <<< 0) = 1 := by simpa using h.one
    rw [this, show (1 : W64) = 1#64 from rfl, wordPoly_one (by norm_num)]
    simp
  | succ i ih =>
    rw [h.step i (by omega)]
    have h1 := wordPoly_xtimeW h.nlt p _ (h.lt (1#128 <<< i))
    have h2 := ih (by omega)
    have : wordPoly (xtimeW n p (R (1#128 <<< i))) - X ^ (i + 1)
      = (wordPoly (xtimeW n p (R (1#128 <<< i))) - wordPoly (R (1#128 <<< i)) * X) + (wordPoly (R (1#128 <<< i)) - X ^ i) * X := by ring
    rw [this]
    exact dvd_add h1 (h2.mul_right _)

theorem dvd_aux (h : ReduceOk n p R) (x : W128) (k : Nat) (hk : k ≤ 2 * n - 1) (hx : x.toNat < 2 ^ k) : wordPoly p ∣ wordPoly (R x) - wordPoly x := by
  have hn := h.nlt
  induction k generalizing x with
  | zero =>
    have : x = 0 := by
      apply BitVec.eq_of_toNat_eq
      simpa using hx
    rw [this, h.zero, wordPoly_zero, wordPoly_zero]
    simp
  | succ k ih =>
    by_cases hb : x.getLsbD k
    · have hy : (x ^^^ (1#128 <<< k)).toNat < 2 ^ k := by
        apply lt_of_getLsbD
        intro i hi
        rw [BitVec.getLsbD_xor, BitVec.getLsbD_shiftLeft, BitVec.getLsbD_one]
        by_cases hik : i = k
        · subst hik
          simp [hb]; omega
        · rw [getLsbD_of_lt x hx (by omega)]
          simp; omega
      have h1 := ih _ (by omega) hy
      have h2 := h.pow k (by omega)
      have h3 : wordPoly (1#128 <<< k) = X ^ k := wordPoly_twoPow (n := 128) k (by omega)
      generalize (1#128 <<< k) = y at h1 h2 h3
      have e : wordPoly (R (x ^^^ y)) - wordPoly (x ^^^ y) = wordPoly (R x) + wordPoly (R y) - (wordPoly x + X ^ k) := by
        rw [ReduceOk.xor h x y, wordPoly_xor, wordPoly_xor x y, h3]
      rw [e] at h1
      have : wordPoly (R x) - wordPoly x = (wordPoly (R x) + wordPoly (R y) - (wordPoly x + X ^ k)) - (wordPoly (R y) - X ^ k) := by ring
      rw [this]
      exact dvd_sub h1 h2
    · apply ih x (by omega)
      apply lt_of_getLsbD
      intro i hi
      by_cases hik : i = k
      · simpa [hik] using hb
      · exact getLsbD_of_lt x hx (by omega)

theorem dvd (h : ReduceOk n p R) {x : W128} (hx : x.toNat < 2 ^ (2 * n - 1)) : wordPoly p ∣ wordPoly (R x) - wordPoly x :=
  h.dvd_aux x _ le_rfl hx

/-- The product of reduced elements is reduced correctly. -/
theorem mul_dvd (h : ReduceOk n p R) {a b : W64} (ha : a.toNat < 2 ^ n) (hb : b.toNat < 2 ^ n) :
    wordPoly p ∣ wordPoly (R (clmul a b)) - wordPoly a * wordPoly b := by
  have hn := h.npos
  rw [← wordPoly_clmul]
  apply h.dvd
  have := clmul_lt (k := n - 1) (l := n) (a := a) (b := b) (by rwa [Nat.sub_add_cancel hn]) hb
  rwa [show 2 * n - 1 = n - 1 + n by omega]

end ReduceOk

theorem lo64_xor (x y : W128) : lo64 (x ^^^ y) = lo64 x ^^^ lo64 y := by simp [lo64]
theorem hi64_xor (x y : W128) : hi64 (x ^^^ y) = hi64 x ^^^ hi64 y := by
  unfold hi64
  rw [BitVec.ushiftRight_xor_distrib, BitVec.setWidth_xor]

theorem and_lt_of_mask (m x : W64) {k : Nat} (h : m.toNat < 2 ^ k) : (m &&& x).toNat < 2 ^ k := by
  rw [BitVec.toNat_and]
  exact lt_of_le_of_lt Nat.and_le_left h

theorem xor_and_left (m x y : W64) : m &&& (x ^^^ y) = (m &&& x) ^^^ (m &&& y) := by
  ext i; simp [Bool.and_xor_distrib_left]

/-- XOR-linear functions. -/
def IsLin {m n : Nat} (f : BitVec m → BitVec n) : Prop := ∀ x y, f (x ^^^ y) = f x ^^^ f y

theorem IsLin.xor {m n : Nat} {f g : BitVec m → BitVec n} (hf : IsLin f) (hg : IsLin g) : IsLin fun x => f x ^^^ g x := by
  intro x y
  show f (x ^^^ y) ^^^ g (x ^^^ y) = (f x ^^^ g x) ^^^ (f y ^^^ g y)
  rw [hf, hg]
  generalize f x = a, f y = b, g x = c, g y = d
  ac_rfl

theorem IsLin.shr {m n : Nat} {f : BitVec m → BitVec n} (hf : IsLin f) (k : Nat) : IsLin fun x => f x >>> k := by
  intro x y
  show f (x ^^^ y) >>> k = _
  rw [hf, BitVec.ushiftRight_xor_distrib]

theorem IsLin.shl {m n : Nat} {f : BitVec m → BitVec n} (hf : IsLin f) (k : Nat) : IsLin fun x => f x <<< k := by
  intro x y
  show f (x ^^^ y) <<< k = _
  rw [hf, BitVec.shiftLeft_xor_distrib]

theorem IsLin.mask {m n : Nat} {f : BitVec m → BitVec n} (hf : IsLin f) (c : BitVec n) : IsLin fun x => c &&& f x := by
  intro x y
  show c &&& f (x ^^^ y) = (c &&& f x) ^^^ (c &&& f y)
  rw [hf]
  generalize f x = a, f y = b
  ext i; simp [Bool.and_xor_distrib_left]

theorem or_eq_xor_of_disjoint (a b : W64) {k : Nat} (ha : ∀ i < k, a.getLsbD i = false) (hb : b.toNat < 2 ^ k) : a ||| b = a ^^^ b := by
  apply BitVec.eq_of_getLsbD_eq
  intro i hi
  simp only [BitVec.getLsbD_or, BitVec.getLsbD_xor]
  by_cases h : i < k
  · rw [ha i h]; simp
  · rw [getLsbD_of_lt b hb (by omega)]; simp

theorem shiftRight_lt (a : W64) (k l : Nat) (h : 64 ≤ k + l) : (a >>> k).toNat < 2 ^ l := by
  apply lt_of_getLsbD
  intro i hi
  rw [BitVec.getLsbD_ushiftRight]
  exact BitVec.getLsbD_of_ge _ _ (by omega)

theorem getLsbD_shiftLeft_low (a : W64) (k : Nat) : ∀ i < k, (a <<< k).getLsbD i = false := by
  intro i hi
  rw [BitVec.getLsbD_shiftLeft]
  simp [hi]

theorem isLin_lo : IsLin lo64 := lo64_xor
theorem isLin_hi : IsLin hi64 := hi64_xor

theorem reduce16_lin : IsLin reduce16 := by
  have u : IsLin fun x : W128 => lo64 x >>> 16 := isLin_lo.shr 16
  have v := ((u.xor (u.shr 11)).xor (u.shr 13)).xor (u.shr 15)
  exact ((((isLin_lo.xor (v.shl 5)).xor (v.shl 3)).xor (v.shl 1)).xor (v.shl 0)).mask 0xFFFF#64

theorem reduce32_lin : IsLin reduce32 := by
  have u : IsLin fun x : W128 => lo64 x >>> 32 := isLin_lo.shr 32
  have v := ((u.xor (u.shr 25)).xor (u.shr 29)).xor (u.shr 30)
  exact ((((isLin_lo.xor (v.shl 7)).xor (v.shl 3)).xor (v.shl 2)).xor (v.shl 0)).mask 0xFFFFFFFF#64

theorem upper_lin (m : W64) (k l : Nat) (h : 64 ≤ k + l) : IsLin fun x : W128 => ((hi64 x &&& m) <<< l) ||| (lo64 x >>> k) := by
  have : (fun x : W128 => ((hi64 x &&& m) <<< l) ||| (lo64 x >>> k)) = fun x => ((m &&& hi64 x) <<< l) ^^^ (lo64 x >>> k) := by
    funext x
    rw [or_eq_xor_of_disjoint _ _ (getLsbD_shiftLeft_low _ l) (shiftRight_lt _ k l h), BitVec.and_comm]
  rw [this]
  exact ((isLin_hi.mask m).shl l).xor (isLin_lo.shr k)

theorem reduce40_lin : IsLin reduce40 := by
  have u := upper_lin 0xFFFF#64 40 24 (by norm_num)
  have v := ((u.xor (u.shr 35)).xor (u.shr 36)).xor (u.shr 37)
  exact ((((isLin_lo.xor (v.shl 5)).xor (v.shl 4)).xor (v.shl 3)).xor (v.shl 0)).mask 0xFFFFFFFFFF#64

theorem reduce48_lin : IsLin reduce48 := by
  have u := upper_lin 0xFFFFFFFF#64 48 16 (by norm_num)
  have v := ((u.xor (u.shr 43)).xor (u.shr 45)).xor (u.shr 46)
  exact ((((isLin_lo.xor (v.shl 5)).xor (v.shl 3)).xor (v.shl 2)).xor (v.shl 0)).mask 0xFFFFFFFFFFFF#64

theorem reduce16_ok : ReduceOk 16 (ofCoeffs [16, 5, 3, 1, 0]) reduce16 where
  npos := by norm_num
  nlt := by norm_num
  xor := reduce16_lin
  lt x := and_lt_of_mask _ _ (by decide)
  one := by decide +kernel
  step := by decide +kernel

theorem reduce32_ok : ReduceOk 32 (ofCoeffs [32, 7, 3, 2, 0]) reduce32 where
  npos := by norm_num
  nlt := by norm_num
  xor := reduce32_lin
  lt x := and_lt_of_mask _ _ (by decide)
  one := by decide +kernel
  step := by decide +kernel

theorem reduce40_ok : ReduceOk 40 (ofCoeffs [40, 5, 4, 3, 0]) reduce40 where
  npos := by norm_num
  nlt := by norm_num
  xor := reduce40_lin
  lt x := and_lt_of_mask _ _ (by decide)
  one := by decide +kernel
  step := by decide +kernel

theorem reduce48_ok : ReduceOk 48 (ofCoeffs [48, 5, 3, 2, 0]) reduce48 where
  npos := by norm_num
  nlt := by norm_num
  xor := reduce48_lin
  lt x := and_lt_of_mask _ _ (by decide)
  one := by decide +kernel
  step := by decide +kernel

end Banquet
