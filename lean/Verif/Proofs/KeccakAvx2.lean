import Mathlib.Data.Fintype.Basic
import Mathlib.Tactic.FinCases
import Verif.Model.KeccakAvx2
import Verif.Proofs.Keccak64State

/-! The assembler code for AVX2: one round in registers is one round of Keccak-p[1600]. -/

namespace Banquet.Avx2

open Spec
open Opt64 hiding Lanes

/-! ## Instructions -/

theorem dword_append (a : Y) (l : Fin 4) : (dword a (2 * l.val + 1) ++ dword a (2 * l.val) : BitVec 64) = a l := by
  have h1 : (2 * l.val + 1) / 2 = l.val := by omega
  have h2 : (2 * l.val) / 2 = l.val := by omega
  have h3 : (2 * l.val + 1) % 2 = 1 := by omega
  have h4 : (2 * l.val) % 2 = 0 := by omega
  have h5 : Fin.ofNat 4 l.val = l := by ext; simp
  simp only [dword, h1, h2, h3, h4, h5]
  apply BitVec.eq_of_getLsbD_eq
  intro i hi
  rw [BitVec.getLsbD_append]
  by_cases h : i < 32
  · simp [h]
  · simp [h, show i - 32 < 32 by omega, show 32 + (i - 32) = i by omega]

/-- A blend of whole 64-bit words. -/
theorem vpblendd_word (imm : Nat) (b a : Y) (l : Fin 4) (c : Bool) (h1 : imm.testBit (2 * l.val + 1) = c) (h2 : imm.testBit (2 * l.val) = c) :
    vpblendd imm b a l = if c then b l else a l := by
  rw [vpblendd, ofDwords, h1, h2]
  cases c
  · exact dword_append a l
  · exact dword_append b l

theorem blend0 (b a : Y) : vpblendd 0b00000011 b a = fun l => if l = 0 then b l else a l := by
  funext l
  fin_cases l <;> exact vpblendd_word _ _ _ _ _ (by decide) rfl

theorem blend1 (b a : Y) : vpblendd 0b00001100 b a = fun l => if l = 1 then b l else a l := by
  funext l
  fin_cases l <;> exact vpblendd_word _ _ _ _ _ (by decide) rfl

theorem blend2 (b a : Y) : vpblendd 0b00110000 b a = fun l => if l = 2 then b l else a l := by
  funext l
  fin_cases l <;> exact vpblendd_word _ _ _ _ _ (by decide) rfl

theorem blend3 (b a : Y) : vpblendd 0b11000000 b a = fun l => if l = 3 then b l else a l := by
  funext l
  fin_cases l <;> exact vpblendd_word _ _ _ _ _ (by decide) rfl

/-- A register from four words. -/
def mk (a b c d : W64) : Y := fun l => match l with
  | 0 => a
  | 1 => b
  | 2 => c
  | 3 => d

theorem shufd_swap (a : Y) : vpshufd 0b01001110 a = mk (a 1) (a 0) (a 3) (a 2) := by
  funext l
  fin_cases l
  · exact dword_append a 1
  · exact dword_append a 0
  · exact dword_append a 3
  · exact dword_append a 2

theorem byteOf_zero (k : Nat) : byteOf 0 k = 0 := by simp [byteOf]

theorem srldq8 (a : Y) : vpsrldq 8 a = mk (a 1) 0 (a 3) 0 := by
  funext l
  refine eq_of_byteOf fun k hk => ?_
  rw [vpsrldq, byteOf_le64 _ _ hk]
  fin_cases l <;> interval_cases k <;> first | rfl | exact (byteOf_zero _).symm

theorem rol1 (x : W64) : x >>> 63 ||| (x + x) = rol64 x 1 := by
  have e : x + x = x <<< 1 := by
    rw [BitVec.shiftLeft_eq_mul_twoPow, BitVec.twoPow]
    apply BitVec.eq_of_toNat_eq
    simp
    omega
  rw [e, rol64_eq _ (by decide), BitVec.rotateLeft_def, BitVec.or_comm]

theorem or_eq_rol (x : W64) {n : Nat} (h : n < 64) : x >>> (64 - n) ||| x <<< n = rol64 x n := by
  rw [rol64_eq _ h, BitVec.rotateLeft_def, BitVec.or_comm, Nat.mod_eq_of_lt h]

theorem rolY (x : Y) : vpor (vpaddq x x) (vpsrlq 63 x) = fun l => rol64 (x l) 1 := funext fun l => rol1 (x l)

theorem rolY' (x : Y) : vpor (vpsrlq 63 x) (vpaddq x x) = fun l => rol64 (x l) 1 := funext fun l => (BitVec.or_comm _ _).trans (rol1 (x l))

theorem bcast (a : Y) : vpermq 0b00000000 a = fun _ => a 0 := by
  funext l
  fin_cases l <;> rfl

/-! ## One round -/

/-- The state in the registers: lane `x + 5 y`. -/
def lanesOf (s : Regs) : Lanes := #v[
  s[0] 0, s[1] 0, s[1] 1, s[1] 2, s[1] 3,
  s[2] 2, s[6] 0, s[3] 1, s[4] 2, s[5] 3,
  s[2] 0, s[4] 0, s[6] 1, s[5] 2, s[3] 3,
  s[2] 3, s[3] 0, s[5] 1, s[6] 2, s[4] 3,
  s[2] 1, s[5] 0, s[4] 1, s[3] 2, s[6] 3]

theorem parity_get0 (a0 a1 a2 a3 a4 a5 a6 a7 a8 a9 a10 a11 a12 a13 a14 a15 a16 a17 a18 a19 a20 a21 a22 a23 a24 : W64) : (parity #v[a0, a1, a2, a3, a4, a5, a6, a7, a8, a9, a10, a11, a12, a13, a14, a15, a16, a17, a18, a19, a20, a21, a22, a23, a24])[0] =
    a0 ^^^ a5 ^^^ a10 ^^^ a15 ^^^ a20 := rfl

theorem parity_get1 (a0 a1 a2 a3 a4 a5 a6 a7 a8 a9 a10 a11 a12 a13 a14 a15 a16 a17 a18 a19 a20 a21 a22 a23 a24 : W64) : (parity #v[a0, a1, a2, a3, a4, a5, a6, a7, a8, a9, a10, a11, a12, a13, a14, a15, a16, a17, a18, a19, a20, a21, a22, a23, a24])[1] =
    a1 ^^^ a6 ^^^ a11 ^^^ a16 ^^^ a21 := rfl

theorem parity_get2 (a0 a1 a2 a3 a4 a5 a6 a7 a8 a9 a10 a11 a12 a13 a14 a15 a16 a17 a18 a19 a20 a21 a22 a23 a24 : W64) : (parity #v[a0, a1, a2, a3, a4, a5, a6, a7, a8, a9, a10, a11, a12, a13, a14, a15, a16, a17, a18, a19, a20, a21, a22, a23, a24])[2] =
    a2 ^^^ a7 ^^^ a12 ^^^ a17 ^^^ a22 := rfl

theorem parity_get3 (a0 a1 a2 a3 a4 a5 a6 a7 a8 a9 a10 a11 a12 a13 a14 a15 a16 a17 a18 a19 a20 a21 a22 a23 a24 : W64) : (parity #v[a0, a1, a2, a3, a4, a5, a6, a7, a8, a9, a10, a11, a12, a13, a14, a15, a16, a17, a18, a19, a20, a21, a22, a23, a24])[3] =
    a3 ^^^ a8 ^^^ a13 ^^^ a18 ^^^ a23 := rfl

theorem parity_get4 (a0 a1 a2 a3 a4 a5 a6 a7 a8 a9 a10 a11 a12 a13 a14 a15 a16 a17 a18 a19 a20 a21 a22 a23 a24 : W64) : (parity #v[a0, a1, a2, a3, a4, a5, a6, a7, a8, a9, a10, a11, a12, a13, a14, a15, a16, a17, a18, a19, a20, a21, a22, a23, a24])[4] =
    a4 ^^^ a9 ^^^ a14 ^^^ a19 ^^^ a24 := rfl

/-- What θ adds to column `x`. -/
def dAt (A : Lanes) (x : Nat) : W64 := (parity A)[(x + 4) % 5] ^^^ rol64 (parity A)[(x + 1) % 5] 1

theorem theta_parity (s : Regs) : vpxor (vpxor s[6] s[4]) (vpxor s[1] (vpxor s[3] s[5])) =
    mk (parity (lanesOf s))[1] (parity (lanesOf s))[2] (parity (lanesOf s))[3] (parity (lanesOf s))[4] := by
  rw [lanesOf, parity_get1, parity_get2, parity_get3, parity_get4]
  funext l
  fin_cases l <;> simp only [vpxor, mk]
  · show s[5] 0 ^^^ s[3] 0 ^^^ s[1] 0 ^^^ (s[4] 0 ^^^ s[6] 0) = s[1] 0 ^^^ s[6] 0 ^^^ s[4] 0 ^^^ s[3] 0 ^^^ s[5] 0
    ac_rfl
  · show s[5] 1 ^^^ s[3] 1 ^^^ s[1] 1 ^^^ (s[4] 1 ^^^ s[6] 1) = s[1] 1 ^^^ s[3] 1 ^^^ s[6] 1 ^^^ s[5] 1 ^^^ s[4] 1
    ac_rfl
  · show s[5] 2 ^^^ s[3] 2 ^^^ s[1] 2 ^^^ (s[4] 2 ^^^ s[6] 2) = s[1] 2 ^^^ s[4] 2 ^^^ s[5] 2 ^^^ s[6] 2 ^^^ s[3] 2
    ac_rfl
  · show s[5] 3 ^^^ s[3] 3 ^^^ s[1] 3 ^^^ (s[4] 3 ^^^ s[6] 3) = s[1] 3 ^^^ s[5] 3 ^^^ s[3] 3 ^^^ s[4] 3 ^^^ s[6] 3
    ac_rfl

theorem theta_parity0 (s : Regs) (h0 : ∀ l, s[0] l = s[0] 0) : vpxor (vpermq 0b01001110 (vpxor s[2] (vpshufd 0b01001110 s[2]))) (vpxor s[0] (vpxor s[2] (vpshufd 0b01001110 s[2]))) =
    fun _ => (parity (lanesOf s))[0] := by
  rw [shufd_swap, lanesOf, parity_get0]
  funext l
  simp only [vpxor, h0 l]
  fin_cases l
  · show s[2] 1 ^^^ s[2] 0 ^^^ s[0] 0 ^^^ (s[2] 3 ^^^ s[2] 2) = s[0] 0 ^^^ s[2] 2 ^^^ s[2] 0 ^^^ s[2] 3 ^^^ s[2] 1
    ac_rfl
  · show s[2] 0 ^^^ s[2] 1 ^^^ s[0] 0 ^^^ (s[2] 2 ^^^ s[2] 3) = s[0] 0 ^^^ s[2] 2 ^^^ s[2] 0 ^^^ s[2] 3 ^^^ s[2] 1
    ac_rfl
  · show s[2] 3 ^^^ s[2] 2 ^^^ s[0] 0 ^^^ (s[2] 1 ^^^ s[2] 0) = s[0] 0 ^^^ s[2] 2 ^^^ s[2] 0 ^^^ s[2] 3 ^^^ s[2] 1
    ac_rfl
  · show s[2] 2 ^^^ s[2] 3 ^^^ s[0] 0 ^^^ (s[2] 0 ^^^ s[2] 1) = s[0] 0 ^^^ s[2] 2 ^^^ s[2] 0 ^^^ s[2] 3 ^^^ s[2] 1
    ac_rfl

theorem theta_eq (s : Regs) (h0 : ∀ l, s[0] l = s[0] 0) : theta s[0] s[1] s[2] s[3] s[4] s[5] s[6] =
    (fun _ => s[0] 0 ^^^ dAt (lanesOf s) 0, fun l => s[2] l ^^^ dAt (lanesOf s) 0, fun l => dAt (lanesOf s) (l.val + 1)) := by
  simp only [theta, theta_parity s, theta_parity0 s h0, rolY, rolY', blend3, blend0, bcast]
  refine Prod.ext (funext fun l => ?_) (Prod.ext (funext fun l => ?_) (funext fun l => ?_))
  · show s[0] l ^^^ (rol64 (parity (lanesOf s))[1] 1 ^^^ (parity (lanesOf s))[4]) = s[0] 0 ^^^ ((parity (lanesOf s))[4] ^^^ rol64 (parity (lanesOf s))[1] 1)
    rw [h0 l, BitVec.xor_comm (rol64 _ _)]
  · show s[2] l ^^^ (rol64 (parity (lanesOf s))[1] 1 ^^^ (parity (lanesOf s))[4]) = s[2] l ^^^ ((parity (lanesOf s))[4] ^^^ rol64 (parity (lanesOf s))[1] 1)
    rw [BitVec.xor_comm (rol64 _ _)]
  · fin_cases l <;> exact BitVec.xor_comm _ _

/-! ### Rho, Pi, Chi -/

theorem rotWord (x : Y) (r : Nat) (hr : r < 6) (l : Fin 4) (n : Nat) (hn : n < 64) (hL : (rhotatesLeft[r] l).toNat = n) (hR : (rhotatesRight[r] l).toNat = 64 - n) :
    vpor (vpsllvq rhotatesLeft[r] x) (vpsrlvq rhotatesRight[r] x) l = rol64 (x l) n := by
  rw [vpor, vpsllvq, vpsrlvq, hL, hR, or_eq_rol _ hn]

theorem rhoPi_eq (s : Regs) (A : Lanes) (hA : lanesOf s = A) : rhoPi s[1] (fun l => s[2] l ^^^ dAt A 0) s[3] s[4] s[5] s[6] (fun l => dAt A (l.val + 1)) = #v[
    mk (bAt A (parity A) 1 0) (bAt A (parity A) 2 0) (bAt A (parity A) 3 0) (bAt A (parity A) 4 0),
    mk (bAt A (parity A) 0 2) (bAt A (parity A) 0 4) (bAt A (parity A) 0 1) (bAt A (parity A) 0 3),
    mk (bAt A (parity A) 4 2) (bAt A (parity A) 3 4) (bAt A (parity A) 2 1) (bAt A (parity A) 1 3),
    mk (bAt A (parity A) 1 2) (bAt A (parity A) 2 4) (bAt A (parity A) 3 1) (bAt A (parity A) 4 3),
    mk (bAt A (parity A) 3 2) (bAt A (parity A) 1 4) (bAt A (parity A) 4 1) (bAt A (parity A) 2 3),
    mk (bAt A (parity A) 2 2) (bAt A (parity A) 4 4) (bAt A (parity A) 1 1) (bAt A (parity A) 3 3)] := by
  have e : ∀ i (hi : i < 25), A[i] = (lanesOf s)[i] := by
    intro i hi
    rw [hA]
  have h80 : bAt A (parity A) 1 0 = rol64 (s[6] 0 ^^^ dAt A 1) 44 := by
    rw [show s[6] 0 = (lanesOf s)[6] from rfl, hA]
    rfl
  have h81 : bAt A (parity A) 2 0 = rol64 (s[6] 1 ^^^ dAt A 2) 43 := by
    rw [show s[6] 1 = (lanesOf s)[12] from rfl, hA]
    rfl
  have h82 : bAt A (parity A) 3 0 = rol64 (s[6] 2 ^^^ dAt A 3) 21 := by
    rw [show s[6] 2 = (lanesOf s)[18] from rfl, hA]
    rfl
  have h83 : bAt A (parity A) 4 0 = rol64 (s[6] 3 ^^^ dAt A 4) 14 := by
    rw [show s[6] 3 = (lanesOf s)[24] from rfl, hA]
    rfl
  have h90 : bAt A (parity A) 0 2 = rol64 (s[1] 0 ^^^ dAt A 1) 1 := by
    rw [show s[1] 0 = (lanesOf s)[1] from rfl, hA]
    rfl
  have h91 : bAt A (parity A) 0 4 = rol64 (s[1] 1 ^^^ dAt A 2) 62 := by
    rw [show s[1] 1 = (lanesOf s)[2] from rfl, hA]
    rfl
  have h92 : bAt A (parity A) 0 1 = rol64 (s[1] 2 ^^^ dAt A 3) 28 := by
    rw [show s[1] 2 = (lanesOf s)[3] from rfl, hA]
    rfl
  have h93 : bAt A (parity A) 0 3 = rol64 (s[1] 3 ^^^ dAt A 4) 27 := by
    rw [show s[1] 3 = (lanesOf s)[4] from rfl, hA]
    rfl
  have h100 : bAt A (parity A) 4 2 = rol64 (s[2] 1 ^^^ dAt A 0) 18 := by
    rw [show s[2] 1 = (lanesOf s)[20] from rfl, hA]
    rfl
  have h101 : bAt A (parity A) 3 4 = rol64 (s[2] 3 ^^^ dAt A 0) 41 := by
    rw [show s[2] 3 = (lanesOf s)[15] from rfl, hA]
    rfl
  have h102 : bAt A (parity A) 2 1 = rol64 (s[2] 0 ^^^ dAt A 0) 3 := by
    rw [show s[2] 0 = (lanesOf s)[10] from rfl, hA]
    rfl
  have h103 : bAt A (parity A) 1 3 = rol64 (s[2] 2 ^^^ dAt A 0) 36 := by
    rw [show s[2] 2 = (lanesOf s)[5] from rfl, hA]
    rfl
  have h110 : bAt A (parity A) 1 2 = rol64 (s[3] 1 ^^^ dAt A 2) 6 := by
    rw [show s[3] 1 = (lanesOf s)[7] from rfl, hA]
    rfl
  have h111 : bAt A (parity A) 2 4 = rol64 (s[3] 3 ^^^ dAt A 4) 39 := by
    rw [show s[3] 3 = (lanesOf s)[14] from rfl, hA]
    rfl
  have h112 : bAt A (parity A) 3 1 = rol64 (s[3] 0 ^^^ dAt A 1) 45 := by
    rw [show s[3] 0 = (lanesOf s)[16] from rfl, hA]
    rfl
  have h113 : bAt A (parity A) 4 3 = rol64 (s[3] 2 ^^^ dAt A 3) 56 := by
    rw [show s[3] 2 = (lanesOf s)[23] from rfl, hA]
    rfl
  have h120 : bAt A (parity A) 3 2 = rol64 (s[4] 3 ^^^ dAt A 4) 8 := by
    rw [show s[4] 3 = (lanesOf s)[19] from rfl, hA]
    rfl
  have h121 : bAt A (parity A) 1 4 = rol64 (s[4] 2 ^^^ dAt A 3) 55 := by
    rw [show s[4] 2 = (lanesOf s)[8] from rfl, hA]
    rfl
  have h122 : bAt A (parity A) 4 1 = rol64 (s[4] 1 ^^^ dAt A 2) 61 := by
    rw [show s[4] 1 = (lanesOf s)[22] from rfl, hA]
    rfl
  have h123 : bAt A (parity A) 2 3 = rol64 (s[4] 0 ^^^ dAt A 1) 10 := by
    rw [show s[4] 0 = (lanesOf s)[11] from rfl, hA]
    rfl
  have h130 : bAt A (parity A) 2 2 = rol64 (s[5] 2 ^^^ dAt A 3) 25 := by
    rw [show s[5] 2 = (lanesOf s)[13] from rfl, hA]
    rfl
  have h131 : bAt A (parity A) 4 4 = rol64 (s[5] 0 ^^^ dAt A 1) 2 := by
    rw [show s[5] 0 = (lanesOf s)[21] from rfl, hA]
    rfl
  have h132 : bAt A (parity A) 1 1 = rol64 (s[5] 3 ^^^ dAt A 4) 20 := by
    rw [show s[5] 3 = (lanesOf s)[9] from rfl, hA]
    rfl
  have h133 : bAt A (parity A) 3 3 = rol64 (s[5] 1 ^^^ dAt A 2) 15 := by
    rw [show s[5] 1 = (lanesOf s)[17] from rfl, hA]
    rfl
  rw [h80, h81, h82, h83, h90, h91, h92, h93, h100, h101, h102, h103, h110, h111, h112, h113, h120, h121, h122, h123, h130, h131, h132, h133]
  simp only [rhoPi]
  have e8 : ∀ x : Y, vpor (vpsllvq rhotatesLeft[5] x) (vpsrlvq rhotatesRight[5] x) = mk (rol64 (x 0) 44) (rol64 (x 1) 43) (rol64 (x 2) 21) (rol64 (x 3) 14) := by
    intro x
    funext l
    fin_cases l
    · exact rotWord x 5 (by decide) 0 44 (by decide) (by decide) (by decide)
    · exact rotWord x 5 (by decide) 1 43 (by decide) (by decide) (by decide)
    · exact rotWord x 5 (by decide) 2 21 (by decide) (by decide) (by decide)
    · exact rotWord x 5 (by decide) 3 14 (by decide) (by decide) (by decide)
  have e9 : ∀ x : Y, vpor (vpsllvq rhotatesLeft[1] x) (vpsrlvq rhotatesRight[1] x) = mk (rol64 (x 0) 1) (rol64 (x 1) 62) (rol64 (x 2) 28) (rol64 (x 3) 27) := by
    intro x
    funext l
    fin_cases l
    · exact rotWord x 1 (by decide) 0 1 (by decide) (by decide) (by decide)
    · exact rotWord x 1 (by decide) 1 62 (by decide) (by decide) (by decide)
    · exact rotWord x 1 (by decide) 2 28 (by decide) (by decide) (by decide)
    · exact rotWord x 1 (by decide) 3 27 (by decide) (by decide) (by decide)
  have e10 : ∀ x : Y, vpor (vpsllvq rhotatesLeft[0] x) (vpsrlvq rhotatesRight[0] x) = mk (rol64 (x 0) 3) (rol64 (x 1) 18) (rol64 (x 2) 36) (rol64 (x 3) 41) := by
    intro x
    funext l
    fin_cases l
    · exact rotWord x 0 (by decide) 0 3 (by decide) (by decide) (by decide)
    · exact rotWord x 0 (by decide) 1 18 (by decide) (by decide) (by decide)
    · exact rotWord x 0 (by decide) 2 36 (by decide) (by decide) (by decide)
    · exact rotWord x 0 (by decide) 3 41 (by decide) (by decide) (by decide)
  have e11 : ∀ x : Y, vpor (vpsllvq rhotatesLeft[2] x) (vpsrlvq rhotatesRight[2] x) = mk (rol64 (x 0) 45) (rol64 (x 1) 6) (rol64 (x 2) 56) (rol64 (x 3) 39) := by
    intro x
    funext l
    fin_cases l
    · exact rotWord x 2 (by decide) 0 45 (by decide) (by decide) (by decide)
    · exact rotWord x 2 (by decide) 1 6 (by decide) (by decide) (by decide)
    · exact rotWord x 2 (by decide) 2 56 (by decide) (by decide) (by decide)
    · exact rotWord x 2 (by decide) 3 39 (by decide) (by decide) (by decide)
  have e12 : ∀ x : Y, vpor (vpsllvq rhotatesLeft[3] x) (vpsrlvq rhotatesRight[3] x) = mk (rol64 (x 0) 10) (rol64 (x 1) 61) (rol64 (x 2) 55) (rol64 (x 3) 8) := by
    intro x
    funext l
    fin_cases l
    · exact rotWord x 3 (by decide) 0 10 (by decide) (by decide) (by decide)
    · exact rotWord x 3 (by decide) 1 61 (by decide) (by decide) (by decide)
    · exact rotWord x 3 (by decide) 2 55 (by decide) (by decide) (by decide)
    · exact rotWord x 3 (by decide) 3 8 (by decide) (by decide) (by decide)
  have e13 : ∀ x : Y, vpor (vpsllvq rhotatesLeft[4] x) (vpsrlvq rhotatesRight[4] x) = mk (rol64 (x 0) 2) (rol64 (x 1) 15) (rol64 (x 2) 25) (rol64 (x 3) 20) := by
    intro x
    funext l
    fin_cases l
    · exact rotWord x 4 (by decide) 0 2 (by decide) (by decide) (by decide)
    · exact rotWord x 4 (by decide) 1 15 (by decide) (by decide) (by decide)
    · exact rotWord x 4 (by decide) 2 25 (by decide) (by decide) (by decide)
    · exact rotWord x 4 (by decide) 3 20 (by decide) (by decide) (by decide)
  rw [e8, e9, e10, e11, e12, e13]
  have mkp : ∀ a b c d : W64, vpermq 0b10001101 (mk a b c d) = mk b d a c ∧ vpermq 0b00011011 (mk a b c d) = mk d c b a ∧ vpermq 0b01110010 (mk a b c d) = mk c a d b := by
    intro a b c d
    refine ⟨?_, ?_, ?_⟩ <;> funext l <;> fin_cases l <;> rfl
  simp only [mkp]
  rfl

theorem chi_eq (b00 b10 b20 b30 b40 b01 b11 b21 b31 b41 b02 b12 b22 b32 b42 b03 b13 b23 b33 b43 b04 b14 b24 b34 b44 : W64) :
    lanesOf (chi (fun _ => b00) (mk b10 b20 b30 b40) (mk b02 b04 b01 b03) (mk b42 b34 b21 b13) (mk b12 b24 b31 b43) (mk b32 b14 b41 b23) (mk b22 b44 b11 b33)) = #v[
    b00 ^^^ (~~~ b10 &&& b20), b10 ^^^ (~~~ b20 &&& b30), b20 ^^^ (~~~ b30 &&& b40), b30 ^^^ (~~~ b40 &&& b00), b40 ^^^ (~~~ b00 &&& b10),
    b01 ^^^ (~~~ b11 &&& b21), b11 ^^^ (~~~ b21 &&& b31), b21 ^^^ (~~~ b31 &&& b41), b31 ^^^ (~~~ b41 &&& b01), b41 ^^^ (~~~ b01 &&& b11),
    b02 ^^^ (~~~ b12 &&& b22), b12 ^^^ (~~~ b22 &&& b32), b22 ^^^ (~~~ b32 &&& b42), b32 ^^^ (~~~ b42 &&& b02), b42 ^^^ (~~~ b02 &&& b12),
    b03 ^^^ (~~~ b13 &&& b23), b13 ^^^ (~~~ b23 &&& b33), b23 ^^^ (~~~ b33 &&& b43), b33 ^^^ (~~~ b43 &&& b03), b43 ^^^ (~~~ b03 &&& b13),
    b04 ^^^ (~~~ b14 &&& b24), b14 ^^^ (~~~ b24 &&& b34), b24 ^^^ (~~~ b34 &&& b44), b34 ^^^ (~~~ b44 &&& b04), b44 ^^^ (~~~ b04 &&& b14)] := by
  simp only [chi, blend1, blend2, blend3, srldq8, bcast]
  refine Vector.ext fun i hi => ?_
  interval_cases i <;> first | rfl | exact BitVec.xor_comm _ _

theorem chi_zero (b00 : W64) (ymm8 ymm9 ymm10 ymm11 ymm12 ymm13 : Y) (l : Fin 4) :
    (chi (fun _ => b00) ymm8 ymm9 ymm10 ymm11 ymm12 ymm13)[0] l = (chi (fun _ => b00) ymm8 ymm9 ymm10 ymm11 ymm12 ymm13)[0] 0 := by
  show b00 ^^^ vpermq 0 _ l = b00 ^^^ vpermq 0 _ 0
  rw [bcast]

theorem lanesOf_set0 (s : Regs) (x : Y) : lanesOf (s.set 0 x) = (lanesOf s).set 0 (x 0) := by
  refine Vector.ext fun i hi => ?_
  interval_cases i <;> simp [lanesOf]

theorem round_eq (iota : Y) (hi : ∀ l, iota l = iota 0) (s : Regs) (h0 : ∀ l, s[0] l = s[0] 0) :
    lanesOf (round iota s) = keccakRound (lanesOf s) (iota 0) ∧ ∀ l, (round iota s)[0] l = (round iota s)[0] 0 := by
  have hz : s[0] 0 ^^^ dAt (lanesOf s) 0 = bAt (lanesOf s) (parity (lanesOf s)) 0 0 := rfl
  unfold round
  rw [theta_eq s h0]
  simp only
  rw [rhoPi_eq s _ rfl, hz]
  constructor
  · rw [lanesOf_set0, vpxor, ← roundLast_eq]
    simp only [Vector.getElem_mk, List.getElem_toArray, List.getElem_cons_zero, List.getElem_cons_succ]
    rw [show ∀ c : Regs, c[0] 0 = (lanesOf c)[0] from fun c => rfl, chi_eq]
    refine Vector.ext fun i hi => ?_
    rw [roundLast_get]
    interval_cases i <;> rfl
  · intro l
    rw [Vector.getElem_set_self]
    show _ ^^^ iota l = _ ^^^ iota 0
    rw [chi_zero, hi l]

theorem iotas_eq : (iotas.toList.map fun iota => iota 0) = Spec.roundConstants := by decide +kernel

theorem iotas_const : ∀ iota ∈ iotas.toList, ∀ l, iota l = iota 0 := by decide +kernel

theorem rounds_fold (cs : List Y) (hcs : ∀ iota ∈ cs, ∀ l, iota l = iota 0) (s : Regs) (h0 : ∀ l, s[0] l = s[0] 0) :
    lanesOf (cs.foldl (fun s iota => round iota s) s) = (cs.map fun iota => iota 0).foldl keccakRound (lanesOf s) ∧
      ∀ l, (cs.foldl (fun s iota => round iota s) s)[0] l = (cs.foldl (fun s iota => round iota s) s)[0] 0 := by
  induction cs generalizing s with
  | nil => exact ⟨rfl, h0⟩
  | cons c cs ih =>
    obtain ⟨h1, h2⟩ := round_eq c (hcs c (by simp)) s h0
    obtain ⟨h3, h4⟩ := ih (fun i hi => hcs i (by simp [hi])) (round c s) h2
    exact ⟨by rw [List.foldl_cons, h3, h1, List.map_cons, List.foldl_cons], h4⟩

theorem keccakF1600_eq (s : Regs) (h0 : ∀ l, s[0] l = s[0] 0) : lanesOf (keccakF1600 s) = keccakLanes (lanesOf s) ∧ ∀ l, (keccakF1600 s)[0] l = (keccakF1600 s)[0] 0 := by
  have h := rounds_fold iotas.toList iotas_const s h0
  rw [iotas_eq] at h
  exact h

/-- The lanes in memory. -/
def lanesMem (m : Mem) : Lanes := Vector.ofFn fun i => m[mapState[i] / 8]'(by revert i; decide)

theorem lanesMem_store (s : Regs) : lanesMem (storeState s) = lanesOf s := by
  refine Vector.ext fun i hi => ?_
  interval_cases i <;> simp [lanesOf, storeState, lanesMem, mapState]

theorem lanesOf_load (m : Mem) : lanesOf (loadState m) = lanesMem m := by
  refine Vector.ext fun i hi => ?_
  interval_cases i <;> simp [lanesOf, loadState, lanesMem, mapState]

theorem permute_eq (m : Mem) : lanesMem (permute m) = keccakLanes (lanesMem m) := by
  rw [permute, lanesMem_store, (keccakF1600_eq _ fun l => rfl).1, lanesOf_load]

end Banquet.Avx2
