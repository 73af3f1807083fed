import Mathlib.Algebra.Polynomial.Basic
import Mathlib.Algebra.Field.ZMod
import Mathlib.Algebra.Polynomial.Div
import Mathlib.RingTheory.AdjoinRoot

/-! Specification of binary extension fields: machine words as polynomials over GF(2), and the four published moduli. -/

namespace Banquet.Spec

open Polynomial

/-- Bit `i` of the word is the coefficient of `X^i`. -/
noncomputable def wordPoly {n : Nat} (w : BitVec n) : (ZMod 2)[X] :=
  ∑ i ∈ Finset.range n, if w.getLsbD i then X ^ i else 0

/-- The published moduli (field.cpp:36, 60, 73, 88, and the Banquet paper, section 6), by byte size. -/
noncomputable def fieldPoly : Nat → (ZMod 2)[X]
  | 2 => X ^ 16 + X ^ 5 + X ^ 3 + X + 1
  | 4 => X ^ 32 + X ^ 7 + X ^ 3 + X ^ 2 + 1
  | 5 => X ^ 40 + X ^ 5 + X ^ 4 + X ^ 3 + 1
  | 6 => X ^ 48 + X ^ 5 + X ^ 3 + X ^ 2 + 1
  | _ => 0

/-- The extension field of byte size `lam`: GF(2)[X] modulo the published polynomial. -/
abbrev GF (lam : Nat) : Type := AdjoinRoot (fieldPoly lam)

/-- The field element represented by a word. -/
noncomputable def val (lam : Nat) {n : Nat} (w : BitVec n) : GF lam := AdjoinRoot.mk (fieldPoly lam) (wordPoly w)

/-- Words which are canonical representatives: below `2^(8 lam)`. -/
def Reduced (lam : Nat) {n : Nat} (w : BitVec n) : Prop := w.toNat < 2 ^ (8 * lam)

/-- The extension degrees with a published polynomial. -/
def Supported (lam : Nat) : Prop := lam = 2 ∨ lam = 4 ∨ lam = 5 ∨ lam = 6

/-- Polynomial over the extension field with the given coefficients, lowest first. -/
noncomputable def coeffPoly (lam : Nat) : List (BitVec 64) → (GF lam)[X]
  | [] => 0
  | c :: cs => C (val lam c) + X * coeffPoly lam cs

/-- The AES polynomial (FIPS 197, 4.2). -/
noncomputable def aesPoly : (ZMod 2)[X] := X ^ 8 + X ^ 4 + X ^ 3 + X + 1

/-- The published roots of the AES polynomial (field.cpp:199, 220, 249, 277), by byte size of the field. -/
noncomputable def aesRoot : Nat → (ZMod 2)[X]
  | 2 => X ^ 14 + X ^ 8 + X ^ 7 + X ^ 6 + X ^ 3 + X ^ 2 + 1
  | 4 => X ^ 30 + X ^ 23 + X ^ 21 + X ^ 18 + X ^ 14 + X ^ 13 + X ^ 11 + X ^ 9 + X ^ 7 + X ^ 6 + X ^ 5 + X ^ 4 + X ^ 3 + X
  | 5 => X ^ 31 + X ^ 30 + X ^ 27 + X ^ 25 + X ^ 22 + X ^ 21 + X ^ 20 + X ^ 18 + X ^ 15 + X ^ 9 + X ^ 6 + X ^ 4 + X ^ 2
  | 6 => X ^ 45 + X ^ 43 + X ^ 40 + X ^ 37 + X ^ 36 + X ^ 35 + X ^ 34 + X ^ 33 + X ^ 31 + X ^ 30 + X ^ 29 + X ^ 28 + X ^ 24 + X ^ 21 + X ^ 20 + X ^ 19 + X ^ 16 + X ^ 14 + X ^ 13 + X ^ 11 + X ^ 10 + X ^ 7 + X ^ 3 + X ^ 2
  | _ => 0

/-- A byte as an element of the extension field: the polynomial with its bits as coefficients, at the root of the AES polynomial. -/
noncomputable def liftVal (lam : Nat) (b : BitVec 8) : GF lam := aeval (AdjoinRoot.mk (fieldPoly lam) (aesRoot lam)) (wordPoly b)

end Banquet.Spec
