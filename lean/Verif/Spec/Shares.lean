import Verif.Spec.Gf

/-! Specification of polynomials given by their values, as used for the shares of `S_j`, `T_j` and `P`. -/

namespace Banquet.Spec

open Polynomial

/-- The `k`-th interpolation point: `x, x^2, x^3, …` where `x` is the class of `X`. -/
noncomputable def point (lam k : Nat) : GF lam := AdjoinRoot.root (fieldPoly lam) ^ (k + 1)

/-- `P` is the polynomial of degree below `n` with value `y k` at the `k`-th point. -/
def Interpolates (lam n : Nat) (y : Nat → GF lam) (P : (GF lam)[X]) : Prop := P.degree < n ∧ ∀ k < n, P.eval (point lam k) = y k

/-- The word `w` is the canonical representative of the value at `R` of the polynomial with values `y k`. -/
def EvalAt (lam n : Nat) (y : Nat → GF lam) (R w : BitVec 64) : Prop :=
  Reduced lam w ∧ ∃ P, Interpolates lam n y P ∧ val lam w = P.eval (val lam R)

end Banquet.Spec
