import Verif.Model.Basic
import Mathlib.Algebra.Field.ZMod
import Mathlib.RingTheory.AdjoinRoot

/-! Model of the script that found the generators in field.cpp (tools/morphism.sage). Sage is modelled by what its documentation says; the two lines that only describe the field are left out. -/

namespace Banquet.Sage

open Polynomial

/-- Modulus of `K` (morphism.sage:2). -/
noncomputable def baseModulus : (ZMod 2)[X] := X ^ 8 + X ^ 4 + X ^ 3 + X + 1

/-- Modulus of `F` by its number of bytes: the line in use (morphism.sage:5) and those in comments (morphism.sage:6-8). -/
noncomputable def modulus : Nat → (ZMod 2)[X]
  | 2 => X ^ 16 + X ^ 5 + X ^ 3 + X + 1
  | 4 => X ^ 32 + X ^ 7 + X ^ 3 + X ^ 2 + 1
  | 5 => X ^ 40 + X ^ 5 + X ^ 4 + X ^ 3 + 1
  | 6 => X ^ 48 + X ^ 5 + X ^ 3 + X ^ 2 + 1
  | _ => 0

/-- `K` (morphism.sage:2). -/
abbrev K : Type := AdjoinRoot baseModulus

open Classical in
/-- `GF(2^n, modulus = m)` (morphism.sage:2, 5-8): Sage raises an error if the degree is wrong or the polynomial not irreducible. -/
noncomputable def gf (n : Nat) (m : (ZMod 2)[X]) : M Unit := require .thrown (decide (m.natDegree = n ∧ Irreducible m))

/-- `H.list()` (morphism.sage:12-13) for `F` with modulus `m`: all ring homomorphisms, each of them once. The order is not documented, so that every such list is considered. -/
structure IsList {m : (ZMod 2)[X]} (l : List (K →+* AdjoinRoot m)) : Prop where
  nodup : l.Nodup
  complete : ∀ φ : K →+* AdjoinRoot m, φ ∈ l

/-- The script (morphism.sage:1-15) with `F = GF(2^n, modulus = m)` and `H.list() = l`: the value `g`, the image of the generator of `K` under the first homomorphism. An index into an empty list raises an error. -/
noncomputable def script (n : Nat) (m : (ZMod 2)[X]) (l : List (K →+* AdjoinRoot m)) : M (AdjoinRoot m) := do
  gf 8 baseModulus
  gf n m
  match l with
  | [] => .error .thrown
  | φ :: _ => .ok (φ (AdjoinRoot.root baseModulus))

end Banquet.Sage
