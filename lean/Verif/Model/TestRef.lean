import Verif.Model.Field
import Verif.Spec.Gf
import Mathlib.Algebra.Polynomial.Div
import Mathlib.Algebra.Polynomial.Eval.Coeff
import Mathlib.RingTheory.AdjoinRoot
import Batteries.Data.BitVec.Basic

/-! Model of the reference implementation the tests compare the library with (tests/utils.cpp). It uses the library NTL, which is modelled by what its documentation says: a `GF2X` is a polynomial over GF(2), a `GF2E` a residue class
modulo the polynomial given to `GF2E::init`, a `GF2EX` a polynomial over those. The globals `modulus` and `lifting_lut` are values here. -/

namespace Banquet.Ref

open Polynomial

/-- `SetCoeff(x, i)` for all `i` in the list, on a cleared polynomial (utils.cpp:33-38, 44-59, …): coefficient `i` becomes 1. -/
noncomputable def setCoeffs (cs : List Nat) : (ZMod 2)[X] := cs.foldl (fun p i => p.update i 1) 0

/-- Modulus and generator of utils.cpp:11, 44. -/
structure Field where
  modulus : (ZMod 2)[X]
  gen : (ZMod 2)[X]

/-- `utils::init_extension_field` (utils.cpp:29-144): modulus and the argument of `init_lifting_lut`. -/
noncomputable def initField : Nat → M Field
  | 4 => .ok ⟨setCoeffs [32, 7, 3, 2, 0], setCoeffs [30, 23, 21, 18, 14, 13, 11, 9, 7, 6, 5, 4, 3, 1]⟩
  | 5 => .ok ⟨setCoeffs [40, 5, 4, 3, 0], setCoeffs [31, 30, 27, 25, 22, 21, 20, 18, 15, 9, 6, 4, 2]⟩
  | 6 => .ok ⟨setCoeffs [48, 5, 3, 2, 0], setCoeffs [45, 43, 40, 37, 36, 35, 34, 33, 31, 30, 29, 28, 24, 21, 20, 19, 16, 14, 13, 11, 10, 7, 3, 2]⟩
  | _ => .error .thrown

/-- The type `GF2E` after `GF2E::init(modulus)` (utils.cpp:61, 93, 137). -/
abbrev Elem (R : Field) : Type := AdjoinRoot R.modulus

/-- One iteration of the loop over `bit` (utils.cpp:19-26): the table is filled from the front, and `pow` multiplied by the generator. -/
noncomputable def liftStep (R : Field) (g : Elem R) (st : List (Elem R) × Elem R) : List (Elem R) × Elem R := (st.1 ++ st.1.map (fun v => v + st.2), st.2 * g)

/-- `init_lifting_lut(conv<GF2E>(gen))` (utils.cpp:14-27). -/
noncomputable def liftLut (R : Field) : List (Elem R) :=
  ((List.range 7).foldl (fun st _ => liftStep R (AdjoinRoot.mk _ R.gen) st) ([0, 1], AdjoinRoot.mk _ R.gen)).1

/-- `utils::lift_uint8_t` (utils.cpp:146). -/
noncomputable def lift (R : Field) (b : Byte) : Elem R := (liftLut R).getD b.toNat 0

/-- NTL's `GF2XFromBytes`: bit `j` of byte `i` is the coefficient of `X^(8i+j)`. -/
noncomputable def bytesPoly : Bytes → (ZMod 2)[X]
  | [] => 0
  | b :: bs => Spec.wordPoly b + X ^ 8 * bytesPoly bs

/-- NTL's `BytesFromGF2X`: the first `n` bytes. -/
noncomputable def polyBytes (p : (ZMod 2)[X]) (n : Nat) : Bytes := (List.range n).map fun i => BitVec.ofFnLE fun j : Fin 8 => decide (p.coeff (8 * i + j.val) ≠ 0)

/-- `utils::GF2E_from_bytes` (utils.cpp:148-155). -/
noncomputable def fromBytes (R : Field) (bs : Bytes) : Elem R := AdjoinRoot.mk _ (bytesPoly bs)

/-- NTL's `rep`: the representative of smallest degree. -/
noncomputable def rep (R : Field) (e : Elem R) : (ZMod 2)[X] := Function.surjInv AdjoinRoot.mk_surjective e %ₘ R.modulus

/-- `utils::ntl_to_custom` (utils.cpp:200-207); `F` are the globals of the library. -/
noncomputable def ofNtl (F : FieldState) (R : Field) (e : Elem R) : W64 := F.fromBytes (polyBytes (rep R e) 8)

/-- `utils::custom_to_ntl` (utils.cpp:208-213): `to_bytes` fills the first bytes of a buffer of eight zeros. -/
noncomputable def toNtl (F : FieldState) (R : Field) (a : W64) : Elem R := AdjoinRoot.mk _ (bytesPoly (F.toBytes a ++ List.replicate (8 - F.byteSize) 0))

/-- `utils::get_first_n_field_elements` (utils.cpp:157-167). -/
noncomputable def firstN (R : Field) (n : Nat) : List (Elem R) :=
  ((List.range n).foldl (fun (st : List (Elem R) × (ZMod 2)[X]) _ => (st.1 ++ [AdjoinRoot.mk _ st.2], st.2 * X)) ([], X)).1

/-- NTL's `BuildFromRoots`. -/
noncomputable def buildFromRoots (R : Field) (xs : List (Elem R)) : (Elem R)[X] := (xs.map fun x => X - C x).prod

open Classical in
/-- Body of the loop of `precompute_lagrange_polynomials` (utils.cpp:177-182). NTL aborts on a division by an element that is not invertible. -/
noncomputable def lagrangePoly (R : Field) (full : (Elem R)[X]) (x : Elem R) : M (Elem R)[X] :=
  let q := full /ₘ (X - C x)
  if IsUnit (q.eval x) then .ok (q * C (Ring.inverse (q.eval x))) else .error .abort

/-- `utils::precompute_lagrange_polynomials` (utils.cpp:168-185). -/
noncomputable def precomputeLagrange (R : Field) (xs : List (Elem R)) : M (List (Elem R)[X]) := xs.mapM (lagrangePoly R (buildFromRoots R xs))

/-- `utils::interpolate_with_precomputation` (utils.cpp:187-199). -/
noncomputable def interpolate (R : Field) (pre : List (Elem R)[X]) (ys : List (Elem R)) : M (Elem R)[X] :=
  if pre.length ≠ ys.length then .error .thrown
  else .ok ((List.range ys.length).foldl (fun res k => res + pre.getD k 0 * C (ys.getD k 0)) 0)

end Banquet.Ref
