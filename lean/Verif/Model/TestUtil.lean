import Verif.Model.TestRef

/-! Model of the test case with random values (tests/util_test.cpp), whose random values are inputs here, and of those that compare with NTL (tests/field_test.cpp:97-268), whose fixed values are inputs here. -/

namespace Banquet.Ref

open Polynomial

open Classical in
/-- NTL's `interpolate` (util_test.cpp:22-23), after its documentation: the polynomial of degree below the number of points that has the given values. NTL aborts on vectors of different length, and on equal points, where it divides by zero. -/
noncomputable def ntlInterpolate (R : Field) (xs ys : List (Elem R)) : M (Elem R)[X] :=
  if xs.length = ys.length ∧ xs.Nodup then
    .ok (Classical.epsilon fun p : (Elem R)[X] => p.degree < xs.length ∧ ∀ (i : Nat) (x y : Elem R), xs[i]? = some x → ys[i]? = some y → p.eval x = y)
  else .error .abort

open Classical in
/-- "Precomputed Lagrange Interpolation" (util_test.cpp:9-34) on given points and values. -/
noncomputable def lagrangeTest (R : Field) (xs ys1 ys2 : List (Elem R)) : M Bool := do
  let poly1 ← ntlInterpolate R xs ys1
  let poly2 ← ntlInterpolate R xs ys2
  let pre ← precomputeLagrange R xs
  let q1 ← interpolate R pre ys1
  let q2 ← interpolate R pre ys2
  .ok (decide (poly1 = q1) && decide (poly2 = q2))

/-- "NTL to_bytes = custom to_bytes" (field_test.cpp:97-168) for one of the two elements, given by its exponents. The four bytes of the buffers are the size of the field chosen there. -/
noncomputable def bytesTest (F : FieldState) (R : Field) (cs : List Nat) : Bool := decide (F.toBytes (ofCoeffs cs) = polyBytes (rep R (AdjoinRoot.mk _ (setCoeffs cs))) F.byteSize)

open Classical in
/-- "NTL to custom conversion" (field_test.cpp:202-207). NTL aborts on a division by an element that is not invertible. -/
noncomputable def conversionTest (F : FieldState) (R : Field) (a b : W64) : M Bool :=
  let ab := F.mul a b
  if IsUnit (toNtl F R a) then .ok (decide (b = ofNtl F R (toNtl F R ab * Ring.inverse (toNtl F R a)))) else .error .abort

open Classical in
/-- "NTL inverse == custom" (field_test.cpp:230-238) without the output. -/
noncomputable def inverseTest (F : FieldState) (R : Field) (a : W64) : M Bool :=
  let b := F.inverse a
  if IsUnit (toNtl F R a) then .ok (decide (b = ofNtl F R (Ring.inverse (toNtl F R a))) && decide (F.mul a b = 1)) else .error .abort

open Classical in
/-- NTL's `p.rep.length()`: there are no leading zeros. -/
noncomputable def repLength {R : Field} (p : (Elem R)[X]) : Nat := if p = 0 then 0 else p.natDegree + 1

/-- Comparison of one polynomial (field_test.cpp:252-255, 263-266): the number of coefficients, and each of them. -/
noncomputable def samePoly (F : FieldState) (R : Field) (p : List W64) (q : (Elem R)[X]) : Bool := decide (p.length = repLength q) && (List.range p.length).all fun j => decide (p.getD j 0 = ofNtl F R (q.coeff j))

/-- "NTL interpolation == custom" (field_test.cpp:245-267), with `n` points. -/
noncomputable def interpolationTest (F : FieldState) (R : Field) (n : Nat) : M Bool := do
  let a := F.firstN n
  let b := firstN R n
  let points := (List.range n).all fun i => decide (a.getD i 0 = ofNtl F R (b.getD i 0))
  let roots := samePoly F R (F.buildFromRoots a) (buildFromRoots R b)
  let aLag := F.precomputeLagrange a
  let bLag ← precomputeLagrange R b
  .ok (points && roots && decide (aLag.length = bLag.length) && (List.range aLag.length).all fun i => samePoly F R (aLag.getD i []) (bLag.getD i 0))

end Banquet.Ref
