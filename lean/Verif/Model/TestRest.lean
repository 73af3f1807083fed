import Verif.Model.TestRef
import Verif.Model.Aes

/-! Model of the test cases of tests/aes_test.cpp, and of those of tests/field_test.cpp and tests/util_test.cpp on single elements. The fixed values are inputs here. -/

namespace Banquet.Ref

open Polynomial

/-- "AES-128 KAT", "AES-192 KAT", "AES-256 KAT" (aes_test.cpp:18-21, 38-42, 63-67). The tests for two blocks double their vectors with an `insert` of a vector into itself (aes_test.cpp:30-31, 35-37, …), which the C++ standard does not define;
taken as what is meant, the block twice. -/
def aesTest (keySize : Nat) (key pt expected : Bytes) : Bool :=
  match aesPlain keySize key pt with
  | some ct => decide (ct = expected)
  | none => false

/-- "AES-128 normal is equal to sbox-saving" and the other two (aes_test.cpp:80-90, 108-118, 138-147), `n` for `NUM_SBOXES`. -/
def aesSaveTest (keySize n : Nat) (key pt expected : Bytes) : Bool :=
  match aesPlain keySize key pt with
  | some ct =>
    let r := aesSave keySize key pt
    decide (ct = expected) && decide (r.1 = some ct) && decide (r.2.1.length = n) && decide (r.2.2.length = n)
  | none => false

/-- "Basic Arithmetic in all fields" (field_test.cpp:14-30) for one field. -/
def basicTest (F : FieldState) : Bool :=
  let zero : W64 := 0
  let one : W64 := 1
  let x : W64 := 2
  let x2 : W64 := 4
  decide (gfAdd one zero = one) && decide (gfAdd zero one = one) && decide (gfAdd zero zero = zero) && decide (gfAdd one one = zero) &&
  decide (F.mul one one = one) && decide (F.mul zero one = zero) && decide (F.mul one zero = zero) && decide (F.mul zero zero = zero) &&
  decide (F.mul x one = x) && decide (F.mul x x = x2)

/-- "Modular Arithmetic GF(2^32)", "GF(2^40)", "GF(2^48)" (field_test.cpp:65-70, 75-82, 87-94). -/
def modularTest (F : FieldState) (a b ab aa bb : W64) : Bool := decide (F.mul a b = ab) && decide (F.mul a a = aa) && decide (F.mul b b = bb)

open Classical in
/-- "Basic Lifting tests" (util_test.cpp:38-88): two bytes, and the exponents of the elements they should be lifted to. -/
noncomputable def liftTest (R : Field) (a b : Byte) (ca cb : List Nat) : Bool :=
  let la : Elem R := AdjoinRoot.mk _ (setCoeffs ca)
  let lb : Elem R := AdjoinRoot.mk _ (setCoeffs cb)
  decide (lift R a = la) && decide (lift R b = lb) && decide (la * lb = 1)

end Banquet.Ref
