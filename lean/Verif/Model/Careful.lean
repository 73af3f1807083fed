import Verif.Model.Banquet

/-! A caller of the library who checks what the library does not check. This is not in the repository; it consists of calls of public functions of banquet.h and aes.h (banquet.h:10-28, aes.h) after comparisons of lengths. -/

namespace Banquet.Careful

/-- Length of an encoded signature (banquet.cpp:1203-1216, as computed by the caller): salt, two hashes, and for every repetition the seeds, the commitment, the corrections and the opened values. -/
def signatureSize (I : Instance) : Nat :=
  32 + I.digestSize + I.digestSize + I.numRounds * (ceilLog2 I.numParties * I.seedSize + I.digestSize + I.aes.keySize + I.aes.numSboxes + (I.m2 + 1) * I.lambda + I.lambda + I.m1 * I.lambda + I.m1 * I.lambda)

/-- Before `banquet_sign` (banquet.cpp:290): the lengths of the keys are compared, and AES is computed as in `banquet_keygen` (banquet.cpp:268-281), so that keys with a zero S-box input and wrong pairs are found.
Then `banquet_sign` and `banquet_serialize_signature` (banquet.cpp:1196) are called; the first has set the field for the second. -/
def sign (X : Xof) (fuel : Nat) (I : Instance) (sk pk msg : Bytes) : M Bytes :=
  if sk.length = I.aes.keySize ∧ pk.length = 2 * I.ctSize ∧ aesPlain I.aes.keySize sk (pk.take I.ctSize) = some (pk.drop I.ctSize) then do
    let sig ← Banquet.sign X fuel I sk pk msg
    let F ← initExtensionField I.lambda
    serialize F I sig
  else .error .thrown

/-- Before `banquet_verify` (banquet.cpp:777): the lengths of public key and signature are compared; the field is set with `GF2E::init_extension_field` (field.h:53) before `banquet_deserialize_signature`
(banquet.cpp:1238). A signature of a wrong length is not accepted. -/
def verify (X : Xof) (fuel : Nat) (I : Instance) (pk bs msg : Bytes) : M Bool :=
  if pk.length ≠ 2 * I.ctSize then .error .thrown
  else if bs.length ≠ signatureSize I then .ok false
  else do
    let F ← initExtensionField I.lambda
    let sig ← deserialize X fuel F I bs
    Banquet.verify X fuel I pk sig msg

end Banquet.Careful
