import Verif.Model.Basic

/-! Model of banquet_instances.h and banquet_instances.cpp. -/

namespace Banquet

/-- `banquet_aes_t` (banquet_instances.h:36-41). `uint32_t` fields as natural numbers. -/
structure AesParams where
  keySize : Nat
  blockSize : Nat
  numBlocks : Nat
  numSboxes : Nat
  deriving DecidableEq, Repr

/-- `banquet_instance_t` (banquet_instances.h:43-58). `uint32_t` fields as natural numbers; `params` is the value of the enumerator
(banquet_instances.h:8-34). -/
structure Instance where
  aes : AesParams
  digestSize : Nat
  seedSize : Nat
  numRounds : Nat
  numParties : Nat
  m1 : Nat
  m2 : Nat
  lambda : Nat
  params : Nat
  deriving DecidableEq, Repr

/-- `AES128_PARAMS` (banquet_instances.cpp:6). -/
def aes128Params : AesParams := ⟨16, 16, 1, 200⟩
/-- `AES192_PARAMS` (banquet_instances.cpp:7). -/
def aes192Params : AesParams := ⟨24, 16, 2, 416⟩
/-- `AES256_PARAMS` (banquet_instances.cpp:8). -/
def aes256Params : AesParams := ⟨32, 16, 2, 500⟩

/-- `instances` (banquet_instances.cpp:10-46), row by row including the invalid row 0. The last column is `params`: note rows 7 and 8. -/
def instances : List Instance := [
  ⟨⟨0, 0, 0, 0⟩, 0, 0, 0, 0, 0, 0, 0, 0⟩,
  ⟨aes128Params, 32, 16, 31, 64, 10, 20, 4, 1⟩,
  ⟨aes128Params, 32, 16, 31, 64, 20, 10, 4, 2⟩,
  ⟨aes128Params, 32, 16, 29, 64, 10, 20, 5, 3⟩,
  ⟨aes128Params, 32, 16, 27, 64, 10, 20, 6, 4⟩,
  ⟨aes128Params, 32, 16, 41, 16, 10, 20, 4, 5⟩,
  ⟨aes128Params, 32, 16, 35, 32, 10, 20, 4, 6⟩,
  ⟨aes128Params, 32, 16, 28, 128, 10, 20, 4, 8⟩,
  ⟨aes128Params, 32, 16, 24, 128, 10, 20, 6, 7⟩,
  ⟨aes128Params, 32, 16, 23, 256, 10, 20, 5, 9⟩,
  ⟨aes128Params, 32, 16, 21, 256, 10, 20, 6, 10⟩,
  ⟨aes192Params, 48, 24, 46, 64, 16, 26, 4, 11⟩,
  ⟨aes192Params, 48, 24, 46, 64, 26, 16, 4, 12⟩,
  ⟨aes192Params, 48, 24, 62, 16, 26, 16, 4, 13⟩,
  ⟨aes192Params, 48, 24, 53, 32, 26, 16, 4, 14⟩,
  ⟨aes192Params, 48, 24, 40, 64, 26, 16, 6, 15⟩,
  ⟨aes192Params, 48, 24, 36, 128, 26, 16, 6, 16⟩,
  ⟨aes192Params, 48, 24, 32, 256, 26, 16, 6, 17⟩,
  ⟨aes256Params, 64, 32, 63, 64, 20, 25, 4, 18⟩,
  ⟨aes256Params, 64, 32, 84, 16, 25, 20, 4, 19⟩,
  ⟨aes256Params, 64, 32, 63, 32, 25, 20, 6, 20⟩,
  ⟨aes256Params, 64, 32, 54, 64, 25, 20, 6, 21⟩,
  ⟨aes256Params, 64, 32, 48, 128, 25, 20, 6, 22⟩,
  ⟨aes256Params, 64, 32, 43, 256, 25, 20, 6, 23⟩]

/-- `banquet_instance_get` (banquet_instances.cpp:48-54). `param` is the enumerator's integer value; out-of-range values throw. -/
def instanceGet (param : Int) : M Instance :=
  if param ≤ 0 ∨ param ≥ 24 then .error .thrown
  else match instances[param.toNat]? with
    | some i => .ok i
    | none => .error .ub

end Banquet
