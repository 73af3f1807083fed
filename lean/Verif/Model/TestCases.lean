import Verif.Model.Banquet

/-! Model of test cases of the repository (tests/tree_test.cpp, tests/banquet_test.cpp), for any hash function in place of SHAKE. A test case returns whether all its `REQUIRE` hold; an exception or undefined behaviour is an error. -/

namespace Banquet.Tests

/-- `seed` (tree_test.cpp:8-9, 18-19, 28-29). -/
def seed : Bytes := (List.range 16).map (BitVec.ofNat 8)

/-- `salt` (tree_test.cpp:10, 20, 30): an array of 32 bytes with 16 given. -/
def salt : Bytes := (List.range 16).map (fun i => BitVec.ofNat 8 (15 - i)) ++ List.replicate 16 0

/-- "Tree is constructed" (tree_test.cpp:7-15). -/
def treeConstructed (X : Xof) : M Bool := do
  let tree ← SeedTree.ofSeed X seed 64 salt 0
  .ok ((List.range 64).all fun i => (tree.getLeaf i).isSome)

/-- "Reveallist is constructed" (tree_test.cpp:17-25). -/
def revealConstructed (X : Xof) : M Bool := do
  let tree ← SeedTree.ofSeed X seed 64 salt 0
  let r := tree.revealAllBut 0
  .ok (decide (r.missing = 0) && decide (r.seeds.length = 6))

/-- Comparison of one leaf (tree_test.cpp:37-39): `value()` throws if there is none. -/
def sameLeaf (tree tree2 : SeedTree) (i : Nat) : M Bool :=
  match tree.getLeaf i, tree2.getLeaf i with
  | some a, some b => .ok (decide (a = b))
  | _, _ => .error .thrown

/-- "Reveallist can reconstruct tree" (tree_test.cpp:27-40). -/
def treeReconstructed (X : Xof) : M Bool := do
  let tree ← SeedTree.ofSeed X seed 64 salt 0
  let tree2 ← SeedTree.ofReveal X (tree.revealAllBut 0) 64 salt 0
  let same ← ((List.range 63).map (· + 1)).mapM (sameLeaf tree tree2)
  .ok (!(tree2.getLeaf 0).isSome && same.all id)

/-- `message` (banquet_test.cpp:7, 37). -/
def message : Bytes := "TestMessage".toList.map fun c => BitVec.ofNat 8 c.toNat

/-- `key` (banquet_test.cpp:10-12). -/
def key : Bytes := List.replicate 16 0xff

/-- `keypair.second` (banquet_test.cpp:13-24): `plaintext` and `ciphertext_expected`. -/
def pk : Bytes := [0x01, 0x01, 0x01, 0x01, 0x00, 0x00, 0x00, 0x00, 0x00, 0x00, 0x00, 0x00, 0x00, 0x00, 0x00, 0x00] ++
  [0x0b, 0x5a, 0x81, 0x4d, 0x95, 0x60, 0x1c, 0xc7, 0xef, 0xe7, 0x12, 0x28, 0x3e, 0x05, 0xef, 0x8f]

/-- "Sign and verify a message" (banquet_test.cpp:6-34) without the output of the length. `serialize` uses the field that `sign` has set up. -/
def signVerify (X : Xof) (fuel : Nat) : M Bool := do
  let I ← instanceGet 1
  let sig ← sign X fuel I key pk message
  let F ← initExtensionField I.lambda
  let _ ← serialize F I sig
  verify X fuel I pk sig message

/-- The comparisons of one repetition (banquet_test.cpp:55-64). -/
def sameProof (a b : Proof) : Bool :=
  decide (a.reveal = b.reveal) && decide (a.cE = b.cE) && decide (a.skDelta = b.skDelta) && decide (a.tDelta = b.tDelta) && decide (a.pDelta = b.pDelta) && decide (a.pAtR = b.pAtR) &&
    decide (a.sAtR = b.sAtR) && decide (a.tAtR = b.tAtR)

/-- One iteration of the loop (banquet_test.cpp:53-65). An index behind the end of `proofs` is undefined behaviour. -/
def sameAt (a b : List Proof) (i : Nat) : M Bool :=
  match a[i]?, b[i]? with
  | some p, some q => .ok (sameProof p q)
  | _, _ => .error .ub

/-- "Serialization and Deserialization" (banquet_test.cpp:36-66): `draws` are the random values that `banquet_keygen` gets. -/
def roundtrip (X : Xof) (fuel : Nat) (draws : Nat → Bytes × Bytes) (tries : Nat) : M Bool := do
  let I ← instanceGet 1
  let (sk, pk) ← keygen I draws tries 0
  let sig ← sign X fuel I sk pk message
  let F ← initExtensionField I.lambda
  let bs ← serialize F I sig
  let sig2 ← deserialize X fuel F I bs
  let same ← (List.range I.numRounds).mapM (sameAt sig.proofs sig2.proofs)
  .ok (decide (sig.proofs.length = I.numRounds) && decide (sig.salt = sig2.salt) && decide (sig.h1 = sig2.h1) && decide (sig.h3 = sig2.h3) && same.all id)

end Banquet.Tests
