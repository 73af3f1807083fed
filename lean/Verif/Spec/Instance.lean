import Verif.Model.Instances
import Verif.Spec.Gf

/-! What a usable parameter set is. -/

namespace Banquet.Spec

/-- A consistent parameter set: one of the three AES variants (key size, block size, blocks, and number of S-boxes computed from FIPS 197: 16 per round and block and the
key schedule), matching digest and seed sizes, a supported field, `m1 m2` equal to the number of S-boxes, a power of two of parties in the range of the two byte encodings, and
fewer than 21845 interpolation points. -/
structure Consistent (I : Instance) : Prop where
  aes : (I.aes.keySize, I.aes.blockSize, I.aes.numBlocks, I.aes.numSboxes) = (16, 16, 1, 10 * 16 + 10 * 4) ∨
    (I.aes.keySize, I.aes.blockSize, I.aes.numBlocks, I.aes.numSboxes) = (24, 16, 2, 2 * (12 * 16) + 8 * 4) ∨
    (I.aes.keySize, I.aes.blockSize, I.aes.numBlocks, I.aes.numSboxes) = (32, 16, 2, 2 * (14 * 16) + 13 * 4)
  seed : I.seedSize = I.aes.keySize
  digest : I.digestSize = 2 * I.seedSize
  sboxes : I.m1 * I.m2 = I.aes.numSboxes
  parties : ∃ k, 1 ≤ k ∧ k ≤ 15 ∧ I.numParties = 2 ^ k
  rounds : 1 ≤ I.numRounds ∧ I.numRounds < 2 ^ 16
  lambda : Supported I.lambda
  points : 2 * I.m2 + 1 ≤ 21845

end Banquet.Spec
