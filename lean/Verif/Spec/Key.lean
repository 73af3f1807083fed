import Verif.Model.Instances
import Verif.Spec.Aes

/-! What a key pair is. -/

namespace Banquet.Spec

open Aes

/-- A key pair: the public key consists of a plaintext and its FIPS 197 encryption under the secret key, and no S-box input of that encryption is zero. -/
def KeyPair (I : Instance) (sk pk : Bytes) : Prop :=
  sk.length = I.aes.keySize ∧ ∃ pt, pk = pt ++ encrypt (I.aes.keySize / 4) I.aes.numBlocks sk pt ∧ pt.length = I.aes.blockSize * I.aes.numBlocks ∧
    0 ∉ sboxInputs (I.aes.keySize / 4) I.aes.numBlocks sk pt

end Banquet.Spec
