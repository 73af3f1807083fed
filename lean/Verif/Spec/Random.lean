import Verif.Model.Random

/-! What callers of the random generator may rely on. -/

namespace Banquet.Spec

/-- What a caller of `rand_bytes` on a buffer `buf` may rely on, when `bs` are the bytes that the operating system delivered: they are at the beginning of the buffer, the rest is unchanged, and success
means that the whole buffer was delivered. -/
def Filled (buf bs : Bytes) (res : Bool × Bytes) : Prop := res.2 = bs ++ buf.drop bs.length ∧ (res.1 = true → bs.length = buf.length ∧ res.2 = bs)

/-- The bytes that a call of `read` delivers. -/
def bytesOf : ReadResult → Bytes
  | .data bs => bs
  | _ => []

/-- The bytes that the first `n` calls of `read` deliver. -/
def delivered (r : Nat → ReadResult) (n : Nat) : Bytes := (List.range n).flatMap fun i => bytesOf (r i)

/-- Every byte of `out` was delivered by the random generator: byte `p` is byte `p` of what one of the calls wrote. -/
def Random (calls : Nat → Bytes) (n : Nat) (out : Bytes) : Prop := ∀ p < out.length, ∃ j < n, p < (calls j).length ∧ out.getD p 0 = (calls j).getD p 0

end Banquet.Spec
