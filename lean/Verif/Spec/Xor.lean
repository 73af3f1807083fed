import Verif.Model.Basic

/-! XOR of several byte strings. -/

namespace Banquet.Spec

/-- Byte `i` is the XOR of bytes `i` of the given strings, for `i < n`. -/
def xorOf (n : Nat) (l : List Bytes) : Bytes := (List.range n).map fun i => (l.map fun b => b.getD i 0).foldl (· ^^^ ·) 0

end Banquet.Spec
