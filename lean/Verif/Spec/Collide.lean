import Verif.Model.Xof

/-! Collisions of the hash function. -/

namespace Banquet.Spec

/-- Two different inputs with the same first `len` bytes of output. -/
def Collide (X : Xof) (kind : ShakeKind) (len : Nat) (x y : Bytes) : Prop := x ≠ y ∧ (X kind x).squeeze 0 len = (X kind y).squeeze 0 len

end Banquet.Spec
