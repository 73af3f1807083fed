import Verif.Model.Basic

/-! Vectors that hold one value for every repetition and party. -/

namespace Banquet.Spec

/-- The value of party `p` in repetition `e`: `k` elements, after those of the parties before it and of all `n` parties of the repetitions before. -/
def slot {α : Type} (v : List α) (n k e p : Nat) : List α := (List.range k).filterMap fun i => v[e * n * k + p * k + i]?

end Banquet.Spec
