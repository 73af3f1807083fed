import Mathlib.Data.Rat.Defs
import Mathlib.Algebra.BigOperators.Group.List.Basic

/-! Specification for C95: the arithmetic mean. -/

namespace Banquet.Spec

/-- Mean of a list of numbers. -/
def mean (l : List Nat) : ℚ := (l.map fun n : Nat => (n : ℚ)).sum / l.length

end Banquet.Spec
