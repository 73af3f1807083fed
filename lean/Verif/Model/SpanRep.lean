import Verif.Model.Span
import Verif.Model.Loops

/-! `RepContainer::get` (types.h:58-67) and the random tapes (tape.cpp:56-60) with pointers and 64 bit offsets. -/

namespace Banquet.Gsl

variable {α : Type} (m : Mem α)

/-- `RepContainer::get` (types.h:58-62): `m` is `_data`. The offset is computed in `size_t`. -/
def repGet (numParties objectSize repetition party : W64) : M Span := do
  let offset := repetition * numParties * objectSize + party * objectSize
  let p ← ptrAdd m m.base offset.toNat
  Span.make m p objectSize

/-- `get(repetition, party)[j]`, as in banquet.cpp:224-225. -/
def repRead (numParties objectSize repetition party j : W64) : M α := do
  let s ← repGet m numParties objectSize repetition party
  s.get m j

/-- `*p = x`. -/
def store (p : Nat) (x : α) : M (Mem α) :=
  if m.base ≤ p ∧ p - m.base < m.cells.length then .ok { m with cells := m.cells.set (p - m.base) x } else .error .ub

/-- `get(repetition, party)[j] = x`, with the check of `operator[]` (gsl-lite.hpp:3108-3113). -/
def repWrite (numParties objectSize repetition party j : W64) (x : α) : M (Mem α) := do
  let s ← repGet m numParties objectSize repetition party
  expects (decide (j < s.size))
  let p ← ptrAdd m s.first_ j.toNat
  store m p x

/-- `RepContainer::get_repetition` (types.h:69-76). -/
def repetitionSpans (numParties objectSize repetition : W64) : M (List Span) :=
  (List.range numParties.toNat).mapM fun i => do
    let offset := repetition * numParties * objectSize
    let q ← ptrAdd m m.base offset.toNat
    let p ← ptrAdd m q (BitVec.ofNat 64 i * objectSize).toNat
    Span.make m p objectSize

/-- `RandomTapes::get_bytes` (tape.cpp:56-60). -/
def tapeSpan (numParties objectSize repetition party start len : W64) : M Span := do
  let tape ← repGet m numParties objectSize repetition party
  tape.subspan m start len

end Banquet.Gsl
