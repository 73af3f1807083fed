import Verif.Model.Basic

/-! Model of the parts of `gsl::span` (gsl-lite.hpp:2795-3150) that the library uses or could use in place of them. `gsl_CONFIG_SPAN_INDEX_TYPE` is `std::size_t` (gsl-lite.hpp:223-224), contract violations terminate (gsl-lite.hpp:1402-1413). -/

namespace Banquet.Gsl

/-- One array (the storage of a vector): its address and its elements. The address 0 is the null pointer. -/
structure Mem (α : Type) where
  base : Nat
  cells : List α

/-- `gsl::span<T>` (gsl-lite.hpp:2795-2797): the members `first_` and `last_`. Addresses are counted in elements. -/
structure Span where
  first_ : Nat
  last_ : Nat

/-- `gsl_Expects` (gsl-lite.hpp:1402-1413). -/
def expects (c : Bool) : M Unit := if c then .ok () else .error .abort

variable {α : Type} (m : Mem α)

/-- `p + n` on pointers: undefined if it leaves the array; `nullptr + 0` is allowed. -/
def ptrAdd (p n : Nat) : M Nat := if (m.base ≤ p ∧ p + n ≤ m.base + m.cells.length) ∨ (p = 0 ∧ n = 0) then .ok (p + n) else .error .ub

/-- `p - n` on pointers. -/
def ptrSub (p n : Nat) : M Nat := if (m.base + n ≤ p ∧ p ≤ m.base + m.cells.length) ∨ (p = 0 ∧ n = 0) then .ok (p - n) else .error .ub

/-- `*p`. -/
def deref (p : Nat) : M α :=
  if p < m.base then .error .ub
  else match m.cells[p - m.base]? with
    | some x => .ok x
    | none => .error .ub

/-- `span(pointer, index_type)` (gsl-lite.hpp:2849-2854). -/
def Span.make (p : Nat) (size : W64) : M Span := do
  expects (decide (size = 0) || (decide (size > 0) && decide (p ≠ 0)))
  let l ← ptrAdd m p size.toNat
  .ok ⟨p, l⟩

/-- `size()` (gsl-lite.hpp:3082-3086). -/
def Span.size (s : Span) : W64 := BitVec.ofNat 64 (s.last_ - s.first_)

/-- `first(count)` (gsl-lite.hpp:3050-3055). -/
def Span.first (s : Span) (count : W64) : M Span := do
  expects (decide (count ≤ s.size))
  Span.make m s.first_ count

/-- `last(count)` (gsl-lite.hpp:3057-3062). -/
def Span.last (s : Span) (count : W64) : M Span := do
  expects (decide (count ≤ s.size))
  let e ← ptrAdd m s.first_ s.size.toNat
  let p ← ptrSub m e count.toNat
  Span.make m p count

/-- `subspan(offset)` (gsl-lite.hpp:3064-3069). -/
def Span.subspanFrom (s : Span) (offset : W64) : M Span := do
  expects (decide (offset ≤ s.size))
  let p ← ptrAdd m s.first_ offset.toNat
  Span.make m p (s.size - offset)

/-- `subspan(offset, count)` (gsl-lite.hpp:3071-3078), called by `RandomTapes::get_bytes` (tape.cpp:59). -/
def Span.subspan (s : Span) (offset count : W64) : M Span := do
  expects (decide (offset ≤ s.size) && decide (count ≤ s.size - offset))
  let p ← ptrAdd m s.first_ offset.toNat
  Span.make m p count

/-- `operator[]` (gsl-lite.hpp:3108-3113). -/
def Span.get (s : Span) (pos : W64) : M α := do
  expects (decide (pos < s.size))
  let p ← ptrAdd m s.first_ pos.toNat
  deref m p

/-- `front()` (gsl-lite.hpp:3131-3136). -/
def Span.front (s : Span) : M α := do
  expects (decide (s.first_ ≠ s.last_))
  deref m s.first_

/-- `back()` (gsl-lite.hpp:3138-3143). -/
def Span.back (s : Span) : M α := do
  expects (decide (s.first_ ≠ s.last_))
  let p ← ptrSub m s.last_ 1
  deref m p

/-- A call of one of the functions that return a part of a span. -/
inductive Call
  | first (count : W64)
  | last (count : W64)
  | subspanFrom (offset : W64)
  | subspan (offset count : W64)

/-- Calls one after the other, each on the result of the one before. -/
def Span.calls (s : Span) : List Call → M Span
  | [] => .ok s
  | .first c :: cs => do let t ← s.first m c; t.calls cs
  | .last c :: cs => do let t ← s.last m c; t.calls cs
  | .subspanFrom o :: cs => do let t ← s.subspanFrom m o; t.calls cs
  | .subspan o c :: cs => do let t ← s.subspan m o c; t.calls cs

end Banquet.Gsl
