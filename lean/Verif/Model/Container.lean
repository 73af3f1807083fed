import Verif.Model.Basic

/-! Model of `RepContainer` (types.h:46-77). -/

namespace Banquet

/-- `RepContainer<T>` (types.h:46-57): a flat vector with three sizes. -/
structure RepContainer (α : Type) where
  data : List α
  numRepetitions : Nat
  numParties : Nat
  objectSize : Nat

/-- Constructor (types.h:53-57): value-initialised elements. -/
def RepContainer.mk' {α : Type} (zero : α) (numRepetitions numParties objectSize : Nat) : RepContainer α :=
  ⟨List.replicate (numRepetitions * numParties * objectSize) zero, numRepetitions, numParties, objectSize⟩

/-- The offset computed by `get` (types.h:59-60). -/
def RepContainer.offset {α : Type} (c : RepContainer α) (repetition party : Nat) : Nat :=
  repetition * c.numParties * c.objectSize + party * c.objectSize

/-- Reading through the span returned by `get` (types.h:58-67). There is no range check. -/
def RepContainer.read {α : Type} (c : RepContainer α) (repetition party : Nat) : List α :=
  (c.data.drop (c.offset repetition party)).take c.objectSize

/-- Writing `vals` through the span returned by `get` (types.h:58-67). -/
def RepContainer.write {α : Type} (c : RepContainer α) (repetition party : Nat) (vals : List α) : RepContainer α :=
  let o := c.offset repetition party
  { c with data := c.data.take o ++ vals ++ c.data.drop (o + vals.length) }

/-- Offsets of the spans returned by `get_repetition` (types.h:69-76). -/
def RepContainer.repetitionOffsets {α : Type} (c : RepContainer α) (repetition : Nat) : List Nat :=
  (List.range c.numParties).map fun i => repetition * c.numParties * c.objectSize + i * c.objectSize

/-- Reading through the spans of `get_repetition`. -/
def RepContainer.readRepetition {α : Type} (c : RepContainer α) (repetition : Nat) : List (List α) :=
  (c.repetitionOffsets repetition).map fun o => (c.data.drop o).take c.objectSize

end Banquet
