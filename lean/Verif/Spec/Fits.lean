import Verif.Model.Sponge

/-! For which lengths the sponge code does what it should, in terms of the position in the current block (`idx` bytes of the block of `rate` bytes are used up). -/

namespace Banquet.Spec

/-- The length modulo 2^32 and the position do not add up to 2^32 or more; and a piece of 4 GiB or more fills the block even when its length is taken modulo 2^32. -/
def NoWrap (rate idx len : Nat) : Prop := len + idx < 2 ^ 32 ∨ 2 ^ 32 ≤ len ∧ rate ≤ len % 2 ^ 32 + idx ∧ len % 2 ^ 32 + idx < 2 ^ 32

/-- Lengths that can be absorbed: at the beginning of a block, any. -/
def Fits (rate idx len : Nat) : Prop := idx = 0 ∨ NoWrap rate idx len

/-- Lengths that can be squeezed: at the end of a block, any. -/
def FitsOut (rate idx len : Nat) : Prop := idx = rate ∨ NoWrap rate idx len

/-- Position after `total` bytes of output: the next block is only computed when it is needed, so the position is the rate at the end of a block, and 0 only in the beginning. -/
def outPos (rate total : Nat) : Nat := if total = 0 then 0 else (total - 1) % rate + 1

/-- The failure of a piece that does not fit: an access beyond the state if the sum wraps, otherwise a loop that never ends. -/
def misfit (idx len : Nat) : Err := if 2 ^ 32 ≤ len % 2 ^ 32 + idx then .ub else .fuel

open Classical in
/-- How absorbing the pieces (given by their lengths) one after the other fails after `total` bytes, if it does: with the first piece that does not fit. -/
noncomputable def inFailure (rate : Nat) : Nat → List Nat → Option Err
  | _, [] => none
  | total, n :: ns => if Fits rate (total % rate) n then inFailure rate (total + n) ns else some (misfit (total % rate) n)

open Classical in
/-- The same for pieces of output. -/
noncomputable def outFailure (rate : Nat) : Nat → List Nat → Option Err
  | _, [] => none
  | total, n :: ns => if FitsOut rate (outPos rate total) n then outFailure rate (total + n) ns else some (misfit (outPos rate total) n)

/-- Accesses beyond the end of the state are not defined. -/
structure Bounded (S : SnP) : Prop where
  write : ∀ st data offset, 0 < offset → offset < 200 → 200 < offset + data.length → S.addBytes st data offset = .error .ub
  read : ∀ st offset len, 0 < offset → offset < 200 → 200 < offset + len → S.extractBytes st offset len = .error .ub

/-- The same for the 4-way state. -/
structure PlBounded (S : PlSnP) : Prop where
  write : ∀ st l data offset, 0 < offset → offset < 200 → 200 < offset + data.length → S.addBytes st l data offset = .error .ub
  read : ∀ st l offset len, 0 < offset → offset < 200 → 200 < offset + len → S.extractBytes st l offset len = .error .ub

end Banquet.Spec
