import Verif.Spec.Aes

/-! What an observer of table indices computes: the AES key from the S-box inputs of the first two rounds. Written from FIPS 197. -/

namespace Banquet.Spec.Leak

open Spec.Aes

/-- The `i`-th S-box input in an observed sequence in which input and output alternate and the `m1 * m2` pairs come in columns: pair `j + m1 * k` at place `m2 * j + k`. -/
def observed (m1 m2 : Nat) (l : Bytes) (i : Nat) : Byte := l.getD (2 * (m2 * (i % m1) + i / m1)) 0

/-- The number of S-box inputs of the key schedule (FIPS 197, figure 11): four for every word that uses `SubWord`. -/
def scheduled (nk : Nat) : Nat := 4 * ((List.range (4 * (nk + 7))).filter fun i => decide (nk ≤ i ∧ (i % nk = 0 ∨ 6 < nk ∧ i % nk = 4))).length

/-- The state before `SubBytes` of round `i + 1` of the first block, row by row after the inputs of the key schedule. -/
def stateOf (nk : Nat) (s : Nat → Byte) (i : Nat) : State := Vector.ofFn fun c => Vector.ofFn fun r => s (scheduled nk + 16 * i + 4 * r.val + c.val)

/-- XOR of states. -/
def diff (a b : State) : State := Vector.ofFn fun c => (a[c] : Word).xor b[c]

/-- The first two round keys are the differences between what goes into `AddRoundKey` and what comes out; they begin with the key. -/
def keyOf (nk : Nat) (pt : Bytes) (s : Nat → Byte) : Bytes :=
  ((diff (stateOf nk s 0) (toState pt)).bytes ++ (diff (stateOf nk s 1) (stateOf nk s 0).subBytes.shiftRows.mixColumns).bytes).take (4 * nk)

end Banquet.Spec.Leak
