import Verif.Spec.Aes

/-! Specification of the AES evaluation of one party on shares: AES as in FIPS 197, with every S-box output taken from a given list `t` of shares of inverses. Only the party with `first` adds the plaintext
and the constants. -/

namespace Banquet.Spec.Shared

open Spec.Aes

variable (first : Bool) (t : Bytes)

/-- Output of S-box number `k`: the affine map applied to the share of the inverse, its constant for one party only. -/
def out (k : Nat) : Byte := affine (t.getD k 0) ^^^ (if first then 0 else 0x63)

/-- Outputs of four S-boxes from number `k`. -/
def outWord (k : Nat) : Word := Vector.ofFn fun r => out first t (k + r.val)

/-- Words of the key schedule that need S-boxes (FIPS 197, figure 11). -/
def usesSbox (nk i : Nat) : Bool := decide (nk ≤ i) && (i % nk == 0 || (decide (6 < nk) && i % nk == 4))

/-- Number of the first S-box used for word `i` of the key schedule. -/
def sboxAt (nk i : Nat) : Nat := 4 * (List.range i).countP (usesSbox nk)

/-- The constant added to word `i`, by one party only. -/
def constant (nk i : Nat) : Word := if first ∧ i % nk = 0 then rcon (i / nk) else Vector.replicate 4 0

/-- Word `i = w.length` of the key schedule, `nk ≤ i`, from the words before it. -/
def nextWord (nk : Nat) (w : List Word) : Word :=
  let i := w.length
  (w.getD (i - nk) (Vector.replicate 4 0)).xor
    ((if usesSbox nk i then outWord first t (sboxAt nk i) else w.getD (i - 1) (Vector.replicate 4 0)).xor (constant first nk i))

/-- The first `n` words of the key schedule. -/
def keyExpansion (nk : Nat) (key : Bytes) : Nat → List Word
  | 0 => []
  | n + 1 => let w := keyExpansion nk key n
    w ++ [if n < nk then keyWord key n else nextWord first t nk w]

/-- S-box inputs of the key schedule. -/
def keyInputs (nk : Nat) (w : List Word) : Bytes :=
  (List.range w.length).flatMap fun i =>
    if usesSbox nk i then
      let prev := w.getD (i - 1) (Vector.replicate 4 0)
      (if i % nk = 0 then rotWord prev else prev).toList
    else []

/-- State after `SubBytes`, with S-boxes numbered row by row from `k`. -/
def subState (k : Nat) : State := Vector.ofFn fun c => Vector.ofFn fun r => out first t (k + 4 * r.val + c.val)

/-- State before round `i + 1`; `k` is the number of the first S-box of the block. -/
def roundState (w : List Word) (s : State) (k : Nat) : Nat → State
  | 0 => s.addRoundKey w 0
  | i + 1 => (subState first t (k + 16 * i)).shiftRows.mixColumns.addRoundKey w (i + 1)

/-- State after the last round. -/
def lastState (nr : Nat) (w : List Word) (k : Nat) : State := (subState first t (k + 16 * (nr - 1))).shiftRows.addRoundKey w nr

/-- The bytes of a state row by row. -/
def rows (s : State) : Bytes := (List.finRange 4).flatMap fun r => (List.finRange 4).map fun c => s[c][r]

/-- The state at the beginning: the plaintext for one party, zero for the others. -/
def start (pt : Bytes) (b : Nat) : State := if first then toState (slice pt (16 * b) 16) else Vector.replicate 4 (Vector.replicate 4 0)

/-- S-box inputs and ciphertext of one party, for a key of `4 nk` bytes and `blocks` blocks. -/
def evaluate (nk blocks : Nat) (key pt : Bytes) : Bytes × Bytes :=
  let nr := nk + 6
  let w := keyExpansion first t nk key (4 * (nr + 1))
  let k := sboxAt nk (4 * (nr + 1))
  (keyInputs nk w ++ (List.range blocks).flatMap fun b => (List.range nr).flatMap fun i => rows (roundState first t w (start first pt b) (k + 16 * nr * b) i),
    (List.range blocks).flatMap fun b => (lastState first t nr w (k + 16 * nr * b)).bytes)

end Banquet.Spec.Shared
