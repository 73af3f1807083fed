import Verif.Spec.KeccakRest

/-! Absorbing whole lanes, and the roll functions, compression and expansion of Kravatte (Bertoni et al., Farfalle: parallel permutation-based cryptography, section 7), one state after the other. -/

namespace Banquet.Spec

/-- XOR of `w 0`, …, `w (n - 1)` into the first `n` lanes. -/
def addLanes (n : Nat) (w : Nat → W64) (a : Lanes) : Lanes := Vector.ofFn fun i => if i.val < n then a[i] ^^^ w i.val else a[i]

/-- Absorb `k` blocks of `n` lanes, block `j` beginning at word `j * step`, with the permutation `p` after each. -/
def absorbEvery (p : Lanes → Lanes) (n step : Nat) (w : Nat → W64) : Nat → Lanes → Lanes
  | 0, a => a
  | k + 1, a => p (addLanes n (fun i => w (k * step + i)) (absorbEvery p n step w k a))

/-- `roll_c`: the last plane `x0 … x4` becomes `x1 … x4, (x0 <<< 7) ⊕ x1 ⊕ (x1 >> 3)`. -/
def rollC (k : Lanes) : Lanes := Vector.ofFn fun i =>
  if i.val < 20 then k[i] else if h : i.val < 24 then k[i.val + 1] else k[20].rotateLeft 7 ^^^ k[21] ^^^ (k[21] >>> 3)

/-- `roll_e`: the last two planes `x0 … x9` become `x1 … x9, (x0 <<< 7) ⊕ (x1 <<< 18) ⊕ (x2 ∧ (x1 >> 1))`. -/
def rollE (y : Lanes) : Lanes := Vector.ofFn fun i =>
  if i.val < 15 then y[i] else if h : i.val < 24 then y[i.val + 1] else y[15].rotateLeft 7 ^^^ y[16].rotateLeft 18 ^^^ (y[17] &&& (y[16] >>> 1))

/-- XOR of two states. -/
def xorLanes (a b : Lanes) : Lanes := Vector.ofFn fun i => a[i] ^^^ b[i]

/-- The first `n` blocks: block `j` is XORed with the key rolled `j` times and permuted (6 rounds); the results are added to the accumulator. -/
def compress (block : Nat → Lanes) (k x : Lanes) : Nat → Lanes
  | 0 => x
  | n + 1 => xorLanes (compress block k x n) (keccakRounds 6 (xorLanes (block n) (rollC^[n] k)))

/-- Output block `n`: the accumulator rolled `n` times, permuted (6 rounds), XOR the key. -/
def expand (y k : Lanes) (n : Nat) : Lanes := xorLanes (keccakRounds 6 (rollE^[n] y)) k

/-- The 25 words of a buffer from `pos` on. -/
def lanesAt (b : List W64) (pos : Nat) : Lanes := Vector.ofFn fun i => b.getD (pos + i.val) 0

end Banquet.Spec
