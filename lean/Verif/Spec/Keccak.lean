import Verif.Model.Xof
import Mathlib.Logic.Function.Iterate

/-! FIPS 202: Keccak-p[1600, 24], the sponge construction with the SHAKE padding on byte strings. Written from the standard; independent of the model of the code. -/

namespace Banquet.Spec

/-- Lane `(x, y)` is entry `x + 5 y` (FIPS 202, 3.1.2). -/
abbrev Lanes := Vector (BitVec 64) 25

/-- Read a lane; indices modulo 5. -/
def lane (a : Lanes) (x y : Nat) : BitVec 64 := a[(x % 5) + 5 * (y % 5)]'(by omega)

/-- θ (3.2.1). -/
def theta (a : Lanes) : Lanes :=
  let c : Vector (BitVec 64) 5 := Vector.ofFn fun x =>
    lane a x 0 ^^^ lane a x 1 ^^^ lane a x 2 ^^^ lane a x 3 ^^^ lane a x 4
  let d : Vector (BitVec 64) 5 := Vector.ofFn fun x => c[(x.val + 4) % 5] ^^^ (c[(x.val + 1) % 5]).rotateLeft 1
  Vector.ofFn fun i => a[i] ^^^ d[i.val % 5]

/-- Offsets of ρ (3.2.2, table 2), entry `x + 5 y`. -/
def rhoOffsets : Vector Nat 25 :=
  #v[0, 1, 62, 28, 27, 36, 44, 6, 55, 20, 3, 10, 43, 25, 39, 41, 45, 15, 21, 8, 18, 2, 61, 56, 14]

/-- ρ. -/
def rho (a : Lanes) : Lanes := Vector.ofFn fun i => a[i].rotateLeft rhoOffsets[i]

/-- π (3.2.3): `A'[x,y] = A[(x + 3y) mod 5, x]`. -/
def pi (a : Lanes) : Lanes := Vector.ofFn fun i => lane a (i.val % 5 + 3 * (i.val / 5)) (i.val % 5)

/-- χ (3.2.4). -/
def chi (a : Lanes) : Lanes := Vector.ofFn fun i =>
  let x := i.val % 5
  let y := i.val / 5
  lane a x y ^^^ (~~~ lane a (x + 1) y &&& lane a (x + 2) y)

/-- Round constants of ι (3.2.5). -/
def roundConstants : List (BitVec 64) := [
  0x0000000000000001, 0x0000000000008082, 0x800000000000808A, 0x8000000080008000, 0x000000000000808B, 0x0000000080000001,
  0x8000000080008081, 0x8000000000008009, 0x000000000000008A, 0x0000000000000088, 0x0000000080008009, 0x000000008000000A,
  0x000000008000808B, 0x800000000000008B, 0x8000000000008089, 0x8000000000008003, 0x8000000000008002, 0x8000000000000080,
  0x000000000000800A, 0x800000008000000A, 0x8000000080008081, 0x8000000000008080, 0x0000000080000001, 0x8000000080008008]

/-- One round. -/
def keccakRound (a : Lanes) (rc : BitVec 64) : Lanes :=
  let b := chi (pi (rho (theta a)))
  b.set 0 (b[0] ^^^ rc)

/-- Keccak-p[1600, 24] on lanes. -/
def keccakLanes (a : Lanes) : Lanes := roundConstants.foldl keccakRound a

/-- The state as 200 bytes. -/
abbrev St := Vector Byte 200

/-- Byte string to lanes, little endian. -/
def toLanes (s : St) : Lanes := Vector.ofFn fun i =>
  (List.range 8).foldl (fun acc k => acc ||| ((s.getD (8 * i.val + k) 0).setWidth 64 <<< (8 * k))) 0

/-- Lanes to byte string. -/
def ofLanes (a : Lanes) : St := Vector.ofFn fun i => (a[i.val / 8] >>> (8 * (i.val % 8))).setWidth 8

/-- Keccak-p[1600, 24] on 200 bytes. -/
def keccakF (s : St) : St := ofLanes (keccakLanes (toLanes s))

/-! ## Sponge -/

/-- XOR a block (at most 200 bytes) into the beginning of the state. -/
def xorBlock (s : St) (block : Bytes) : St := Vector.ofFn fun i => s[i] ^^^ block.getD i.val 0

/-- `M ‖ 1111 ‖ pad10*1` for byte strings: the bits `1111` and the first padding bit give the byte 0x1F, the last bit of the last block is set; zero bytes in between. -/
def padShake (rate : Nat) (msg : Bytes) : Bytes :=
  let z := rate - msg.length % rate
  msg ++ (if z = 1 then [0x9F] else [0x1F] ++ List.replicate (z - 2) 0 ++ [0x80])

/-- Consecutive blocks of `rate` bytes. -/
def blocks (rate : Nat) (bs : Bytes) : List Bytes := (List.range (bs.length / rate)).map fun i => (bs.drop (i * rate)).take rate

/-- Absorbing (algorithm 8, steps 1-6) with permutation `f`. -/
def absorb (f : St → St) (rate : Nat) (padded : Bytes) : St :=
  (blocks rate padded).foldl (fun s b => f (xorBlock s b)) (Vector.replicate 200 0)

/-- The output stream (algorithm 8, steps 7-10): the first `rate` bytes of the state, then of its image under `f`, and so on. -/
def squeezeStream (f : St → St) (rate : Nat) (s : St) : Stream :=
  ⟨fun i => (f^[i / rate] s).getD (i % rate) 0⟩

/-- Rate in bytes: 1600 bits minus the capacity 256 or 512 (6.2). -/
def shakeRate : ShakeKind → Nat
  | .shake128 => 168
  | .shake256 => 136

/-- SHAKE128/SHAKE256 as extendable output functions over an arbitrary permutation `f`. -/
def shake (f : St → St) : Xof := fun k msg =>
  squeezeStream f (shakeRate k) (absorb f (shakeRate k) (padShake (shakeRate k) msg))

/-- The XOFs of FIPS 202. -/
def shakeFips : Xof := shake keccakF

end Banquet.Spec
