import Verif.Model.Code
import Verif.Model.Keccak64
import Verif.Model.KeccakX4
import Verif.Model.KeccakAvx2
import Verif.Spec.Snp

/-! The builds of the hash code, and what a correct one is. -/

namespace Banquet.Spec

/-- Which XOF is used for a digest size (in bytes): SHAKE128 for 32, SHAKE256 for 48 and 64. -/
def xofKind (digestSize : Nat) : ShakeKind := if digestSize = 32 then .shake128 else .shake256

/-- The hash code works on the Keccak state as it should (`Snp`, `PlSnp`), with permutation `f`. -/
def Correct (f : St → St) (H : Code.Hash) : Prop := (∃ view, Snp f H.one view) ∧ ∃ view, PlSnp f H.four view

/-- The build without AVX2 (keccak/CMakeLists.txt:28-33): keccak/opt64 for single hashes, four of its states for the 4-way hashes. -/
def portable : Code.Hash := ⟨Opt64.snp, Opt64.plSnp⟩

/-- The build with AVX2, the default (keccak/CMakeLists.txt:22-27): assembler for single hashes, SIMD for the 4-way hashes. -/
def avx2 : Code.Hash := ⟨Avx2.snp, X4.plSnp⟩

/-- The straightforward implementation on 200 bytes with any permutation: accesses outside the state are not defined. -/
def refSnp (f : St → St) : SnP where
  State := St
  init := Vector.replicate 200 0
  addByte s b o := if o < 200 then .ok (addByte s b o) else .error .ub
  addBytes s d o := if o + d.length ≤ 200 then .ok (addBytes s d o) else .error .ub
  extractBytes s o n := if o + n ≤ 200 then .ok (extractBytes s o n) else .error .ub
  permute := f
  fastLoop s lanes d := .ok (absorbFull f (8 * lanes) (d.length / (8 * lanes)) s d, d.length / (8 * lanes) * (8 * lanes))

/-- The same, four times. -/
def refPlSnp (f : St → St) : PlSnP where
  State := Fin 4 → St
  init := fun _ => Vector.replicate 200 0
  addByte s l b o := if o < 200 then .ok (Function.update s l (addByte (s l) b o)) else .error .ub
  addBytes s l d o := if o + d.length ≤ 200 then .ok (Function.update s l (addBytes (s l) d o)) else .error .ub
  extractBytes s l o n := if o + n ≤ 200 then .ok (extractBytes (s l) o n) else .error .ub
  permute s := fun l => f (s l)

/-- See `refSnp`. -/
def refHash (f : St → St) : Code.Hash := ⟨refSnp f, refPlSnp f⟩

/-- Writing beyond the end of the state is not defined. -/
def Guarded (S : SnP) : Prop := ∀ st data offset, 0 < offset → offset < 200 → 200 < offset + data.length → S.addBytes st data offset = .error .ub

/-- Rate of the hash functions of an instance. -/
def rateOf (I : Instance) : Nat := shakeRate (xofKind I.digestSize)

/-- Bytes in the current block when a message is hashed after `n` bytes. -/
def blockPos (I : Instance) (n : Nat) : Nat := n % rateOf I

/-- Contents of uninitialised or reused memory that the code may find: any contents, in buffers of the size they have (64 bytes, tree.cpp:116 and 247). -/
def Buffers (J : Code.Junk) : Prop := ∀ e b, (J.tree e b).length = 64

/-- Longest byte string (in one piece) that the sponge code hashes without overflow of its 32-bit arithmetic: 4 GiB minus the larger rate, 168. -/
def maxPiece : Nat := 2 ^ 32 - 168

/-- A number modulo 2^16 as two bytes, lower byte first. -/
def u16 (n : Nat) : Bytes := [BitVec.ofNat 8 n, BitVec.ofNat 8 (n / 256)]

/-- A field element as `n` bytes, lowest byte first. -/
def elem (n : Nat) (x : W64) : Bytes := (List.range n).map fun i => (x >>> (8 * i)).setWidth 8

/-- Bytes `start` to `start + len - 1` of the output for the concatenation of the fields. -/
def hashOf (f : St → St) (digestSize : Nat) (fields : List Bytes) (start len : Nat) : Bytes :=
  (List.range len).map fun i => (shake f (xofKind digestSize) fields.flatten).get (start + i)

end Banquet.Spec
