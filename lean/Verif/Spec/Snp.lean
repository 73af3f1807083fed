import Verif.Spec.Keccak
import Verif.Model.Sponge

/-! What the functions on the Keccak state have to do, in terms of the 200 bytes of the state (XKCP, SnP-documentation.h; FIPS 202 for the permutation). -/

namespace Banquet.Spec

/-- XOR of `data` into the bytes `offset, offset + 1, …` of the state. -/
def addBytes (s : St) (data : Bytes) (offset : Nat) : St :=
  Vector.ofFn fun i => if offset ≤ i.val then s[i] ^^^ data.getD (i.val - offset) 0 else s[i]

/-- XOR of one byte. -/
def addByte (s : St) (b : Byte) (offset : Nat) : St := addBytes s [b] offset

/-- The bytes `offset, …, offset + len - 1` of the state. -/
def extractBytes (s : St) (offset len : Nat) : Bytes := (List.range len).map fun i => s.getD (offset + i) 0

/-- Absorbing `n` whole blocks: XOR into the beginning of the state and permute, for each. -/
def absorbFull (f : St → St) (rate : Nat) : Nat → St → Bytes → St
  | 0, s, _ => s
  | n + 1, s, data => absorbFull f rate n (f (addBytes s (data.take rate) 0)) (data.drop rate)

/-- An implementation of the state functions, where `view` reads the 200 bytes of the state out of its representation, is correct: accesses inside the first 199 bytes are performed, the
permutation is `f`, the fast loop absorbs all whole blocks. (A read of all 200 bytes is not required: keccak/opt64 reads beyond the state then. SHAKE never does that.) -/
structure Snp (f : St → St) (S : SnP) (view : S.State → St) : Prop where
  init : view S.init = Vector.replicate 200 0
  addByte : ∀ s b offset, offset < 200 → ∃ s', S.addByte s b offset = .ok s' ∧ view s' = Spec.addByte (view s) b offset
  addBytes : ∀ s data offset, offset + data.length ≤ 200 → ∃ s', S.addBytes s data offset = .ok s' ∧ view s' = Spec.addBytes (view s) data offset
  extractBytes : ∀ s offset len, offset + len < 200 → S.extractBytes s offset len = .ok (Spec.extractBytes (view s) offset len)
  permute : ∀ s, view (S.permute s) = f (view s)
  fastLoop : ∀ s lanes data, 0 < lanes → lanes ≤ 25 → ∃ s', S.fastLoop s lanes data = .ok (s', data.length / (8 * lanes) * (8 * lanes)) ∧
    view s' = absorbFull f (8 * lanes) (data.length / (8 * lanes)) (view s) data

/-- The same for the 4-way functions: each of the four instances has its 200 bytes, and an access to one leaves the others unchanged. -/
structure PlSnp (f : St → St) (S : PlSnP) (view : S.State → Fin 4 → St) : Prop where
  init : ∀ l, view S.init l = Vector.replicate 200 0
  addByte : ∀ s l b offset, offset < 200 → ∃ s', S.addByte s l b offset = .ok s' ∧ ∀ l', view s' l' = if l' = l then Spec.addByte (view s l) b offset else view s l'
  addBytes : ∀ s l data offset, offset + data.length ≤ 200 → ∃ s', S.addBytes s l data offset = .ok s' ∧
    ∀ l', view s' l' = if l' = l then Spec.addBytes (view s l) data offset else view s l'
  extractBytes : ∀ s l offset len, offset + len < 200 → S.extractBytes s l offset len = .ok (Spec.extractBytes (view s l) offset len)
  permute : ∀ s l, view (S.permute s) l = f (view s l)

end Banquet.Spec
