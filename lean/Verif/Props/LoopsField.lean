import Verif.Proofs.LoopsCodec
import Verif.Props.Code
import Verif.Props.Loops
import Verif.Props.Serialize

/-! Property theorems for C72: the loops of field.cpp and of the encoding. -/

namespace Banquet.Props

open Spec Spec.Aes

/-- C72: `init_extension_field` writes all 256 entries of the table, each of them from entries written before in the same call: what the table held before does not matter, and no access leaves it. -/
theorem C72_init (F : FieldState) (h : F.lut.length = 256) (lambda : Nat) :
    Loops.initField F lambda = initExtensionField lambda ∧ ∀ F', Loops.initField F lambda = .ok F' → F'.lut.length = 256 ∧ ∀ b, Loops.lift F' b = .ok (F'.lift b) := by
  have e := Loops.initField_eq F lambda h
  refine ⟨e, fun F' h' => ?_⟩
  have hl : F'.lut.length = 256 := by
    rw [e] at h'
    unfold initExtensionField at h'
    split at h' <;> first
      | (cases h'; exact Loops.liftStep_length _ _ 7)
      | cases h'
  exact ⟨hl, fun b => Loops.lift_eq F' b hl⟩

/-- C72: sums, multiples and inner products of vectors. Different sizes throw; otherwise every access is in range and the result is the one by elements. -/
theorem C72_vectors (F : FieldState) (a b : List W64) (s : W64) :
    Loops.vecAdd a b = (if a.length = b.length then .ok ((List.range a.length).map fun i => a.getD i 0 ^^^ b.getD i 0) else .error .thrown) ∧
    Loops.vecScale F a s = .ok (a.map fun x => F.mul x s) ∧
    Loops.dot F a b = F.dot a b := by
  refine ⟨?_, Loops.vecScale_eq F a s, Loops.dot_eq F a b⟩
  rw [Loops.vecAdd_eq]
  unfold vecAdd
  by_cases h : a.length = b.length
  · rw [if_neg (by simpa using h), if_pos h]
    congr 1
    refine List.ext_getElem (by simp [h]) fun i h1 h2 => ?_
    have h3 : i < a.length := by simpa using h2
    have h4 : i < b.length := by omega
    simp [gfAdd, h3, h4]
  · rw [if_pos h, if_neg h]

/-- C72: products of polynomials, polynomials with given roots, values, points, Lagrange polynomials and interpolation: every access is in range, whatever the sizes, and the results are those of the functions of which C05, C06 and C07 speak. -/
theorem C72_polynomials (F : FieldState) (a b xs : List W64) (pre : List (List W64)) (x : W64) (n : Nat) :
    Loops.polyMul F a b = F.polyMul a b ∧ Loops.buildFromRoots F xs = .ok (F.buildFromRoots xs) ∧ Loops.eval F a x = .ok (F.eval a x) ∧ Loops.firstN F n = .ok (F.firstN n) ∧
    Loops.precomputeLagrange F xs = .ok (F.precomputeLagrange xs) ∧ Loops.interpolate F pre a = F.interpolate pre a :=
  ⟨Loops.polyMul_eq F a b, Loops.buildFromRoots_eq F xs, Loops.eval_eq F a x, Loops.firstN_eq F n, Loops.precomputeLagrange_eq F xs, Loops.interpolate_eq F pre a⟩

/-- C72: writing. Any signature, in any state of the field. -/
theorem C72_serialize (F : FieldState) (I : Instance) (s : Signature) : Loops.serialize F I s = serialize F I s := Loops.serialize_eq F I s

/-- C72: reading with a running offset is reading piece by piece, for every string, in both builds. -/
theorem C72_deserialize (X : Xof) (fuel : Nat) (F : FieldState) (I : Instance) (hF : F.byteSize ≤ I.lambda) (bs : Bytes) :
    Loops.deserialize false X fuel F I bs = deserialize X fuel F I bs ∧ Loops.deserialize true X fuel F I bs = deserializeDebug X fuel F I bs :=
  ⟨Loops.deserialize_eq X fuel F I bs hF, Loops.deserializeDebug_eq X fuel F I bs hF⟩

/-- C72: with the field of another instance whose elements are longer, reading always leaves the buffer of an element (or does not get that far). -/
theorem C72_wrong_field (debug : Bool) (X : Xof) (fuel : Nat) (F : FieldState) (I : Instance) (hI : Consistent I) (hF : I.lambda < F.byteSize) (bs : Bytes) (s : Signature) : Loops.deserialize debug X fuel F I bs ≠ .ok s :=
  Loops.deserialize_short debug X fuel F I bs hF (by have := hI.rounds; omega) s

/-- C72: the offset after reading is the length of an encoding, which depends only on the instance. -/
theorem C72_offset (X : Xof) (fuel : Nat) (F : FieldState) (I : Instance) (hI : Consistent I) (hF : initExtensionField I.lambda = .ok F) (bs : Bytes) (s : Signature) (off : Nat)
    (h : Loops.deserializeOffset X fuel F I bs = .ok (s, off)) : off = sigLength I ∧ off ≤ bs.length := by
  obtain ⟨hok, hb, _⟩ := initExtensionField_ok hF
  have hN := (parties_bounds hI).2.2.2
  have ha := Loops.deserializeOffset_agree X fuel F I bs hb.le
  rw [h] at ha
  match hr : deserializeRest X fuel F I bs with
  | .error e => rw [hr] at ha; exact ha.elim
  | .ok (s', r) =>
    rw [hr] at ha
    obtain ⟨rfl, ho, rfl⟩ := ha
    obtain ⟨ms, hm, wf, e⟩ := (deserializeRest_iff X fuel hb hN).1 hr
    have hl := encoded_length X fuel hb hm wf
    have e := congrArg List.length e
    rw [List.length_append, hl, List.length_drop] at e
    omega

/-- C72: reading a string that is long enough stays in range. -/
theorem C72_read (X : Xof) (fuel : Nat) (F : FieldState) (I : Instance) (hI : Consistent I) (hF : initExtensionField I.lambda = .ok F) (bs : Bytes) (hl : sigLength I ≤ bs.length) :
    (∃ s, Loops.deserialize false X fuel F I bs = .ok s) ∨ Loops.deserialize false X fuel F I bs = .error .fuel := by
  obtain ⟨hok, hb, _⟩ := initExtensionField_ok hF
  rw [(C72_deserialize X fuel F I hb.le bs).1]
  obtain ⟨_, c2, c3⟩ := C35_exact X fuel F I hF (parties_bounds hI).2.2.2 bs
  have h0 : 32 + 2 * I.digestSize ≤ bs.length := by unfold sigLength at hl; omega
  cases hm : phase3Expand X fuel I (slice bs (32 + I.digestSize) I.digestSize) with
  | error e => exact .inr (c2 h0 e hm).2
  | ok ms =>
    obtain ⟨s, h, _⟩ := (c3 h0 ms hm).2 hl
    exact .inl ⟨s, h⟩

/-- C72: signing, writing, reading and verifying, all statement by statement, whatever field was in use before. -/
theorem C72_whole (X : Xof) (fuel : Nat) (I : Instance) (hI : Consistent I) (sk pk msg : Bytes) (hk : KeyPair I sk pk) (F0 : FieldState) (h0 : F0.lut.length = 256) (debug : Bool) (sig : Signature)
    (h : Loops.sign X fuel I sk pk msg = .ok sig) :
    ∃ F bs, Loops.initField F0 I.lambda = .ok F ∧ Loops.serialize F I sig = .ok bs ∧ bs.length = sigLength I ∧ Loops.deserialize debug X fuel F I bs = .ok sig ∧ Loops.verify X fuel I pk sig msg = .ok true := by
  obtain ⟨F, hF⟩ := init_supported hI.lambda
  obtain ⟨hok, hb, _⟩ := initExtensionField_ok hF
  have hN := (parties_bounds hI).2.2.2
  have hv := C68_accepted X fuel I hI sk pk msg hk sig h fuel le_rfl
  rw [C68_sign X fuel I hI sk pk msg (KeyPair.facts hI hk).1.le] at h
  obtain ⟨bs, h1, h2, sig', h3, rfl, -⟩ := C16_encoded X fuel I hI sk pk msg hk sig h F hF
  refine ⟨F, bs, (C72_init F0 h0 I.lambda).1.trans hF, (C72_serialize F I sig').trans h1, h2, ?_, hv⟩
  have hrel := (Loops.deserialize_eq X fuel F I bs hb.le).trans h3
  cases debug with
  | false => exact hrel
  | true =>
    unfold Loops.deserialize at hrel ⊢
    obtain ⟨⟨s, off⟩, h4, h5⟩ := bind_ok.1 hrel
    obtain ⟨ho, _⟩ := C72_offset X fuel F I hI hF bs s off h4
    rw [h4, ok_bind]
    simp only [Bool.true_and, bne_iff_ne]
    rw [if_neg (by rw [ho, h2]; simp)]
    simpa using h5

/-- C72: the loops of sign and verify with SHAKE are the builds with their sponges and their parallel hashing. -/
theorem C72_code {f : St → St} {H : Code.Hash} (hH : Correct f H) (J : Code.Junk) (hJ : Buffers J) (fuel : Nat) (I : Instance) (hI : Consistent I) (sk pk msg : Bytes) (hsk : sk.length ≤ I.aes.keySize)
    (hpk : pk.length ≤ maxPiece) (hmsg : msg.length ≤ maxPiece) :
    Code.sign H J fuel I sk pk msg = Loops.sign (shake f) fuel I sk pk msg ∧ ∀ sig : Signature, sig.shaped I = true → Code.verify H J fuel I pk sig msg = Loops.verify (shake f) fuel I pk sig msg :=
  ⟨(C61_sign hH J hJ fuel I hI sk pk msg hpk hmsg).trans (C68_sign _ fuel I hI sk pk msg hsk).symm,
    fun sig hs => (C61_verify hH J hJ fuel I hI pk sig msg hpk hmsg).trans (C68_verify _ fuel I hI pk msg sig hs).symm⟩

/-- Over the field with 2^16 elements: a product of polynomials, a polynomial with three roots and its values, and sizes that do not fit. -/
example : (do
    let F ← Loops.initField FieldState.initial 2
    let p ← Loops.buildFromRoots F [5, 7, 0x100]
    let q ← Loops.polyMul F p [1, 1]
    let v ← Loops.eval F q 7
    let w ← Loops.eval F q 1
    let u ← Loops.eval F q 2
    .ok (p.length, q.length, v, w, u != 0) : M (Nat × Nat × W64 × W64 × Bool)) = .ok (4, 5, 0, 0, true) ∧
    Loops.vecAdd [1, 2] [3] = .error .thrown ∧ Loops.vecAdd [1, 2] [3, 4] = .ok [2, 6] := by decide +kernel

/-- A second call of `init_extension_field` after one for another field. -/
example : (do
    let F ← Loops.initField FieldState.initial 6
    let F ← Loops.initField F 2
    .ok F : M FieldState) = initExtensionField 2 := by decide +kernel

/-- Interpolation through three points and the values at them. -/
example : (do
    let F ← Loops.initField FieldState.initial 4
    let xs ← Loops.firstN F 3
    let pre ← Loops.precomputeLagrange F xs
    let p ← Loops.interpolate F pre [10, 20, 30]
    let a ← Loops.eval F p 2
    let b ← Loops.eval F p 4
    let c ← Loops.eval F p 8
    .ok (a, b, c) : M (W64 × W64 × W64)) = .ok (10, 20, 30) := by decide +kernel

/-- The whole way with the key of the known answer test, in a Debug build, starting from the field of another instance. -/
example : ∃ F0 sig F bs, Loops.initField FieldState.initial 6 = .ok F0 ∧ Loops.sign onesXof 1 smallInstance katKey katPk [1, 2, 3] = .ok sig ∧ Loops.initField F0 smallInstance.lambda = .ok F ∧
    Loops.serialize F smallInstance sig = .ok bs ∧ Loops.deserialize true onesXof 1 F smallInstance bs = .ok sig ∧ Loops.verify onesXof 1 smallInstance katPk sig [1, 2, 3] = .ok true := by
  obtain ⟨F0, h0⟩ := init_supported (lam := 6) (by unfold Supported; decide)
  obtain ⟨e, hl⟩ := C72_init FieldState.initial List.length_replicate 6
  rw [← e] at h0
  obtain ⟨sig, h, _⟩ := kat_signs [1, 2, 3]
  rw [← C68_sign onesXof 1 smallInstance small_consistent katKey katPk _ (by decide)] at h
  obtain ⟨F, bs, h1, h2, _, h3, h4⟩ := C72_whole _ _ _ small_consistent _ _ _ (kat_pair _ rfl) F0 (hl F0 h0).1 true sig h
  exact ⟨F0, sig, F, bs, h0, h, h1, h2, h3, h4⟩

/-- A signature without repetitions cannot be written, and the empty string cannot be read. -/
example : Loops.serialize FieldState.initial smallInstance ⟨[], [], [], []⟩ = .error .ub ∧ Loops.deserialize false onesXof 1 FieldState.initial smallInstance [] = .error .ub := by decide +kernel

end Banquet.Props
