import Verif.Props.Hash

/-! Lengths and first bytes of the hashed inputs. -/

namespace Banquet

open Spec FieldOk Props

/-- Lengths of the hashed inputs. -/
def Props.HashCall.len (I : Instance) : HashCall → Nat
  | .saltSeeds _ _ _ msg => 2 + I.aes.keySize + 2 * I.ctSize + msg.length
  | .node .. => I.seedSize + 37
  | .commit .. | .tape .. => I.seedSize + 36
  | .hash1 _ _ msg _ => 33 + 2 * I.ctSize + msg.length + I.numRounds * (I.numParties * (I.digestSize + I.ctSize) + I.aes.keySize + I.aes.numSboxes)
  | .expand1 _ | .expand2 _ | .expand3 _ => I.digestSize
  | .hash2 .. => 33 + I.digestSize + I.numRounds * (I.m2 * I.lambda)
  | .hash3 .. => 33 + I.digestSize + I.numRounds * (I.lambda + I.numParties * I.lambda + I.m1 * (I.lambda + I.lambda + I.numParties * (I.lambda + I.lambda)))

theorem Props.HashCall.length_input {F : FieldState} {I : Instance} (hb : F.byteSize = I.lambda) (a : HashCall) (h : a.Sized F I) : (a.input F I).length = a.len I := by
  cases a with
  | saltSeeds params sk pk msg =>
    obtain ⟨_, h1, h2⟩ := h
    simp only [HashCall.input, HashCall.len, List.length_append, le16_length, h1, h2]
  | node seed salt rep i =>
    obtain ⟨h1, h2, _⟩ := h
    simp only [HashCall.input, HashCall.len, List.length_append, le16_length, h1, h2, List.length_singleton]
    omega
  | commit salt rep party seed =>
    obtain ⟨h1, h2, _⟩ := h
    simp only [HashCall.input, HashCall.len, List.length_append, le16_length, h1, h2]
    omega
  | tape seed salt rep party =>
    obtain ⟨h1, h2, _⟩ := h
    simp only [HashCall.input, HashCall.len, List.length_append, le16_length, h1, h2]
  | hash1 salt pk msg reps =>
    obtain ⟨h1, h2, h3, h4⟩ := h
    simp only [HashCall.input, HashCall.len, phase1Input, List.length_append, List.length_singleton, h1, h2, length_flatMap_const _ _ _ fun r hr => Rep1Hash.bytes_length I r (h4 r hr), h3]
  | expand1 h' => exact h
  | expand2 h' => exact h
  | expand3 h' => exact h
  | hash2 salt h1' ds =>
    obtain ⟨h1, h2, h3⟩ := h
    simp only [HashCall.input, HashCall.len, phase2Input, List.length_append, List.length_singleton, h1, h2]
    rw [length_flatMap_const _ _ (I.m2 * I.lambda) fun d _ => length_flatMap_range _ _ _ fun k _ => (gfHash_length _).trans hb, h3.1]
  | hash3 salt h2' reps =>
    obtain ⟨h1, h2, h3, _⟩ := h
    simp only [HashCall.input, HashCall.len, phase3Input, List.length_append, List.length_singleton, h1, h2]
    rw [length_flatMap_const _ _ _ fun r _ => Rep3.bytes_length (F := F) I r, h3, hb]

/-- A string that begins with the number of the parameter set is the input for salt and seeds of some keys and message, if it is long enough. -/
theorem saltSeeds_of {I : Instance} (F : FieldState) (z : Bytes) (hz : z.take 2 = le16 I.params) (hl : 2 + I.aes.keySize + 2 * I.ctSize ≤ z.length) :
    ∃ sk pk msg, (HashCall.saltSeeds I.params sk pk msg).Sized F I ∧ (HashCall.saltSeeds I.params sk pk msg).input F I = z := by
  refine ⟨slice z 2 I.aes.keySize, slice z (2 + I.aes.keySize) (2 * I.ctSize), z.drop (2 + I.aes.keySize + 2 * I.ctSize), ⟨rfl, ?_, ?_⟩, ?_⟩
  · simp only [slice, List.length_take, List.length_drop]
    omega
  · simp only [slice, List.length_take, List.length_drop]
    omega
  · simp only [HashCall.input, slice]
    rw [← hz, List.append_assoc, List.append_assoc, ← List.drop_drop (i := 2 * I.ctSize), List.take_append_drop, ← List.drop_drop, List.take_append_drop, List.take_append_drop]

/-- Contributions of zeros to the hashes. -/
theorem zero_reps (F : FieldState) (I : Instance) (hb : F.byteSize = I.lambda) : (∃ reps : List Rep1Hash, reps.length = I.numRounds ∧ ∀ r ∈ reps, r.Sized I) ∧ (∃ ds, Deltas I ds) ∧
    ∃ reps : List Rep3, reps.length = I.numRounds ∧ ∀ r ∈ reps, r.Sized F I := by
  have zr : ∀ n : Nat, ∀ x ∈ List.replicate n (0 : W64), Reduced F.byteSize x := fun n x hx => by rw [List.eq_of_mem_replicate hx]; exact reduced_zero
  have zl : ∀ n k : Nat, ∀ c ∈ List.replicate n (List.replicate k (0 : Byte)), c.length = k := fun n k c hc => by rw [List.eq_of_mem_replicate hc, List.length_replicate]
  refine ⟨⟨List.replicate I.numRounds ⟨List.replicate I.numParties (List.replicate I.digestSize 0), List.replicate I.numParties (List.replicate I.ctSize 0), List.replicate I.aes.keySize 0, List.replicate I.aes.numSboxes 0⟩,
    List.length_replicate, fun r hr => ?_⟩, ⟨List.replicate I.numRounds (List.replicate (I.m2 + 1) 0), List.length_replicate, fun d hd => ?_⟩,
    ⟨List.replicate I.numRounds ⟨0, List.replicate I.numParties 0, List.replicate I.m1 0, List.replicate I.m1 0, List.replicate I.numParties (List.replicate I.m1 0), List.replicate I.numParties (List.replicate I.m1 0)⟩,
    List.length_replicate, fun r hr => ?_⟩⟩
  · rw [List.eq_of_mem_replicate hr]
    exact ⟨⟨List.length_replicate, zl _ _⟩, ⟨List.length_replicate, zl _ _⟩, List.length_replicate, List.length_replicate⟩
  · rw [List.eq_of_mem_replicate hd]
    exact ⟨List.length_replicate, by rw [← hb]; exact zr _⟩
  · rw [List.eq_of_mem_replicate hr]
    refine ⟨reduced_zero, ⟨List.length_replicate, zr _⟩, ⟨List.length_replicate, zr _⟩, ⟨List.length_replicate, zr _⟩, ⟨List.length_replicate, fun l hl => ?_⟩, ⟨List.length_replicate, fun l hl => ?_⟩⟩ <;>
    · rw [List.eq_of_mem_replicate hl]
      exact ⟨List.length_replicate, zr _⟩

end Banquet
