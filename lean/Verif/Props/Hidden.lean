import Verif.Proofs.Guess
import Verif.Props.Simulate

/-! C81: seeds that are not opened are not found; telling the signer from the simulator is finding a key. -/

namespace Banquet.Props

open Spec FieldOk

section
variable {I : Instance} (hI : Consistent I) {sk pk msg : Bytes} {D : Finset Bytes} (hD : ∀ s : Bytes, s.length ≤ longest I pk msg → s ∈ D) {L : Nat} (hL : 32 + I.numRounds * I.seedSize ≤ L)
  (hT : I.tapeSize ≤ L) (hd : I.digestSize ≤ L) (X0 : Xof) (c : Nat) (fuel : Nat)
include hI hD hL hT hd

/-- C81: an observer of a simulated signature with `q` questions finds one of the seeds that are not opened with probability at most `q T (log N + 2) / (256^s - 2 q)`. -/
theorem C81_seeds {q : Nat} (O : Observer (kindOf I.digestSize) q) :
    {ω : Coins I D L | (∃ o, Clean X0 c fuel sk pk msg ω o) ∧ FindsSeed O X0 c fuel pk msg ω}.ncard * (256 ^ I.seedSize - 2 * q) ≤ q * I.numRounds * (depth I.numParties + 2) * Nat.card (Coins I D L) := by
  have : Finite Byte := Finite.of_injective BitVec.toFin fun a b h => BitVec.eq_of_toFin_eq h
  obtain ⟨s1, s2, s3⟩ := seed_cases hI
  have k := seeds_count (X0 := X0) (c := c) (fuel := fuel) (pk := pk) (msg := msg) (O := O) hI (fun y hy => hD y (by unfold longest; omega)) hL (by omega) hT
  refine (Nat.mul_le_mul_right _ (Set.ncard_le_ncard ?_ (Set.toFinite _))).trans k
  rintro ω ⟨⟨o, h⟩, hf⟩
  exact ⟨⟨o, h.run, h.seeds⟩, hf⟩

/-- C81: whoever tells the signer from the simulator, other than by accident or by guessing a seed, finds a secret key: one of the keys read off the questions about a simulated signature belongs to the public key. The signatures of
the signer are not needed for this. -/
theorem C81_distinguish (hcm : c ≤ I.m2 + 1) (hk : KeyPair I sk pk) {q : Nat} (hq : 2 * q < 256 ^ I.seedSize) (O : Observer (kindOf I.digestSize) q) :
    |({ω : Coins I D L | AcceptsSimulated O X0 c fuel pk msg ω}.ncard : ℚ) / Nat.card (Coins I D L) - ({f : D → Fin L → Byte | AcceptsReal O X0 c fuel sk pk msg f}.ncard : ℚ) / Nat.card (D → Fin L → Byte)| ≤
      ({ω : Coins I D L | ¬∃ o, Clean X0 c fuel sk pk msg ω o}.ncard : ℚ) / Nat.card (Coins I D L) + q * I.numRounds * (depth I.numParties + 2) / (256 ^ I.seedSize - 2 * q) +
      ({ω : Coins I D L | ∃ sk' ∈ keyGuesses O X0 c fuel pk msg ω, KeyPair I sk' pk}.ncard : ℚ) / Nat.card (Coins I D L) := by
  have : Finite Byte := Finite.of_injective BitVec.toFin fun a b h => BitVec.eq_of_toFin_eq h
  refine (C80_distinguish hI hk hD hL hT hd X0 c fuel hcm O).trans ?_
  have k1 := C81_seeds (sk := sk) hI hD hL hT hd X0 c fuel O
  obtain ⟨f1, f2, f3, f4⟩ := KeyPair.facts hI hk
  have hsub : {ω : Coins I D L | (∃ o, Clean X0 c fuel sk pk msg ω o) ∧ Finds O X0 c fuel sk pk msg ω} ⊆
      {ω : Coins I D L | (∃ o, Clean X0 c fuel sk pk msg ω o) ∧ FindsSeed O X0 c fuel pk msg ω} ∪ {ω : Coins I D L | ∃ sk' ∈ keyGuesses O X0 c fuel pk msg ω, KeyPair I sk' pk} := by
    rintro ω ⟨⟨o', hc⟩, o, hrun, j, hj, hf⟩
    unfold hiddenInputs at hf
    rcases List.mem_cons.1 hf with hf | hf
    · right
      refine ⟨sk, ?_, hk⟩
      unfold keyGuesses
      rw [hrun]
      refine List.mem_map.2 ⟨j, List.mem_range.2 hj, ?_⟩
      rw [hf]
      unfold secretInput
      rw [List.append_assoc (le16 I.params ++ sk)]
      exact slice_at (le16_length _) f1
    · left
      obtain ⟨e, he, hf⟩ := List.mem_map.1 hf
      refine ⟨⟨o', hc⟩, o, hrun, j, hj, e, List.mem_range.1 he, ?_⟩
      have hsalt : o.sig.salt = ω.saltOf := by
        obtain ⟨F, hF⟩ := init_supported hI.lambda
        obtain ⟨Rs, ms, _, _, rfl⟩ := run_parts hI hF hrun
        rfl
      rw [← hf, hsalt]
      exact List.mem_cons_self
  have hpos : (0 : ℚ) < Nat.card (Coins I D L) := by exact_mod_cast Nat.card_pos
  have hq' : (0 : ℚ) < 256 ^ I.seedSize - 2 * q := by
    rw [sub_pos]
    exact_mod_cast hq
  have k2 : ({ω : Coins I D L | (∃ o, Clean X0 c fuel sk pk msg ω o) ∧ FindsSeed O X0 c fuel pk msg ω}.ncard : ℚ) / Nat.card (Coins I D L) ≤ q * I.numRounds * (depth I.numParties + 2) / (256 ^ I.seedSize - 2 * q) := by
    rw [div_le_div_iff₀ hpos hq']
    have : ((256 ^ I.seedSize - 2 * q : Nat) : ℚ) = 256 ^ I.seedSize - 2 * q := by
      rw [Nat.cast_sub hq.le]
      push_cast
      rfl
    rw [← this]
    exact_mod_cast k1
  have k3 := (Set.ncard_le_ncard hsub (Set.toFinite _)).trans (Set.ncard_union_le _ _)
  have k3' := div_le_div_of_nonneg_right (show (_ : ℚ) ≤ _ from Nat.cast_le.2 k3) hpos.le
  rw [Nat.cast_add, add_div] at k3'
  rw [add_div]
  linarith

end

/-- The number of possible choices. -/
theorem choices_pos (n : Nat) : (0 : ℚ) < Nat.card (Coins smallInstance (shortInputs n) 1000) := by
  have : Finite Byte := Finite.of_injective BitVec.toFin fun a b h => BitVec.eq_of_toFin_eq h
  exact_mod_cast Nat.card_pos

/-- The salt, followed by the hash of what was asked before. -/
def chain (K : ShakeKind) (sig : Signature) (X : Xof) : Nat → Bytes
  | 0 => sig.salt
  | j + 1 => sig.salt ++ (X K (chain K sig X j)).squeeze 0 32

theorem chain_congr {K : ShakeKind} {sig : Signature} {X X' : Xof} (i : Nat) (h : ∀ j < i, X' K (chain K sig X j) = X K (chain K sig X j)) : chain K sig X' i = chain K sig X i := by
  induction i with
  | zero => rfl
  | succ i ih => rw [chain, chain, ih fun j hj => h j (by omega), h i (by omega)]

/-- An observer that asks `n + 1` times along this chain, and accepts if the last answer begins with zero. -/
def curious (K : ShakeKind) (n : Nat) : Observer K (n + 1) where
  ask sig := chain K sig
  accept sig X := (X K (chain K sig X n)).squeeze 0 1 = [0]
  adaptive sig X X' i h := chain_congr i h
  depends sig X X' h := by rw [chain_congr n fun j hj => h j (by omega), h n (by omega)]

/-- For the test key and such an observer, the difference is at most `2^-50`, up to the keys that it finds. -/
example (X0 : Xof) :
    |({ω : Coins smallInstance (shortInputs (longest smallInstance katPk [5])) 1000 | AcceptsSimulated (curious (kindOf smallInstance.digestSize) (2 ^ 30 - 1)) X0 smallInstance.m2 40 katPk [5] ω}.ncard : ℚ) /
        Nat.card (Coins smallInstance (shortInputs (longest smallInstance katPk [5])) 1000) -
      ({f : shortInputs (longest smallInstance katPk [5]) → Fin 1000 → Byte | AcceptsReal (I := smallInstance) (curious (kindOf smallInstance.digestSize) (2 ^ 30 - 1)) X0 smallInstance.m2 40 katKey katPk [5] f}.ncard : ℚ) /
        Nat.card (shortInputs (longest smallInstance katPk [5]) → Fin 1000 → Byte)| ≤ 1 / 2 ^ 50 +
      ({ω : Coins smallInstance (shortInputs (longest smallInstance katPk [5])) 1000 | ∃ sk' ∈ keyGuesses (curious (kindOf smallInstance.digestSize) (2 ^ 30 - 1)) X0 smallInstance.m2 40 katPk [5] ω, KeyPair smallInstance sk' katPk}.ncard : ℚ) /
        Nat.card (Coins smallInstance (shortInputs (longest smallInstance katPk [5])) 1000) := by
  have hD : ∀ s : Bytes, s.length ≤ longest smallInstance katPk [5] → s ∈ shortInputs (longest smallInstance katPk [5]) := fun s hs => (mem_shortInputs s).2 hs
  have e2 : smallInstance.numRounds = 1 ∧ smallInstance.numParties = 2 ∧ smallInstance.seedSize = 16 ∧ smallInstance.m2 = 20 ∧ smallInstance.lambda = 4 := by decide
  refine (C81_distinguish small_consistent hD (by decide) (by decide) (by decide) X0 smallInstance.m2 40 (by decide) (kat_pair _ rfl) (by rw [e2.2.2.1]; norm_num) (curious _ _)).trans (add_le_add_left ?_ _)
  have k := C80_accident small_consistent (sk := katKey) hD (L := 1000) (by decide) X0 smallInstance.m2 40 (by norm_num) 40 (by decide) (by decide) le_rfl
  have hp := choices_pos (longest smallInstance katPk [5])
  have k' := (div_le_iff₀ hp).2 k
  refine (add_le_add_left k' _).trans ?_
  have e1 : (secretInput smallInstance katKey katPk [5]).length = 51 := by decide
  have e3 : depth 2 = 1 := by decide
  rw [e1, e2.1, e2.2.1, e2.2.2.1, e2.2.2.2.1, e2.2.2.2.2, e3]
  norm_num

end Banquet.Props
