import Verif.Proofs.Ends
import Verif.Props.Forger

/-! C79: the rejection loops of the challenges end soon. -/

namespace Banquet.Props

open Spec FieldOk

/-- C79: exactly `C(n, j) m2^j (2^(8λ) - m2)^(n-j)` of the words of `n` blocks have `j` blocks that `phase_2_expand` rejects. -/
theorem C79_exact (I : Instance) (hI : Consistent I) (n j : Nat) :
    {w | Blocks I.lambda n w ∧ misses blockElem (Fresh I.lambda I.m2) w = j}.ncard = n.choose j * I.m2 ^ j * (2 ^ (8 * I.lambda) - I.m2) ^ (n - j) := by
  obtain ⟨F, hF⟩ := init_supported hI.lambda
  obtain ⟨hok, hb, _⟩ := initExtensionField_ok hF
  have hm2 := hI.points
  have hl : 2 ≤ F.byteSize ∧ F.byteSize ≤ 8 := by
    rcases hI.lambda with h | h | h | h <;> omega
  have hp : 2 ^ 16 ≤ 2 ^ (8 * F.byteSize) := Nat.pow_le_pow_right (by norm_num) (by omega)
  obtain ⟨c1, c2⟩ := card_fresh_blocks (F := F) (m2 := I.m2) (by omega) hl.2 (by omega)
  rw [hb] at c1 c2
  have := card_misses blockElem (Fresh I.lambda I.m2) I.lambda n j
  rw [c1, c2] at this
  exact this

/-- Words of two blocks of two bytes with one rejected block: the points 1 to 20 are rejected. -/
example : {w | Blocks 2 2 w ∧ misses blockElem (Fresh 2 20) w = 1}.ncard = 2 * 20 * (65536 - 20) :=
  C79_exact { smallInstance with lambda := 2 } ⟨by decide, rfl, rfl, rfl, ⟨1, by decide⟩, by decide, Or.inl rfl, by decide⟩ 2 1

/-- C79: the loop of the second challenge ends after `n` blocks if the first `n` blocks contain enough values that are allowed. -/
theorem C79_second (X : Xof) (I : Instance) (F : FieldState) (hF : initExtensionField I.lambda = .ok F) (h2 : Bytes) (n : Nat) (h : ¬Slow2 I (X (kindOf I.digestSize) h2) n) :
    ∃ Rs, phase2Expand X n F I h2 (F.firstN I.m2) = .ok Rs := by
  obtain ⟨hok, hb, _⟩ := initExtensionField_ok hF
  exact phase2_ends X I hb h2 h

/-- C79: the loop of the third challenge never rejects (the number of parties is a power of two). -/
theorem C79_third (X : Xof) (I : Instance) (hI : Consistent I) (h3 : Bytes) : ∃ ms, phase3Expand X 1 I h3 = .ok ms := by
  obtain ⟨k, hk1, hk2, hk⟩ := hI.parties
  obtain ⟨b1, _⟩ := parties_bounds hI
  have : 2 ^ k ≤ 2 ^ 15 := Nat.pow_le_pow_right (by norm_num) hk2
  exact phase3_ends X I b1 (by omega) (by rw [hk, Nat.clog_pow 2 k (by norm_num)]) h3

/-- C79: sign returns a signature for every key pair, unless the hash function is slow for some second hash. -/
theorem C79_sign (X : Xof) (I : Instance) (hI : Consistent I) (sk pk msg : Bytes) (hk : KeyPair I sk pk) (n : Nat) (hn : 1 ≤ n) :
    (∃ sig, sign X n I sk pk msg = .ok sig) ∨ ∃ h2, Slow2 I (X (kindOf I.digestSize) h2) n := by
  by_cases h : ∃ h2, Slow2 I (X (kindOf I.digestSize) h2) n
  · exact Or.inr h
  · push Not at h
    refine Or.inl (C41_returns X n I hI sk pk msg hk (fun F h2 hF => C79_second X I F hF h2 n (h h2)) fun h3 => ?_)
    obtain ⟨ms, hm⟩ := C79_third X I hI h3
    exact ⟨ms, phase3Expand_mono X I h3 hn _ hm⟩

/-- With this hash function the first block is accepted. -/
example : ¬Slow2 smallInstance (onesXof (kindOf 32) []) 1 := by
  obtain ⟨F, hF⟩ := init_supported small_consistent.lambda
  obtain ⟨hl, n, hn⟩ := (C53_R onesXof smallInstance F hF [] [0x01010101]).1 ⟨1, (ones_loops hF).1 []⟩
  rw [← hn] at hl
  exact not_not.2 (quick_const _ _ _ _ n _ (by decide) hl)

/-- C79: for a random output, the second challenge is not found in the first `n` blocks with probability at most `C(n, u) (m2 / 2^(8λ))^u`, where `u` is the number of blocks that have to be rejected for that. -/
theorem C79_slow (I : Instance) (hI : Consistent I) (L n : Nat) (hT : I.numRounds ≤ n) (hL : n * I.lambda ≤ L) (s : Stream) :
    ({a : Fin L → Byte | Slow2 I (answer s a) n}.ncard : ℚ) ≤ (n.choose (n + 1 - I.numRounds) * I.m2 ^ (n + 1 - I.numRounds) : Nat) / 256 ^ (I.lambda * (n + 1 - I.numRounds)) * 256 ^ L :=
  slow_count hI hT hL s

theorem supplied {p : Int} {I : Instance} (hI : instanceGet p = .ok I) : Consistent I ∧ I ∈ instances.drop 1 := by
  by_cases hp : p < 1 ∨ 23 < p
  · rw [C36_invalid p hp] at hI
    cases hI
  · obtain ⟨J, hJ, hc⟩ := C36_consistent p (by omega) (by omega)
    obtain rfl : J = I := by rw [hJ] at hI; exact Except.ok.inj hI
    refine ⟨hc, ?_⟩
    obtain ⟨n, rfl⟩ : ∃ n : Nat, p = n := ⟨p.toNat, by omega⟩
    rw [instanceGet, if_neg (by omega)] at hI
    simp only [Int.toNat_natCast] at hI
    split at hI
    · rename_i K hK
      obtain rfl := Except.ok.inj hI
      obtain ⟨k, rfl⟩ : ∃ k, n = 1 + k := ⟨n - 1, by omega⟩
      exact List.mem_of_getElem? (i := k) (by rw [List.getElem?_drop]; exact hK)
    · cases hI

/-- C79: for the supplied parameters, 15 more blocks than repetitions are enough, except with probability `2^-κ`. -/
theorem C79_level (p : Int) (I : Instance) (hI : instanceGet p = .ok I) (L : Nat) (hL : (I.numRounds + 15) * I.lambda ≤ L) (s : Stream) :
    ({a : Fin L → Byte | Slow2 I (answer s a) (I.numRounds + 15)}.ncard : ℚ) ≤ 1 / 2 ^ (8 * I.aes.keySize) * 256 ^ L := by
  obtain ⟨hc, hm⟩ := supplied hI
  have h := slow_checked I hm
  unfold slowCheck at h
  rw [Bool.and_eq_true, decide_eq_true_iff, ← binom_eq] at h
  refine (C79_slow I hc L _ (Nat.le_add_right ..) hL s).trans (mul_le_mul_of_nonneg_right ?_ (by positivity))
  rw [show I.numRounds + 15 + 1 - I.numRounds = 16 by omega, div_le_div_iff₀ (by positivity) (by positivity), one_mul, mul_comm]
  exact_mod_cast h.1

/-- C79: C77 without the condition that the challenges are found in the first bytes of the outputs; the probability grows by `q / 2^κ`. -/
theorem C79_forger (p : Int) (I : Instance) (hI : instanceGet p = .ok I) (pk : Bytes) (hpk : pk.length = 2 * I.ctSize) (ask : Xof → Nat → Bytes) (hask : Adaptive (kindOf I.digestSize) ask) (q : Nat) (D : Finset Bytes)
    (hD : ∀ X i, ask X i ∈ D) (len : Nat) (hlen : ∀ s ∈ D, s.length ≤ len) (X0 : Xof) (L : Nat) (hL : I.digestSize ≤ L) (hL1 : I.numRounds * I.m1 * I.lambda ≤ L) :
    ({f : D → Fin L → Byte | ForgeableAny (withTable (kindOf I.digestSize) X0 f) I pk (asks ask (withTable (kindOf I.digestSize) X0 f) q) ∧
      Keyless (withTable (kindOf I.digestSize) X0 f) I pk (asks ask (withTable (kindOf I.digestSize) X0 f) q)}.ncard : ℚ) ≤
      (q * (q + 1) * (len + 1) / (2 * 256 ^ I.digestSize) + q * (3 / 2 ^ (8 * I.aes.keySize))) * Nat.card (D → Fin L → Byte) := by
  have : Finite Byte := Nat.finite_of_card_ne_zero (by have := card_answers (L := 1); intro h; rw [Nat.card_fun, h] at this; simp at this)
  obtain ⟨hc, hm⟩ := supplied hI
  have hchk := slow_checked I hm
  unfold slowCheck at hchk
  rw [Bool.and_eq_true, decide_eq_true_iff, decide_eq_true_iff] at hchk
  have hL2 : (I.numRounds + 15) * I.lambda ≤ L := (Nat.mul_le_mul_right _ hchk.2).trans hL1
  have hl : 2 ≤ I.lambda := by rcases hc.lambda with h | h | h | h <;> omega
  have k1 := C77_supplied p I hI pk hpk ask hask q D hD len hlen X0 L hL hL1
  have k2 := slow_asked (X0 := X0) (D := D) (L := L) (I := I) hask hD q (I.numRounds + 15) (ε := 1 / 2 ^ (8 * I.aes.keySize)) (by positivity) fun s => C79_level p I hI L hL2 s
  have hsub : {f : D → Fin L → Byte | ForgeableAny (withTable (kindOf I.digestSize) X0 f) I pk (asks ask (withTable (kindOf I.digestSize) X0 f) q) ∧
      Keyless (withTable (kindOf I.digestSize) X0 f) I pk (asks ask (withTable (kindOf I.digestSize) X0 f) q)} ⊆
      {f : D → Fin L → Byte | Forgeable (withTable (kindOf I.digestSize) X0 f) I pk (asks ask (withTable (kindOf I.digestSize) X0 f) q) L ∧
        Keyless (withTable (kindOf I.digestSize) X0 f) I pk (asks ask (withTable (kindOf I.digestSize) X0 f) q)} ∪
      {f : D → Fin L → Byte | ∃ y ∈ asks ask (withTable (kindOf I.digestSize) X0 f) q, Slow2 I (withTable (kindOf I.digestSize) X0 f (kindOf I.digestSize) y) (I.numRounds + 15)} := by
    rintro f ⟨⟨msg, sig, ms, v, wf, hv, hQ⟩, hk⟩
    by_cases hs : Slow2 I (withTable (kindOf I.digestSize) X0 f (kindOf I.digestSize) (digest (withTable (kindOf I.digestSize) X0 f) I (input2n (I.m2 + 1) I sig))) (I.numRounds + 15)
    · exact Or.inr ⟨_, hQ.round2, hs⟩
    · refine Or.inl ⟨⟨msg, sig, ms, v, wf, hv, hQ, ?_, ?_⟩, hk⟩
      · by_contra hcon
        exact hs (slow_mono (Nat.le_div_iff_mul_le (by omega) |>.2 hL2) hcon)
      · obtain ⟨k, hk1, hk2, hk⟩ := hc.parties
        rw [firstOk_misses]
        have hz : ∀ w, misses (blockParty I.numParties) (· < I.numParties) w = 0 := fun w => by
          classical
          unfold misses
          rw [List.length_eq_zero_iff, List.filter_eq_nil_iff]
          intro x hx
          obtain ⟨b, _, rfl⟩ := List.mem_map.1 hx
          have : blockParty I.numParties b < I.numParties := by
            unfold blockParty
            rw [hk, Nat.clog_pow 2 k (by norm_num)]
            exact Nat.mod_lt _ (by positivity)
          simpa using this
        rw [hz]
        have hb : 1 ≤ partyBytes I.numParties ∧ partyBytes I.numParties ≤ 2 := by
          unfold partyBytes
          split <;> omega
        simp only [streamBlocks, List.length_map, List.length_range, Nat.add_zero]
        refine Nat.le_div_iff_mul_le (by omega) |>.2 (le_trans ?_ hL2)
        calc I.numRounds * partyBytes I.numParties ≤ I.numRounds * 2 := Nat.mul_le_mul_left _ hb.2
          _ ≤ (I.numRounds + 15) * I.lambda := Nat.mul_le_mul (by omega) hl
  refine (Nat.cast_le.2 ((Set.ncard_le_ncard hsub (Set.toFinite _)).trans (Set.ncard_union_le _ _))).trans ?_
  rw [Nat.cast_add]
  refine (add_le_add k1 k2).trans (le_of_eq ?_)
  ring

/-- An accepted signature is possible: the signature of the test key and the inputs of its verification. -/
example : ∃ Q : List Bytes, ForgeableAny (headXof 3) smallInstance katPk Q := by
  obtain ⟨sig, ms, v, Q, wf, hv, hQ⟩ := head_asked
  exact ⟨Q, [5], sig, ms, v, wf, hv, hQ⟩

end Banquet.Props
