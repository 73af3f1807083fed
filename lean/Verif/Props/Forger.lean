import Verif.Proofs.Forger
import Verif.Proofs.Bound

/-! C77: the probability of a forgery, for a random hash function and a forger who may choose each input after seeing the hashes of those before. -/

namespace Banquet.Props

open Spec FieldOk

/-- C77. A forger asks for the hashes of `q` inputs, choosing each one after the answers to those before. The inputs have at most `len` bytes and lie in a finite set `D`; the hash function is random on `D`, that is, the
first `L` bytes of its outputs are given by a table, drawn from all tables. The number of tables with which the inputs allow an accepted signature, but the seeds in the inputs do not share a key for the public key, is at
most `forgeBound` times the number of all tables. This is for the scheme whose second hash covers all corrections of `P`. -/
theorem C77_bound (I : Instance) (hI : Consistent I) (pk : Bytes) (hpk : pk.length = 2 * I.ctSize) (ask : Xof → Nat → Bytes) (hask : Adaptive (kindOf I.digestSize) ask) (q : Nat) (D : Finset Bytes)
    (hD : ∀ X i, ask X i ∈ D) (len : Nat) (hlen : ∀ s ∈ D, s.length ≤ len) (X0 : Xof) (L : Nat) (hL : I.digestSize ≤ L) (hL1 : I.numRounds * I.m1 * I.lambda ≤ L) (t1 t2 : Nat) :
    ({f : D → Fin L → Byte | Forgeable (withTable (kindOf I.digestSize) X0 f) I pk (asks ask (withTable (kindOf I.digestSize) X0 f) q) L ∧
      Keyless (withTable (kindOf I.digestSize) X0 f) I pk (asks ask (withTable (kindOf I.digestSize) X0 f) q)}.ncard : ℚ) ≤ forgeBound I q len t1 t2 * Nat.card (D → Fin L → Byte) := by
  classical
  have : Finite Byte := Nat.finite_of_card_ne_zero (by have := card_answers (L := 1); intro h; rw [Nat.card_fun, h] at this; simp at this)
  let E (bad : Xof → List Bytes → Bytes → Set (Fin L → Byte)) (i : Nat) : Set (D → Fin L → Byte) :=
    {f | ask (withTable (kindOf I.digestSize) X0 f) i ∉ asks ask (withTable (kindOf I.digestSize) X0 f) i ∧
      f ⟨ask (withTable (kindOf I.digestSize) X0 f) i, hD _ _⟩ ∈ bad (withTable (kindOf I.digestSize) X0 f) (asks ask (withTable (kindOf I.digestSize) X0 f) i) (ask (withTable (kindOf I.digestSize) X0 f) i)}
  have hl : ∀ X i, (asks ask X i).length = i := fun X i => by simp [asks]
  have e0 : ∀ i, ((E (badHash I X0 L len) i).ncard : ℚ) ≤ (i + (i + 1) * len) / 256 ^ I.digestSize * Nat.card (D → Fin L → Byte) := fun i =>
    event hask hD i _ badHash_inv (by positivity) fun X => by
      have := badHash_count (len := len) (X0 := X0) hL X (asks ask X i) (ask X i)
      rwa [hl] at this
  have e1 : ∀ i, ((E (bad1 I pk X0 L t1) i).ncard : ℚ) ≤ (few1 I (t1 + 1) : Nat) / (Round1 I).ncard * Nat.card (D → Fin L → Byte) := fun i =>
    event hask hD i _ (bad1_inv hI) (by positivity) fun X => bad1_count hI hL1 X _ _
  have e2 : ∀ i, ((E (bad2 I pk X0 L t2) i).ncard : ℚ) ≤ (few2 I (t2 + 1) : Nat) / (Round2 I).ncard * Nat.card (D → Fin L → Byte) := fun i =>
    event hask hD i _ (bad2_inv hI) (by positivity) fun X => bad2_count hI X _ _
  have e3 : ∀ i, ((E (bad3 I pk X0 L t1 t2) i).ncard : ℚ) ≤ (I.numParties : ℚ) ^ (t1 + t2) / (Round3 I).ncard * Nat.card (D → Fin L → Byte) := fun i =>
    event hask hD i _ (bad3_inv hI) (by positivity) fun X => bad3_count hI X _ _
  have hsub : {f : D → Fin L → Byte | Forgeable (withTable (kindOf I.digestSize) X0 f) I pk (asks ask (withTable (kindOf I.digestSize) X0 f) q) L ∧
      Keyless (withTable (kindOf I.digestSize) X0 f) I pk (asks ask (withTable (kindOf I.digestSize) X0 f) q)} ⊆
      {f | ∃ i < q, f ∈ E (badHash I X0 L len) i ∪ (E (bad1 I pk X0 L t1) i ∪ (E (bad2 I pk X0 L t2) i ∪ E (bad3 I pk X0 L t1 t2) i))} := by
    rintro f ⟨hF, hk⟩
    obtain ⟨i, hi, hn, h⟩ := forged_event (t1 := t1) (t2 := t2) hI hpk (fun i => hlen _ (hD _ i)) (fun i => f ⟨ask (withTable (kindOf I.digestSize) X0 f) i, hD _ _⟩) (fun i => withTable_self f (hD _ i)) hF hk
    refine ⟨i, hi, ?_⟩
    rcases h with h | h | h | h
    · exact Or.inl ⟨hn, h⟩
    · exact Or.inr (Or.inl ⟨hn, h⟩)
    · exact Or.inr (Or.inr (Or.inl ⟨hn, h⟩))
    · exact Or.inr (Or.inr (Or.inr ⟨hn, h⟩))
  have hu := union_bound q (fun i => E (badHash I X0 L len) i ∪ (E (bad1 I pk X0 L t1) i ∪ (E (bad2 I pk X0 L t2) i ∪ E (bad3 I pk X0 L t1 t2) i)))
    (fun i => ((i + (i + 1) * len) / 256 ^ I.digestSize + ((few1 I (t1 + 1) : Nat) / (Round1 I).ncard + (few2 I (t2 + 1) : Nat) / (Round2 I).ncard + (I.numParties : ℚ) ^ (t1 + t2) / (Round3 I).ncard)) *
      Nat.card (D → Fin L → Byte)) fun i _ => by
    have u1 : ((E (badHash I X0 L len) i ∪ (E (bad1 I pk X0 L t1) i ∪ (E (bad2 I pk X0 L t2) i ∪ E (bad3 I pk X0 L t1 t2) i))).ncard : ℚ) ≤
        (E (badHash I X0 L len) i).ncard + ((E (bad1 I pk X0 L t1) i).ncard + ((E (bad2 I pk X0 L t2) i).ncard + (E (bad3 I pk X0 L t1 t2) i).ncard)) := by
      exact_mod_cast (Set.ncard_union_le _ _).trans (Nat.add_le_add_left ((Set.ncard_union_le _ _).trans (Nat.add_le_add_left (Set.ncard_union_le _ _) _)) _)
    have := e0 i
    have := e1 i
    have := e2 i
    have := e3 i
    linarith
  refine (show ({f : D → Fin L → Byte | Forgeable (withTable (kindOf I.digestSize) X0 f) I pk (asks ask (withTable (kindOf I.digestSize) X0 f) q) L ∧
      Keyless (withTable (kindOf I.digestSize) X0 f) I pk (asks ask (withTable (kindOf I.digestSize) X0 f) q)}.ncard : ℚ) ≤ _ by exact_mod_cast Set.ncard_le_ncard hsub (Set.toFinite _)).trans (hu.trans ?_)
  rw [← Finset.sum_mul]
  refine mul_le_mul_of_nonneg_right ?_ (by positivity)
  rw [Finset.sum_add_distrib, Finset.sum_const, Finset.card_range, nsmul_eq_mul, forgeBound, Finset.sum_congr rfl fun (i : Nat) _ => div_eq_mul_inv ((i : ℚ) + (i + 1) * len) (256 ^ I.digestSize), ← Finset.sum_mul, ← div_eq_mul_inv]
  refine add_le_add ?_ le_rfl
  have hs : ∀ n : Nat, ∑ i ∈ Finset.range n, ((i : ℚ) + (i + 1) * len) ≤ n * (n + 1) * (len + 1) / 2 := fun n => by
    induction n with
    | zero => simp
    | succ n ih =>
      rw [Finset.sum_range_succ]
      push_cast
      have : (0 : ℚ) ≤ len := by positivity
      nlinarith
  have := hs q
  rw [← div_div]
  exact div_le_div_of_nonneg_right this (by positivity)

/-- C77, for the supplied parameters: the bound for a good choice of `t1` and `t2`. With `q` inputs of at most `len` bytes a forger succeeds with probability at most `q (q+1) (len+1) / (2 · 256^digestSize) + 2 q / 2^κ`, where
`κ` is the number of bits of the key. -/
theorem C77_level (p : Int) (I : Instance) (hI : instanceGet p = .ok I) : ∃ t1 t2, ∀ q len, forgeBound I q len t1 t2 ≤ q * (q + 1) * (len + 1) / (2 * 256 ^ I.digestSize) + q * (2 / 2 ^ (8 * I.aes.keySize)) := by
  by_cases hp : p < 1 ∨ 23 < p
  · rw [C36_invalid p hp] at hI
    cases hI
  · obtain ⟨J, hJ, hc⟩ := C36_consistent p (by omega) (by omega)
    obtain rfl : J = I := by rw [hJ] at hI; exact Except.ok.inj hI
    obtain ⟨r1, r2, r3⟩ := C65_rounds J hc
    have hm : J ∈ instances.drop 1 := by
      obtain ⟨n, rfl⟩ : ∃ n : Nat, p = n := ⟨p.toNat, by omega⟩
      rw [instanceGet, if_neg (by omega)] at hI
      simp only [Int.toNat_natCast] at hI
      split at hI
      · rename_i K hK
        obtain rfl := Except.ok.inj hI
        obtain ⟨k, rfl⟩ : ∃ k, n = 1 + k := ⟨n - 1, by omega⟩
        exact List.mem_of_getElem? (i := k) (by rw [List.getElem?_drop]; exact hK)
      · cases hI
    obtain ⟨t1, t2, h⟩ := bound_all J hm
    refine ⟨t1, t2, fun q len => ?_⟩
    rw [forgeBound, r1, r2, r3]
    exact add_le_add le_rfl (mul_le_mul_of_nonneg_left h (by positivity))

/-- C77, both together. -/
theorem C77_supplied (p : Int) (I : Instance) (hI : instanceGet p = .ok I) (pk : Bytes) (hpk : pk.length = 2 * I.ctSize) (ask : Xof → Nat → Bytes) (hask : Adaptive (kindOf I.digestSize) ask) (q : Nat) (D : Finset Bytes)
    (hD : ∀ X i, ask X i ∈ D) (len : Nat) (hlen : ∀ s ∈ D, s.length ≤ len) (X0 : Xof) (L : Nat) (hL : I.digestSize ≤ L) (hL1 : I.numRounds * I.m1 * I.lambda ≤ L) :
    ({f : D → Fin L → Byte | Forgeable (withTable (kindOf I.digestSize) X0 f) I pk (asks ask (withTable (kindOf I.digestSize) X0 f) q) L ∧
      Keyless (withTable (kindOf I.digestSize) X0 f) I pk (asks ask (withTable (kindOf I.digestSize) X0 f) q)}.ncard : ℚ) ≤
      (q * (q + 1) * (len + 1) / (2 * 256 ^ I.digestSize) + q * (2 / 2 ^ (8 * I.aes.keySize))) * Nat.card (D → Fin L → Byte) := by
  have hc : Consistent I := by
    by_cases hp : p < 1 ∨ 23 < p
    · rw [C36_invalid p hp] at hI
      cases hI
    · obtain ⟨J, hJ, hc⟩ := C36_consistent p (by omega) (by omega)
      obtain rfl : J = I := by rw [hJ] at hI; exact Except.ok.inj hI
      exact hc
  obtain ⟨t1, t2, h⟩ := C77_level p I hI
  exact (C77_bound I hc pk hpk ask hask q D hD len hlen X0 L hL hL1 t1 t2).trans (mul_le_mul_of_nonneg_right (h q len) (by positivity))

/-- An algorithm that asks for the hash of the empty input, then for the hash of the answer, and so on. -/
def chainAsk (X : Xof) : Nat → Bytes
  | 0 => []
  | i + 1 => (X .shake128 (chainAsk X i)).squeeze 0 32

theorem chainAsk_length (X : Xof) (i : Nat) : (chainAsk X i).length ≤ 32 := by
  cases i <;> simp [chainAsk, Stream.squeeze]

theorem chainAsk_adaptive : Adaptive .shake128 chainAsk := by
  intro X X' i
  induction i with
  | zero => intro _; rfl
  | succ i ih =>
    intro h
    have e := ih fun j hj => h j (by omega)
    rw [chainAsk, chainAsk, e, h i (by omega)]

/-- The hypotheses, for the first parameter set, all inputs of at most 32 bytes, and an algorithm whose inputs depend on the answers. -/
example : ∃ (I : Instance) (pk : Bytes) (ask : Xof → Nat → Bytes) (D : Finset Bytes) (len L : Nat), instanceGet 1 = .ok I ∧ Consistent I ∧ pk.length = 2 * I.ctSize ∧ Adaptive (kindOf I.digestSize) ask ∧ (∀ X i, ask X i ∈ D) ∧
    (∀ s ∈ D, s.length ≤ len) ∧ I.digestSize ≤ L ∧ I.numRounds * I.m1 * I.lambda ≤ L ∧ ∃ X X', ask X' 1 ≠ ask X 1 := by
  have : Finite Byte := Nat.finite_of_card_ne_zero (by have := card_answers (L := 1); intro h; rw [Nat.card_fun, h] at this; simp at this)
  obtain ⟨I, hI, hc⟩ := C36_consistent 1 (by decide) (by decide)
  have hd : kindOf I.digestSize = .shake128 := by
    obtain rfl := Except.ok.inj hI
    rfl
  have hf := List.finite_length_le Byte 32
  refine ⟨I, List.replicate (2 * I.ctSize) 0, chainAsk, hf.toFinset, 32, I.digestSize + I.numRounds * I.m1 * I.lambda, hI, hc, List.length_replicate .., by rw [hd]; exact chainAsk_adaptive,
    fun X i => hf.mem_toFinset.2 (chainAsk_length X i), fun s hs => hf.mem_toFinset.1 hs, by omega, by omega, constXof 0, constXof 1, ?_⟩
  decide

theorem quick_const {α : Type} (f : Bytes → α) (ok : α → Prop) (b : Byte) (len n m : Nat) (hm : 0 < m) (h : (firstOk f ok 1 (streamBlocks ⟨fun _ => b⟩ len n)).length = 1) :
    (firstOk f ok 1 (streamBlocks ⟨fun _ => b⟩ len m)).length = 1 := by
  have e : ∀ n, streamBlocks ⟨fun _ => b⟩ len n = List.replicate n (List.replicate len b) := fun n => by
    unfold streamBlocks Stream.squeeze
    simp [List.map_const']
  unfold firstOk at h ⊢
  rw [e] at h ⊢
  by_cases ho : ok (f (List.replicate len b))
  · simp [ho]
    omega
  · simp [ho] at h

/-- An accepted signature is possible: the signature of the test key and the inputs of its verification. -/
example : ∃ Q : List Bytes, Forgeable (headXof 3) smallInstance katPk Q 40 := by
  obtain ⟨sig, ms, v, Q, wf, hv, hQ⟩ := head_asked
  refine ⟨Q, [5], sig, ms, v, wf, hv, hQ, ?_, ?_⟩
  · obtain ⟨hl, n, hn⟩ := hv.challenges
    rw [← hn] at hl
    exact quick_const _ _ _ _ n _ (by decide) hl
  · obtain ⟨hl, n, hn⟩ := hv.hidden
    rw [← hn] at hl
    exact quick_const _ _ _ _ n _ (by decide) hl

end Banquet.Props
