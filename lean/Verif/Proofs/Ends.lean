import Verif.Spec.Ends
import Verif.Proofs.Oracle
import Verif.Proofs.Forger
import Verif.Props.Challenge
import Verif.Proofs.Level
import Mathlib.Data.Nat.Choose.Basic

/-! Rejection sampling ends soon. -/

namespace Banquet

open Spec FieldOk Props

section
variable {α : Type} (f : Bytes → α) (ok : α → Prop)

theorem misses_cons (b : Bytes) (w : List Bytes) : (ok (f b) → misses f ok (b :: w) = misses f ok w) ∧ (¬ok (f b) → misses f ok (b :: w) = misses f ok w + 1) := by
  classical
  unfold misses
  constructor
  · intro h
    rw [List.map_cons, List.filter_cons_of_neg (by simpa using h)]
  · intro h
    rw [List.map_cons, List.filter_cons_of_pos (by simpa using h), List.length_cons]

theorem firstOk_misses (N : Nat) (w : List Bytes) : (firstOk f ok N w).length = N ↔ N + misses f ok w ≤ w.length := by
  classical
  have h := List.length_eq_length_filter_add (l := w.map f) fun x => decide (ok x)
  rw [List.length_map] at h
  have e : ((w.map f).filter fun x => !decide (ok x)) = (w.map f).filter fun x => decide (¬ok x) := List.filter_congr fun x _ => by simp
  rw [e] at h
  unfold firstOk misses
  rw [List.length_take]
  omega

/-- Words with a property of the number of misses, by their first block. -/
theorem card_misses_succ (len n : Nat) (P : Nat → Prop) :
    Nat.card {w : List Bytes // Blocks len (n + 1) w ∧ P (misses f ok w)} =
      Nat.card {b : {b : Bytes // b.length = len} // ok (f b.1)} * Nat.card {w : List Bytes // Blocks len n w ∧ P (misses f ok w)} +
      Nat.card {b : {b : Bytes // b.length = len} // ¬ok (f b.1)} * Nat.card {w : List Bytes // Blocks len n w ∧ P (misses f ok w + 1)} := by
  classical
  have := finite_block len
  have := Fintype.ofFinite {b : Bytes // b.length = len}
  rw [card_words_succ len n fun w => P (misses f ok w)]
  have : ∀ b : {b : Bytes // b.length = len}, Nat.card {w : List Bytes // Blocks len n w ∧ P (misses f ok (b.1 :: w))} =
      (if ok (f b.1) then Nat.card {w : List Bytes // Blocks len n w ∧ P (misses f ok w)} else 0) +
      (if ¬ok (f b.1) then Nat.card {w : List Bytes // Blocks len n w ∧ P (misses f ok w + 1)} else 0) := by
    intro b
    by_cases hb : ok (f b.1)
    · rw [if_pos hb, if_neg (not_not.2 hb), Nat.add_zero]
      refine Nat.card_congr (Equiv.subtypeEquivRight fun w => and_congr_right fun hw => ?_)
      rw [(misses_cons f ok b.1 w).1 hb]
    · rw [if_neg hb, if_pos hb, Nat.zero_add]
      refine Nat.card_congr (Equiv.subtypeEquivRight fun w => and_congr_right fun hw => ?_)
      rw [(misses_cons f ok b.1 w).2 hb]
  rw [Finset.sum_congr rfl fun b _ => this b, Finset.sum_add_distrib, ← Finset.sum_filter, ← Finset.sum_filter, Finset.sum_const, Finset.sum_const, smul_eq_mul, smul_eq_mul]
  congr 2
  · rw [Nat.card_eq_fintype_card, Fintype.card_subtype]
  · rw [Nat.card_eq_fintype_card, Fintype.card_subtype]

theorem card_nil (len : Nat) (P : List Bytes → Prop) [Decidable (P [])] : Nat.card {w : List Bytes // Blocks len 0 w ∧ P w} = if P [] then 1 else 0 := by
  split
  · rename_i h
    rw [Nat.card_eq_one_iff_unique]
    exact ⟨⟨fun x y => Subtype.ext (by rw [List.length_eq_zero_iff.1 x.2.1.1, List.length_eq_zero_iff.1 y.2.1.1])⟩, ⟨⟨[], ⟨rfl, by simp⟩, h⟩⟩⟩
  · rename_i h
    have : IsEmpty {w : List Bytes // Blocks len 0 w ∧ P w} := ⟨fun x => h (by have := x.2.2; rwa [List.length_eq_zero_iff.1 x.2.1.1] at this)⟩
    exact Nat.card_of_isEmpty

theorem misses_nil : misses f ok [] = 0 := by simp [misses]

/-- The number of words with `j` misses. -/
theorem card_misses (len n j : Nat) : Nat.card {w : List Bytes // Blocks len n w ∧ misses f ok w = j} =
    n.choose j * Nat.card {b : {b : Bytes // b.length = len} // ¬ok (f b.1)} ^ j * Nat.card {b : {b : Bytes // b.length = len} // ok (f b.1)} ^ (n - j) := by
  classical
  induction n generalizing j with
  | zero =>
    rw [card_nil len fun w => misses f ok w = j, misses_nil]
    cases j <;> simp
  | succ n ih =>
    rw [card_misses_succ f ok len n fun k => k = j, ih j]
    cases j with
    | zero =>
      have : IsEmpty {w : List Bytes // Blocks len n w ∧ misses f ok w + 1 = 0} := ⟨fun x => Nat.succ_ne_zero _ x.2.2⟩
      rw [Nat.card_of_isEmpty (α := {w : List Bytes // Blocks len n w ∧ misses f ok w + 1 = 0})]
      simp [pow_succ']
    | succ j =>
      have e : Nat.card {w : List Bytes // Blocks len n w ∧ misses f ok w + 1 = j + 1} = Nat.card {w : List Bytes // Blocks len n w ∧ misses f ok w = j} :=
        Nat.card_congr (Equiv.subtypeEquivRight fun w => and_congr_right fun hw => Nat.succ_inj)
      rw [e, ih j, Nat.choose_succ_succ', Nat.add_sub_add_right]
      generalize Nat.card {b : {b : Bytes // b.length = len} // ¬ok (f b.1)} = m
      generalize Nat.card {b : {b : Bytes // b.length = len} // ok (f b.1)} = g
      rcases Nat.lt_or_ge n (j + 1) with h | h
      · rw [Nat.choose_eq_zero_of_lt h]
        ring
      · rw [show n - j = n - (j + 1) + 1 by omega]
        ring

/-- A bound for the number of words with at least `u` misses. -/
theorem card_misses_le (len n u : Nat) : Nat.card {w : List Bytes // Blocks len n w ∧ u ≤ misses f ok w} ≤
    n.choose u * Nat.card {b : {b : Bytes // b.length = len} // ¬ok (f b.1)} ^ u *
      (Nat.card {b : {b : Bytes // b.length = len} // ¬ok (f b.1)} + Nat.card {b : {b : Bytes // b.length = len} // ok (f b.1)}) ^ (n - u) := by
  classical
  induction n generalizing u with
  | zero =>
    rw [card_nil len fun w => u ≤ misses f ok w, misses_nil]
    cases u <;> simp
  | succ n ih =>
    rw [card_misses_succ f ok len n fun k => u ≤ k]
    cases u with
    | zero =>
      have e : Nat.card {w : List Bytes // Blocks len n w ∧ 0 ≤ misses f ok w + 1} = Nat.card {w : List Bytes // Blocks len n w ∧ 0 ≤ misses f ok w} :=
        Nat.card_congr (Equiv.subtypeEquivRight fun w => and_congr_right fun hw => by simp)
      have := ih 0
      rw [e, ← Nat.add_mul]
      simp only [Nat.choose_zero_right, pow_zero, Nat.sub_zero, Nat.one_mul] at this ⊢
      rw [pow_succ', Nat.add_comm]
      exact Nat.mul_le_mul_left _ this
    | succ u =>
      have e : Nat.card {w : List Bytes // Blocks len n w ∧ u + 1 ≤ misses f ok w + 1} = Nat.card {w : List Bytes // Blocks len n w ∧ u ≤ misses f ok w} :=
        Nat.card_congr (Equiv.subtypeEquivRight fun w => and_congr_right fun hw => Nat.succ_le_succ_iff)
      have h1 := ih (u + 1)
      have h0 := ih u
      rw [e, Nat.choose_succ_succ', Nat.add_sub_add_right]
      generalize Nat.card {b : {b : Bytes // b.length = len} // ¬ok (f b.1)} = m at *
      generalize Nat.card {b : {b : Bytes // b.length = len} // ok (f b.1)} = g at *
      generalize Nat.card {w : List Bytes // Blocks len n w ∧ u + 1 ≤ misses f ok w} = x at *
      generalize Nat.card {w : List Bytes // Blocks len n w ∧ u ≤ misses f ok w} = y at *
      have h1' : g * x ≤ n.choose (u + 1) * m ^ (u + 1) * (m + g) ^ (n - u) := by
        rcases Nat.lt_or_ge n (u + 1) with h | h
        · rw [Nat.choose_eq_zero_of_lt h] at h1
          simp only [Nat.zero_mul, Nat.le_zero] at h1
          simp [h1]
        · rw [show n - u = n - (u + 1) + 1 by omega]
          refine (Nat.mul_le_mul (Nat.le_add_left g m) h1).trans (le_of_eq ?_)
          ring
      have h0' : m * y ≤ n.choose u * m ^ (u + 1) * (m + g) ^ (n - u) := by
        refine (Nat.mul_le_mul_left m h0).trans (le_of_eq ?_)
        ring
      refine (Nat.add_le_add h1' h0').trans (le_of_eq ?_)
      ring

end

section
variable {F : FieldState} [hF : FieldOk F]

/-- The number of blocks that are allowed for the second challenge, and of those that are not. -/
theorem card_fresh_blocks {m2 : Nat} (h : m2 ≤ 21845) (hl : F.byteSize ≤ 8) (hm : m2 ≤ 2 ^ (8 * F.byteSize)) :
    Nat.card {b : {b : Bytes // b.length = F.byteSize} // Fresh F.byteSize m2 (blockElem b.1)} = 2 ^ (8 * F.byteSize) - m2 ∧
    Nat.card {b : {b : Bytes // b.length = F.byteSize} // ¬Fresh F.byteSize m2 (blockElem b.1)} = m2 := by
  classical
  have := finite_block F.byteSize
  have e1 : Nat.card {b : {b : Bytes // b.length = F.byteSize} // Fresh F.byteSize m2 (blockElem b.1)} = 2 ^ (8 * F.byteSize) - m2 := by
    rw [← count_fresh (F := F) h, ← Nat.card_coe_set_eq]
    exact Nat.card_congr ⟨fun b => ⟨blockElem b.1.1, reduced_blockElem hl b.1.2, b.2⟩, fun w => ⟨⟨leDigits F.byteSize w.1, length_leDigits _ _⟩, by rw [blockElem_leDigits w.2.1]; exact w.2.2⟩,
      fun b => Subtype.ext (Subtype.ext (blockElem_inj hl (length_leDigits _ _) b.1.2 (blockElem_leDigits (reduced_blockElem hl b.1.2)))), fun w => Subtype.ext (blockElem_leDigits w.2.1)⟩
  refine ⟨e1, ?_⟩
  have e2 : Nat.card {b : Bytes // b.length = F.byteSize} = 2 ^ (8 * F.byteSize) := by
    rw [pow_mul]
    exact count_bytes F.byteSize
  have e3 := Nat.card_congr (Equiv.sumCompl fun b : {b : Bytes // b.length = F.byteSize} => Fresh F.byteSize m2 (blockElem b.1))
  rw [Nat.card_sum, e1, e2] at e3
  omega

/-- If the second challenge is found in the first `n` blocks, the loop ends. -/
theorem phase2_ends (X : Xof) (I : Instance) (hb : F.byteSize = I.lambda) (h2 : Bytes) {n : Nat} (h : ¬Slow2 I (X (kindOf I.digestSize) h2) n) : ∃ Rs, phase2Expand X n F I h2 (F.firstN I.m2) = .ok Rs := by
  unfold Slow2 at h
  rw [not_not, firstOk_blocks (fun c => (List.range I.m2).any fun k => c == (F.firstN I.m2).getD k 0) (X (kindOf I.digestSize) h2) I.lambda I.numRounds _ (fresh_bad X I hb h2), List.length_take] at h
  obtain ⟨r, hr⟩ := (rejMany_inv (fun i => blockElem ((X (kindOf I.digestSize) h2).squeeze (i * I.lambda) I.lambda)) (fun c => (List.range I.m2).any fun k => c == (F.firstN I.m2).getD k 0) n I.numRounds).2 n le_rfl (by omega)
  exact ⟨r.1, by rw [phase2Expand_rej X I hb h2, hr]; rfl⟩

/-- If the number of parties is a power of two, no party is rejected. -/
theorem phase3_ends (X : Xof) (I : Instance) (hn : 2 ≤ I.numParties) (hN : I.numParties < 2 ^ 16) (hp : 2 ^ Nat.clog 2 I.numParties = I.numParties) (h3 : Bytes) : ∃ ms, phase3Expand X 1 I h3 = .ok ms := by
  rw [phase3Expand_rej X I hn hN h3]
  have hc : ∀ s, ¬blockParty I.numParties s ≥ I.numParties := fun s => by
    unfold blockParty
    rw [hp, not_le]
    exact Nat.mod_lt _ (by omega)
  generalize hcand : (fun i => blockParty I.numParties ((X (kindOf I.digestSize) h3).squeeze (i * partyBytes I.numParties) (partyBytes I.numParties))) = cand
  have hr : ∀ i, rejLoop cand (fun m => decide (m ≥ I.numParties)) 1 i = .ok (cand i, i + 1) := fun i => by
    unfold rejLoop
    rw [if_neg]
    rw [← hcand]
    simpa using hc _
  have : ∀ T, ∃ r, rejMany cand (fun m => decide (m ≥ I.numParties)) 1 T = .ok r := by
    intro T
    unfold rejMany
    generalize (([], 0) : List Nat × Nat) = st
    generalize List.range T = l
    induction l generalizing st with
    | nil => exact ⟨st, rfl⟩
    | cons a l ih =>
      rw [List.foldlM_cons]
      dsimp only
      rw [hr]
      exact ih _
  obtain ⟨r, hr⟩ := this I.numRounds
  exact ⟨r.1, by rw [hr]; rfl⟩

end

theorem slow_iff (I : Instance) (s : Stream) (n : Nat) : Slow2 I s n ↔ n < I.numRounds + misses blockElem (Fresh I.lambda I.m2) (streamBlocks s I.lambda n) := by
  unfold Slow2
  rw [ne_eq, firstOk_misses, not_le]
  simp [streamBlocks]

/-- More blocks do not hurt. -/
theorem slow_mono {I : Instance} {s : Stream} {n n' : Nat} (hn : n ≤ n') (h : Slow2 I s n') : Slow2 I s n := by
  rw [slow_iff] at h ⊢
  obtain ⟨k, rfl⟩ := Nat.exists_eq_add_of_le hn
  have : misses blockElem (Fresh I.lambda I.m2) (streamBlocks s I.lambda (n + k)) ≤ misses blockElem (Fresh I.lambda I.m2) (streamBlocks s I.lambda n) + k := by
    unfold misses streamBlocks
    rw [List.range_add, List.map_append, List.map_append, List.filter_append, List.length_append]
    refine Nat.add_le_add_left ((List.length_filter_le ..).trans ?_) _
    simp
  omega

/-- The share of outputs in which the second challenge is not found in the first `n` blocks. -/
theorem slow_count {I : Instance} (hI : Consistent I) {L n : Nat} (hT : I.numRounds ≤ n) (hL : n * I.lambda ≤ L) (s : Stream) :
    ({a : Fin L → Byte | Slow2 I (answer s a) n}.ncard : ℚ) ≤ (n.choose (n + 1 - I.numRounds) * I.m2 ^ (n + 1 - I.numRounds) : Nat) / 256 ^ (I.lambda * (n + 1 - I.numRounds)) * 256 ^ L := by
  obtain ⟨F, hF⟩ := init_supported hI.lambda
  obtain ⟨hok, hb, _⟩ := initExtensionField_ok hF
  have hm2 := hI.points
  have h1 := count_answers hL s {w | Blocks I.lambda n w ∧ n + 1 - I.numRounds ≤ misses blockElem (Fresh I.lambda I.m2) w} fun w h => h.1
  have h2 := card_misses_le blockElem (Fresh I.lambda I.m2) I.lambda n (n + 1 - I.numRounds)
  have hl : 2 ≤ F.byteSize ∧ F.byteSize ≤ 8 := by
    rcases hI.lambda with h | h | h | h <;> omega
  have hp : 2 ^ 16 ≤ 2 ^ (8 * F.byteSize) := Nat.pow_le_pow_right (by norm_num) (by omega)
  obtain ⟨c1, c2⟩ := card_fresh_blocks (F := F) (m2 := I.m2) (by omega) hl.2 (by omega)
  rw [hb] at c1 c2 hp
  rw [c1, c2, Nat.add_sub_cancel' (by omega)] at h2
  generalize hu : n + 1 - I.numRounds = u at *
  have hs : {a : Fin L → Byte | Slow2 I (answer s a) n} ⊆ {a : Fin L → Byte | streamBlocks (answer s a) I.lambda n ∈ {w | Blocks I.lambda n w ∧ u ≤ misses blockElem (Fresh I.lambda I.m2) w}} := by
    intro a ha
    have := (slow_iff _ _ _).1 ha
    exact ⟨⟨by simp [streamBlocks], fun b hb => by
      obtain ⟨i, _, rfl⟩ := List.mem_map.1 hb
      simp [Stream.squeeze]⟩, by omega⟩
  have : Finite Byte := Nat.finite_of_card_ne_zero (by have := card_answers (L := 1); intro h; rw [Nat.card_fun, h] at this; simp at this)
  have h3 := (Set.ncard_le_ncard hs (Set.toFinite _)).trans (h1.trans (Nat.mul_le_mul_right _ h2))
  have h4 : I.lambda * u ≤ L := by
    have : u ≤ n := by have := hI.rounds; omega
    calc I.lambda * u ≤ I.lambda * n := Nat.mul_le_mul_left _ this
      _ = n * I.lambda := Nat.mul_comm ..
      _ ≤ L := hL
  have e : (2 ^ (8 * I.lambda)) ^ (n - u) * 256 ^ (L - n * I.lambda) = 256 ^ (L - I.lambda * u) := by
    rw [pow_mul, show (2 : Nat) ^ 8 = 256 by norm_num, ← pow_mul, ← pow_add]
    congr 1
    have : u ≤ n := by have := hI.rounds; omega
    rw [Nat.mul_sub, Nat.mul_comm n]
    have := Nat.mul_le_mul_left I.lambda this
    rw [Nat.mul_comm n] at hL
    omega
  rw [Nat.mul_assoc, e] at h3
  rw [div_mul_eq_mul_div, le_div_iff₀ (by positivity)]
  have h5 := Nat.mul_le_mul_right (256 ^ (I.lambda * u)) h3
  rw [Nat.mul_assoc, ← pow_add, Nat.sub_add_cancel h4] at h5
  exact_mod_cast h5

/-- The supplied parameters: 15 rejected blocks are enough. -/
def slowCheck (I : Instance) : Bool := decide (2 ^ (8 * I.aes.keySize) * (binom (I.numRounds + 15) 16 * I.m2 ^ 16) ≤ 256 ^ (I.lambda * 16)) && decide (I.numRounds + 15 ≤ I.numRounds * I.m1)

theorem slow_checked : ∀ I ∈ instances.drop 1, slowCheck I = true := by decide +kernel

section
variable {K : ShakeKind} {X0 : Xof} {D : Finset Bytes} {L : Nat} {ask : Xof → Nat → Bytes}

/-- The probability that one of the inputs has a slow output. -/
theorem slow_asked {I : Instance} (hask : Adaptive K ask) (hD : ∀ X i, ask X i ∈ D) (q n : Nat) {ε : ℚ} (h0 : 0 ≤ ε) (hb : ∀ s : Stream, ({a : Fin L → Byte | Slow2 I (answer s a) n}.ncard : ℚ) ≤ ε * 256 ^ L) :
    ({f : D → Fin L → Byte | ∃ y ∈ asks ask (withTable K X0 f) q, Slow2 I (withTable K X0 f K y) n}.ncard : ℚ) ≤ q * ε * Nat.card (D → Fin L → Byte) := by
  have : Finite Byte := Nat.finite_of_card_ne_zero (by have := card_answers (L := 1); intro h; rw [Nat.card_fun, h] at this; simp at this)
  have he : ∀ i, _ := fun i => event (X0 := X0) (D := D) hask hD i (fun _ _ y => {a : Fin L → Byte | Slow2 I (answer (X0 K y) a) n}) (fun _ _ _ _ _ _ => rfl) h0 fun X => hb _
  have hu := union_bound q (fun i => {f : D → Fin L → Byte | ask (withTable K X0 f) i ∉ asks ask (withTable K X0 f) i ∧
      f ⟨ask (withTable K X0 f) i, hD _ _⟩ ∈ {a : Fin L → Byte | Slow2 I (answer (X0 K (ask (withTable K X0 f) i)) a) n}}) (fun _ => ε * Nat.card (D → Fin L → Byte)) fun i _ => he i
  rw [Finset.sum_const, Finset.card_range, nsmul_eq_mul, ← mul_assoc] at hu
  refine le_trans (Nat.cast_le.2 (Set.ncard_le_ncard ?_ (Set.toFinite _))) hu
  rintro f ⟨y, hy, hs⟩
  obtain ⟨i, hi, rfl, hn, _⟩ := first_ask hy
  rw [withTable_self f (hD _ i)] at hs
  exact ⟨i, hi, hn, hs⟩

end

end Banquet
