import Verif.Proofs.Programmed
import Verif.Proofs.Ends
import Verif.Proofs.Forger

/-! Accidents of the simulator are rare. -/

namespace Banquet

open Spec FieldOk Props

/-- Counting pairs by their first component. -/
theorem fiber_count {α β : Type} [Finite α] [Finite β] (S : Set (α × β)) {ε : ℚ} (h : ∀ a, ({b | (a, b) ∈ S}.ncard : ℚ) ≤ ε * Nat.card β) : (S.ncard : ℚ) ≤ ε * Nat.card (α × β) := by
  classical
  have := Fintype.ofFinite α
  let e : S ≃ Σ a, {b | (a, b) ∈ S} := ⟨fun x => ⟨x.1.1, x.1.2, x.2⟩, fun y => ⟨(y.1, y.2.1), y.2.2⟩, fun _ => rfl, fun _ => rfl⟩
  have k : S.ncard = ∑ a, {b | (a, b) ∈ S}.ncard := (Nat.card_congr e).trans Nat.card_sigma
  rw [k, Nat.cast_sum]
  refine (Finset.sum_le_sum fun a _ => h a).trans (le_of_eq ?_)
  rw [Finset.sum_const, Finset.card_univ, nsmul_eq_mul, Nat.card_prod, Nat.card_eq_fintype_card (α := α)]
  push_cast
  ring

/-- Counting pairs by their second component. -/
theorem fiber_count' {α β : Type} [Finite α] [Finite β] (S : Set (α × β)) {ε : ℚ} (h : ∀ b, ({a | (a, b) ∈ S}.ncard : ℚ) ≤ ε * Nat.card α) : (S.ncard : ℚ) ≤ ε * Nat.card (α × β) := by
  have k := fiber_count (α := β) (β := α) (Prod.swap '' S) (ε := ε) fun b => by
    have : {a | (b, a) ∈ Prod.swap '' S} = {a | (a, b) ∈ S} := by ext; simp
    rw [this]
    exact h b
  rw [Set.ncard_image_of_injective _ Prod.swap_injective] at k
  rwa [Nat.card_congr (Equiv.prodComm α β)]

/-- Answers with given bytes at the beginning or after them. -/
theorem count_half {L d : Nat} (h : 2 * d ≤ L) (s : Stream) (v : Bytes) (c : Fin 2) : ({a : Fin L → Byte | (answer s a).squeeze (c * d) d = v}.ncard : ℚ) ≤ 1 / 256 ^ d * 256 ^ L := by
  have hB : ∀ w ∈ {w | Blocks d 2 w ∧ w.getD c.1 [] = v}, Blocks d 2 w := fun w hw => hw.1
  have k := count_answers (L := L) (n := 2) (len := d) h s _ hB
  have e : {a : Fin L → Byte | (answer s a).squeeze (c * d) d = v} ⊆ {a : Fin L → Byte | streamBlocks (answer s a) d 2 ∈ {w | Blocks d 2 w ∧ w.getD c.1 [] = v}} := by
    intro a ha
    refine ⟨blocks_streamBlocks _ _ _, ?_⟩
    unfold streamBlocks
    rw [getD_range_map _ _ _ _ c.2]
    exact ha
  have hfin := finite_blocks hB
  have : Finite Byte := Finite.of_injective BitVec.toFin fun a b h => BitVec.eq_of_toFin_eq h
  have hV : {w | Blocks d 2 w ∧ w.getD c.1 [] = v}.ncard ≤ 256 ^ d := by
    rw [← count_bytes d]
    refine Set.ncard_le_ncard_of_injOn (fun w => w.getD (1 - c.1) []) ?_ ?_ (List.finite_length_eq _ _)
    · rintro w ⟨hw, _⟩
      rw [Set.mem_ofPred_eq, getD_of_lt (by rw [hw.1]; omega)]
      exact hw.2 _ (List.getElem_mem _)
    · rintro w ⟨hw, h1⟩ w' ⟨hw', h2⟩ heq
      refine (eq_range_map w 2 [] hw.1).trans (Eq.trans ?_ (eq_range_map w' 2 [] hw'.1).symm)
      refine List.map_congr_left fun i hi => ?_
      have hi := List.mem_range.1 hi
      obtain ⟨c, hc⟩ := c
      dsimp only at heq h1 h2
      interval_cases c <;> interval_cases i <;> simp_all
  have k : ({a : Fin L → Byte | (answer s a).squeeze (c * d) d = v}.ncard) ≤ 256 ^ d * 256 ^ (L - 2 * d) :=
    (Set.ncard_le_ncard e (Set.toFinite _)).trans (k.trans (Nat.mul_le_mul_right _ hV))
  refine le_trans (Nat.cast_le.2 k) (le_of_eq ?_)
  rw [show (256 : ℚ) ^ L = 256 ^ d * (256 ^ d * 256 ^ (L - 2 * d)) by rw [← pow_add, ← pow_add]; congr 1; omega]
  push_cast
  field_simp

section
variable {I : Instance} (hI : Consistent I) {D : Finset Bytes} {L : Nat}
include hI

omit hI in
/-- The seed of a node does not depend on the value for the expansion of a node that does not come before. -/
theorem seedAt_update [DecidableEq D] (K : ShakeKind) (X0 : Xof) (root salt : Bytes) (e : Nat) (f : D → Fin L → Byte) {j : Nat} (hj : j < 2 ^ 16) {s : Bytes} (hs : [1] ++ s ++ salt ++ le16 e ++ le16 j ∈ D) (a : Fin L → Byte) (i : Nat)
    (hi : i ≤ j) : seedAt (withTable K X0 (Function.update f ⟨_, hs⟩ a)) root salt e i = seedAt (withTable K X0 f) root salt e i := by
  induction i using Nat.strongRecOn with
  | ind i ih =>
    cases i with
    | zero => rw [seedAt, seedAt]
    | succ i =>
      rw [seedAt_succ, seedAt_succ, ih (i / 2) (by omega) (by omega)]
      have : withTable K X0 (Function.update f ⟨_, hs⟩ a) (kindOf (2 * root.length)) ([1] ++ seedAt (withTable K X0 f) root salt e (i / 2) ++ salt ++ le16 e ++ le16 (i / 2)) =
          withTable K X0 f (kindOf (2 * root.length)) ([1] ++ seedAt (withTable K X0 f) root salt e (i / 2) ++ salt ++ le16 e ++ le16 (i / 2)) := by
        refine withTable_congr _ _ (fun hx => ?_) _
        rw [Function.update_of_ne]
        intro h
        have h := congrArg Subtype.val h
        have := (List.append_inj' h rfl).2
        have := le16_inj (by omega) hj this
        omega
      rw [this]

/-- The seed of a party is rarely given bytes. -/
theorem seed_count (hD : ∀ s : Bytes, s.length ≤ I.seedSize + 37 → s ∈ D) (hL : 2 * I.seedSize ≤ L) (X0 : Xof) {root salt v : Bytes} (hroot : root.length = I.seedSize) (hsalt : salt.length = 32) (e : Nat)
    (p : Nat) (hp : p < I.numParties) : ({f : D → Fin L → Byte | seedAt (withTable (kindOf I.digestSize) X0 f) root salt e (leafNode I.numParties p) = v}.ncard : ℚ) ≤ 1 / 256 ^ I.seedSize * Nat.card (D → Fin L → Byte) := by
  classical
  have : Finite Byte := Finite.of_injective BitVec.toFin fun a b h => BitVec.eq_of_toFin_eq h
  obtain ⟨N1, N2, _, _⟩ := parties_bounds hI
  have hTr := hI.rounds.2
  have hN := depth_pow hI
  obtain ⟨i, hi, hi2⟩ : ∃ i, leafNode I.numParties p = i + 1 ∧ i < 2 ^ 16 := ⟨leafNode I.numParties p - 1, by unfold leafNode; omega, by unfold leafNode; omega⟩
  rw [hi]
  have hmem : ∀ f : D → Fin L → Byte, [1] ++ seedAt (withTable (kindOf I.digestSize) X0 f) root salt e (i / 2) ++ salt ++ le16 e ++ le16 (i / 2) ∈ D := fun f => hD _ (by
    simp only [List.length_append, le16_length, hsalt, seedAt_length, hroot, List.length_singleton]
    omega)
  have hx : ∀ (f : D → Fin L → Byte) a, seedAt (withTable (kindOf I.digestSize) X0 (Function.update f ⟨_, hmem f⟩ a)) root salt e (i / 2) = seedAt (withTable (kindOf I.digestSize) X0 f) root salt e (i / 2) :=
    fun f a => seedAt_update _ X0 root salt e f (by omega) (hmem f) a _ le_rfl
  have hc : ∃ c : Fin 2, ∀ f : D → Fin L → Byte, seedAt (withTable (kindOf I.digestSize) X0 f) root salt e (i + 1) = (withTable (kindOf I.digestSize) X0 f (kindOf I.digestSize)
      ([1] ++ seedAt (withTable (kindOf I.digestSize) X0 f) root salt e (i / 2) ++ salt ++ le16 e ++ le16 (i / 2))).squeeze (c * I.seedSize) I.seedSize := by
    by_cases h : i % 2 = 0
    · refine ⟨0, fun f => ?_⟩
      rw [seedAt_succ, hroot, ← hI.digest]
      dsimp only
      rw [if_pos h]
      simp
    · refine ⟨1, fun f => ?_⟩
      rw [seedAt_succ, hroot, ← hI.digest]
      dsimp only
      rw [if_neg h]
      simp
  obtain ⟨c, hc⟩ := hc
  have key := resample (D := D) (A := Fin L → Byte) (fun _ => True) (fun f => ⟨_, hmem f⟩) (fun f => {a | (answer (X0 (kindOf I.digestSize) ([1] ++ seedAt (withTable (kindOf I.digestSize) X0 f) root salt e (i / 2) ++ salt ++ le16 e ++ le16 (i / 2))) a).squeeze (c * I.seedSize) I.seedSize = v})
    (fun f _ a => ⟨trivial, Subtype.ext (by dsimp only; rw [hx f a]), by rw [hx f a]⟩) (ε := 1 / 256 ^ I.seedSize) (by positivity) (fun f => by rw [card_answers]; push_cast; exact count_half hL _ _ _)
  refine le_trans (Nat.cast_le.2 (Set.ncard_le_ncard ?_ (Set.toFinite _))) key
  intro f hf
  rw [Set.mem_ofPred_eq, hc f, withTable_mem _ _ _ (hmem f)] at hf
  exact ⟨trivial, hf⟩

/-- The loop for the second challenge is rarely long. -/
theorem slow_at (X0 : Xof) {n : Nat} (hn : I.numRounds ≤ n) (hnL : n * I.lambda ≤ L) {x : Bytes} (hx : x ∈ D) : ({f : D → Fin L → Byte | Slow2 I (withTable (kindOf I.digestSize) X0 f (kindOf I.digestSize) x) n}.ncard : ℚ) ≤
    (n.choose (n + 1 - I.numRounds) * I.m2 ^ (n + 1 - I.numRounds) : Nat) / 256 ^ (I.lambda * (n + 1 - I.numRounds)) * Nat.card (D → Fin L → Byte) := by
  classical
  have : Finite Byte := Finite.of_injective BitVec.toFin fun a b h => BitVec.eq_of_toFin_eq h
  have key := resample (D := D) (A := Fin L → Byte) (fun _ => True) (fun _ => ⟨x, hx⟩) (fun _ => {a | Slow2 I (answer (X0 (kindOf I.digestSize) x) a) n}) (fun f _ a => ⟨trivial, rfl, rfl⟩)
    (ε := (n.choose (n + 1 - I.numRounds) * I.m2 ^ (n + 1 - I.numRounds) : Nat) / 256 ^ (I.lambda * (n + 1 - I.numRounds))) (by positivity) (fun f => by
      rw [card_answers, Nat.cast_pow]
      exact slow_count hI hn hnL _)
  refine le_trans (Nat.cast_le.2 (Set.ncard_le_ncard ?_ (Set.toFinite _))) key
  intro f hf
  rw [Set.mem_ofPred_eq, withTable_mem _ _ _ hx] at hf
  exact ⟨trivial, hf⟩

/-- Accidents. -/
theorem accident_count {sk pk msg : Bytes} (hD : ∀ s : Bytes, s.length ≤ longest I pk msg → s ∈ D) (hL : 32 ≤ L) (hd : I.digestSize ≤ L) (X0 : Xof) {c n fuel : Nat} (hn : I.numRounds ≤ n) (hnL : n * I.lambda ≤ L) (hf : n ≤ fuel) :
    ({ω : Coins I D L | ¬∃ o, Clean X0 c fuel sk pk msg ω o}.ncard : ℚ) ≤ ((secretInput I sk pk msg).length / 256 ^ 32 + I.numRounds * I.numParties / 256 ^ I.seedSize +
      (n.choose (n + 1 - I.numRounds) * I.m2 ^ (n + 1 - I.numRounds) : Nat) / 256 ^ (I.lambda * (n + 1 - I.numRounds))) * Nat.card (Coins I D L) := by
  classical
  have : Finite Byte := Finite.of_injective BitVec.toFin fun a b h => BitVec.eq_of_toFin_eq h
  obtain ⟨F, hF⟩ := init_supported hI.lambda
  obtain ⟨hok, hb, _⟩ := initExtensionField_ok hF
  have ⟨s1, s2, s3⟩ := seed_cases hI
  have hT := hI.rounds
  have hlong : I.seedSize + 37 ≤ longest I pk msg ∧ I.digestSize ≤ longest I pk msg := by unfold longest; omega
  let A : Set (Coins I D L) := {ω | ω.saltOf <:+: secretInput I sk pk msg}
  let B : Nat → Nat → Set (Coins I D L) := fun e p => {ω | ω.node X0 e (leafNode I.numParties p) = ω.saltOf.take I.seedSize}
  let C : Set (Coins I D L) := {ω | Slow2 I (ω.xof X0 (kindOf I.digestSize) (ω.hash 1)) n}
  have hsub : {ω : Coins I D L | ¬∃ o, Clean X0 c fuel sk pk msg ω o} ⊆ A ∪ (⋃ e ∈ Finset.range I.numRounds, ⋃ p ∈ Finset.range I.numParties, B e p) ∪ C := by
    intro ω hω
    by_contra hcon
    simp only [Set.mem_union, Set.mem_iUnion, Finset.mem_range, not_or, not_exists] at hcon
    obtain ⟨⟨h1, h2⟩, h3⟩ := hcon
    obtain ⟨Rs, hRs⟩ := phase2_ends (F := F) (ω.xof X0) I hb (ω.hash 1) h3
    obtain ⟨k, hk1, hk2, hk⟩ := hI.parties
    obtain ⟨b1, _⟩ := parties_bounds hI
    have hk15 : 2 ^ k ≤ 2 ^ 15 := Nat.pow_le_pow_right (by norm_num) hk2
    obtain ⟨ms, hms⟩ := phase3_ends (ω.xof X0) I b1 (by omega) (by rw [hk, Nat.clog_pow 2 k (by norm_num)]) (ω.hash 2)
    refine hω ⟨ω.out X0 c F pk msg Rs ms, ?_, h1, fun e he p hp h => h2 e he p hp h⟩
    unfold Coins.run
    rw [simulate_eq hI hF, phase2Expand_mono _ F I _ _ hf _ hRs, phase3Expand_mono _ I _ (show 1 ≤ fuel by omega) _ hms]
    rfl
  have kA : (A.ncard : ℚ) ≤ (secretInput I sk pk msg).length / 256 ^ 32 * Nat.card (Coins I D L) := by
    refine fiber_count' A fun b => ?_
    have k := count_digest hL (⟨fun _ => 0⟩ : Stream) ((List.range (secretInput I sk pk msg).length).map fun o => slice (secretInput I sk pk msg) o 32)
    rw [List.length_map, List.length_range] at k
    rw [card_answers]
    push_cast
    refine le_trans (Nat.cast_le.2 (Set.ncard_le_ncard (fun a ha => ?_) (Set.toFinite _))) k
    obtain ⟨o, ho, h⟩ := slice_of_infix (squeeze_len _ _ _) (by norm_num) (show (answer ⟨fun _ => 0⟩ a).squeeze 0 32 <:+: _ from ha)
    rw [Set.mem_ofPred_eq, h]
    exact List.mem_map.2 ⟨o, List.mem_range.2 ho, rfl⟩
  have kB : ∀ e < I.numRounds, ∀ p < I.numParties, ((B e p).ncard : ℚ) ≤ 1 / 256 ^ I.seedSize * Nat.card (Coins I D L) := by
    intro e he p hp
    refine fiber_count (B e p) fun a => ?_
    refine fiber_count {x | (a, x) ∈ B e p} fun b => ?_
    have h1 : ((answer ⟨fun _ => 0⟩ a : Stream).squeeze (32 + e * I.seedSize) I.seedSize).length = I.seedSize := squeeze_len _ _ _
    have h2 : ((answer ⟨fun _ => 0⟩ a : Stream).squeeze 0 32).length = 32 := squeeze_len _ _ _
    exact seed_count hI (D := D) (v := ((answer ⟨fun _ => 0⟩ a : Stream).squeeze 0 32).take I.seedSize) (fun s hs => hD s (hs.trans hlong.1)) (by omega) X0 h1 h2 e p hp
  have kC : (C.ncard : ℚ) ≤ (n.choose (n + 1 - I.numRounds) * I.m2 ^ (n + 1 - I.numRounds) : Nat) / 256 ^ (I.lambda * (n + 1 - I.numRounds)) * Nat.card (Coins I D L) := by
    refine fiber_count C fun a => ?_
    refine fiber_count {x | (a, x) ∈ C} fun b => ?_
    have hm : List.ofFn (b 1) ∈ D := hD _ (by rw [List.length_ofFn]; exact hlong.2)
    have e : {c | (b, c) ∈ {x | (a, x) ∈ C}} = {f : D → Fin L → Byte | Slow2 I (withTable (kindOf I.digestSize) X0 f (kindOf I.digestSize) (List.ofFn (b 1))) n} := Set.ext fun f => Iff.rfl
    rw [e]
    exact slow_at hI X0 hn hnL hm
  have kU : ((⋃ e ∈ Finset.range I.numRounds, ⋃ p ∈ Finset.range I.numParties, B e p).ncard : ℚ) ≤ I.numRounds * I.numParties / 256 ^ I.seedSize * Nat.card (Coins I D L) := by
    refine (Nat.cast_le.2 (Finset.set_ncard_biUnion_le _ _)).trans ?_
    rw [Nat.cast_sum]
    refine (Finset.sum_le_sum (g := fun _ => (I.numParties : ℚ) / 256 ^ I.seedSize * Nat.card (Coins I D L)) fun e he => ?_).trans (le_of_eq ?_)
    · refine (Nat.cast_le.2 (Finset.set_ncard_biUnion_le _ _)).trans ?_
      rw [Nat.cast_sum]
      refine (Finset.sum_le_sum fun p hp => kB e (Finset.mem_range.1 he) p (Finset.mem_range.1 hp)).trans (le_of_eq ?_)
      rw [Finset.sum_const, Finset.card_range, nsmul_eq_mul]
      ring
    · rw [Finset.sum_const, Finset.card_range, nsmul_eq_mul]
      ring
  have h1 := (Set.ncard_le_ncard hsub (Set.toFinite _)).trans ((Set.ncard_union_le _ _).trans (Nat.add_le_add_right (Set.ncard_union_le _ _) _))
  refine (Nat.cast_le.2 h1).trans ?_
  push_cast at kC ⊢
  linarith

end

end Banquet
