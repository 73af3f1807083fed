import Verif.Spec.Oracle
import Verif.Proofs.Grind
import Verif.Proofs.Challenge
import Verif.Props.Challenge
import Verif.Props.Protocol
import Mathlib.SetTheory.Cardinal.Finite
import Mathlib.Data.Fintype.Pi

/-! Counting hash functions. -/

namespace Banquet

open Spec FieldOk Props

instance : Finite Byte := Finite.of_injective BitVec.toFin fun _ _ h => BitVec.eq_of_toFin_eq h

/-- Resampling: if neither the place `x f` nor the bad set `B f` depends on the value of `f` at this place, then the value is bad with at most the probability of the bad set. -/
theorem resample {D A : Type} [Finite D] [DecidableEq D] [Finite A] (P : (D → A) → Prop) (x : (D → A) → D) (B : (D → A) → Set A)
    (hP : ∀ f, P f → ∀ a, P (Function.update f (x f) a) ∧ x (Function.update f (x f) a) = x f ∧ B (Function.update f (x f) a) = B f) {ε : ℚ} (h0 : 0 ≤ ε)
    (hB : ∀ f, ((B f).ncard : ℚ) ≤ ε * Nat.card A) : ({f | P f ∧ f (x f) ∈ B f}.ncard : ℚ) ≤ ε * Nat.card (D → A) := by
  classical
  have := Fintype.ofFinite D
  have := Fintype.ofFinite A
  by_cases hA : Nat.card A = 0
  · have hA : IsEmpty A := (Finite.card_eq_zero_iff).1 hA
    have : {f : D → A | P f ∧ f (x f) ∈ B f} = ∅ := Set.eq_empty_of_forall_notMem fun f _ => hA.elim (f (x f))
    rw [this, Set.ncard_empty, Nat.cast_zero]
    positivity
  have hA : (0 : ℚ) < Nat.card A := Nat.cast_pos.2 (Nat.pos_of_ne_zero hA)
  have e1 : Nat.card ({f : D → A | P f ∧ f (x f) ∈ B f} × A) ≤ Nat.card (Σ f : D → A, B f) := by
    refine Nat.card_le_card_of_injective (fun p => ⟨Function.update p.1.1 (x p.1.1) p.2, p.1.1 (x p.1.1), by rw [(hP p.1.1 p.1.2.1 p.2).2.2]; exact p.1.2.2⟩) ?_
    rintro ⟨⟨f, hf⟩, a⟩ ⟨⟨g, hg⟩, b⟩ h
    rw [Sigma.mk.injEq] at h
    obtain ⟨h1, h2⟩ := h
    have k1 := (hP f hf.1 a).2.1
    have k2 := (hP g hg.1 b).2.1
    dsimp only at h1 h2
    have ex : x f = x g := by rw [← k1, h1, k2]
    have eB : B (Function.update f (x f) a) = B (Function.update g (x g) b) := by rw [h1]
    have ev : f (x f) = g (x g) := by
      have : ∀ (S S' : Set A) (u : S) (v : S'), S = S' → HEq u v → u.1 = v.1 := by
        rintro S _ u v rfl h
        rw [eq_of_heq h]
      exact this _ _ _ _ eB h2
    have ef : f = g := by
      funext d
      by_cases hd : d = x f
      · rw [hd, ev, ex]
      · have := congrFun h1 d
        rwa [Function.update_of_ne hd, Function.update_of_ne (by rwa [← ex])] at this
    subst ef
    have := congrFun h1 (x f)
    rw [Function.update_self, Function.update_self] at this
    rw [this]
  rw [Nat.card_prod, Nat.card_sigma] at e1
  have e2 : ((∑ f : D → A, Nat.card (B f) : Nat) : ℚ) ≤ Nat.card (D → A) * (ε * Nat.card A) := by
    rw [Nat.cast_sum]
    refine le_trans (Finset.sum_le_card_nsmul _ _ (ε * Nat.card A) fun f _ => hB f) ?_
    rw [nsmul_eq_mul, Finset.card_univ, ← Nat.card_eq_fintype_card]
  have e3 : (({f : D → A | P f ∧ f (x f) ∈ B f}.ncard : ℚ) * Nat.card A) ≤ Nat.card (D → A) * (ε * Nat.card A) := le_trans (by exact_mod_cast e1) e2
  have : (({f : D → A | P f ∧ f (x f) ∈ B f}.ncard : ℚ) * Nat.card A) ≤ (ε * Nat.card (D → A)) * Nat.card A := by
    calc _ ≤ _ := e3
      _ = _ := by ring
  exact le_of_mul_le_mul_right this hA

/-! Answers. -/

theorem answer_squeeze {L : Nat} (s : Stream) (a : Fin L → Byte) {o l : Nat} (h : o + l ≤ L) : (answer s a).squeeze o l = (List.range l).map fun i => if h : o + i < L then a ⟨o + i, h⟩ else 0 := by
  unfold Stream.squeeze answer
  refine List.map_congr_left fun i hi => ?_
  have := List.mem_range.1 hi
  dsimp only
  rw [dif_pos (by omega), dif_pos (by omega)]

theorem blocks_streamBlocks (s : Stream) (len n : Nat) : Blocks len n (streamBlocks s len n) := by
  unfold streamBlocks
  refine ⟨by simp, fun b hb => ?_⟩
  obtain ⟨i, _, rfl⟩ := List.mem_map.1 hb
  simp [Stream.squeeze]

/-- A byte of the answer, from its blocks. -/
theorem answer_byte {L : Nat} (s : Stream) (a : Fin L → Byte) (len n : Nat) (h : n * len ≤ L) (i : Nat) (hi : i < n * len) : a ⟨i, by omega⟩ = ((streamBlocks (answer s a) len n).getD (i / len) []).getD (i % len) 0 := by
  have hlen : 0 < len := Nat.pos_of_ne_zero fun e => by rw [e] at hi; omega
  have h1 : i / len < n := Nat.div_lt_of_lt_mul (by rwa [Nat.mul_comm])
  have h2 : i % len < len := Nat.mod_lt _ hlen
  unfold streamBlocks
  rw [getD_range_map _ _ _ _ h1]
  unfold Stream.squeeze
  rw [getD_range_map _ _ _ _ h2, Nat.div_add_mod']
  unfold answer
  dsimp only
  rw [dif_pos (by omega)]

theorem card_answers (L : Nat) : Nat.card (Fin L → Byte) = 256 ^ L := by
  rw [Nat.card_fun, Nat.card_eq_fintype_card (α := Fin L), Fintype.card_fin]
  congr 1
  rw [Nat.card_congr ⟨BitVec.toFin, BitVec.ofFin, fun _ => rfl, fun _ => rfl⟩, Nat.card_eq_fintype_card, Fintype.card_fin]

theorem finite_blocks {len n : Nat} {W : Set (List Bytes)} (hW : ∀ w ∈ W, Blocks len n w) : W.Finite := by
  have h : {w | Blocks len n w ∧ w ∈ W}.Finite := finite_words len n (fun w => w ∈ W)
  exact h.subset fun w hw => ⟨hW w hw, hw⟩

/-- Answers whose first blocks are among given words. -/
theorem count_answers {L len n : Nat} (h : n * len ≤ L) (s : Stream) (W : Set (List Bytes)) (hW : ∀ w ∈ W, Blocks len n w) :
    {a : Fin L → Byte | streamBlocks (answer s a) len n ∈ W}.ncard ≤ W.ncard * 256 ^ (L - n * len) := by
  have hf := finite_blocks hW
  have : (W ×ˢ (Set.univ : Set (Fin (L - n * len) → Byte))).ncard = W.ncard * 256 ^ (L - n * len) := by
    rw [Set.ncard_prod, Set.ncard_univ, card_answers]
  rw [← this]
  refine Set.ncard_le_ncard_of_injOn (fun a => (streamBlocks (answer s a) len n, fun i : Fin (L - n * len) => a ⟨n * len + i, by omega⟩)) (fun a ha => ⟨ha, Set.mem_univ _⟩) ?_ (hf.prod Set.finite_univ)
  intro a _ b _ hab
  obtain ⟨e1, e2⟩ := Prod.mk.injEq .. ▸ hab
  funext i
  by_cases hi : i.1 < n * len
  · rw [show i = ⟨i.1, by omega⟩ from rfl, answer_byte s a len n h i hi, answer_byte s b len n h i hi, e1]
  · have := congrFun e2 ⟨i.1 - n * len, by omega⟩
    dsimp only at this
    rwa [show (⟨n * len + (i.1 - n * len), by omega⟩ : Fin L) = i from Fin.ext (by dsimp only; omega)] at this

theorem count_bytes (len : Nat) : {b : Bytes | b.length = len}.ncard = 256 ^ len := by
  have e : {b : Bytes | b.length = len} = {l : List Byte | l.length = len ∧ ∀ x ∈ l, x ∈ Set.univ} := by ext; simp
  rw [e, count_lists, Set.ncard_univ]
  congr 1
  rw [Nat.card_congr ⟨BitVec.toFin, BitVec.ofFin, fun _ => rfl, fun _ => rfl⟩, Nat.card_eq_fintype_card, Fintype.card_fin]

theorem count_blocks (len n : Nat) : {w | Blocks len n w}.ncard = 256 ^ (n * len) := by
  refine (count_lists (A := {b : Bytes | b.length = len}) n).trans ?_
  rw [count_bytes, ← pow_mul, Nat.mul_comm]

/-- Answers whose hash is among given ones. -/
theorem count_digest {L d : Nat} (h : d ≤ L) (s : Stream) (V : List Bytes) : ({a : Fin L → Byte | (answer s a).squeeze 0 d ∈ V}.ncard : ℚ) ≤ V.length / 256 ^ d * 256 ^ L := by
  have k := count_answers (L := L) (n := 1) (len := d) (by omega) s {w | Blocks d 1 w ∧ ∃ v ∈ V, w = [v]} (fun w hw => hw.1)
  have e : {a : Fin L → Byte | (answer s a).squeeze 0 d ∈ V} = {a : Fin L → Byte | streamBlocks (answer s a) d 1 ∈ {w | Blocks d 1 w ∧ ∃ v ∈ V, w = [v]}} := by
    ext a
    refine ⟨fun ha => ⟨blocks_streamBlocks _ _ _, _, ha, by simp [streamBlocks]⟩, fun ⟨_, v, hv, e⟩ => ?_⟩
    simp only [streamBlocks, List.range_one, List.map_cons, List.map_nil, Nat.zero_mul, List.cons.injEq, and_true] at e
    rw [Set.mem_ofPred_eq, e]
    exact hv
  have hV : {w | Blocks d 1 w ∧ ∃ v ∈ V, w = [v]}.ncard ≤ V.length := by
    classical
    refine le_trans (Set.ncard_le_ncard (t := ((V.map fun v => [v]).toFinset : Set (List Bytes))) ?_ (Finset.finite_toSet _)) ?_
    · rintro w ⟨_, v, hv, rfl⟩
      simpa using hv
    · rw [Set.ncard_coe_finset]
      exact le_trans (List.toFinset_card_le _) (by rw [List.length_map])
  rw [e]
  have k : ({a : Fin L → Byte | streamBlocks (answer s a) d 1 ∈ {w | Blocks d 1 w ∧ ∃ v ∈ V, w = [v]}}.ncard) ≤ V.length * 256 ^ (L - d) := by
    refine le_trans k ?_
    rw [Nat.one_mul]
    exact Nat.mul_le_mul_right _ hV
  refine le_trans (Nat.cast_le.2 k) (le_of_eq ?_)
  rw [show (256 : ℚ) ^ L = 256 ^ d * 256 ^ (L - d) by rw [← pow_add]; congr 1; omega]
  push_cast
  field_simp

/-- The table of challenges of the first round in a stream. -/
def tableOf (I : Instance) (s : Stream) (e : Fin I.numRounds) : List W64 := (List.range I.m1).map fun j => blockElem (s.squeeze ((e * I.m1 + j) * I.lambda) I.lambda)

/-- Answers whose first challenges are among given ones. -/
theorem count_round1 {I : Instance} (hI : Consistent I) {L : Nat} (h : I.numRounds * I.m1 * I.lambda ≤ L) (s : Stream) (B : Set (Fin I.numRounds → List W64)) (hB : B ⊆ Round1 I) :
    ({a : Fin L → Byte | tableOf I (answer s a) ∈ B}.ncard : ℚ) ≤ B.ncard / (Round1 I).ncard * 256 ^ L := by
  have hl : I.lambda ≤ 8 := by rcases hI.lambda with h | h | h | h <;> omega
  let tab : List Bytes → Fin I.numRounds → List W64 := fun w e => (List.range I.m1).map fun j => blockElem (w.getD (e * I.m1 + j) [])
  have hpos : ∀ e < I.numRounds, ∀ j < I.m1, e * I.m1 + j < I.numRounds * I.m1 := by
    intro e he j hj
    have := Nat.mul_le_mul_right I.m1 (show e + 1 ≤ I.numRounds from he)
    rw [Nat.succ_mul] at this
    omega
  have k := count_answers h s {w | Blocks I.lambda (I.numRounds * I.m1) w ∧ tab w ∈ B} fun w hw => hw.1
  have e : {a : Fin L → Byte | tableOf I (answer s a) ∈ B} = {a : Fin L → Byte | streamBlocks (answer s a) I.lambda (I.numRounds * I.m1) ∈ {w | Blocks I.lambda (I.numRounds * I.m1) w ∧ tab w ∈ B}} := by
    have : ∀ a : Fin L → Byte, tab (streamBlocks (answer s a) I.lambda (I.numRounds * I.m1)) = tableOf I (answer s a) := fun a => by
      funext e
      refine List.map_congr_left fun j hj => ?_
      unfold streamBlocks
      rw [getD_range_map _ _ _ _ (hpos e e.2 j (List.mem_range.1 hj))]
    ext a
    rw [Set.mem_ofPred_eq, Set.mem_ofPred_eq, Set.mem_ofPred_eq, this]
    exact ⟨fun h => ⟨blocks_streamBlocks _ _ _, h⟩, fun h => h.2⟩
  have hBf : B.Finite := (Set.Finite.pi' fun e => (List.finite_length_eq W64 I.m1).subset fun rs (h : Elements I.lambda I.m1 rs) => h.1).subset hB
  have hW : {w | Blocks I.lambda (I.numRounds * I.m1) w ∧ tab w ∈ B}.ncard ≤ B.ncard := by
    refine Set.ncard_le_ncard_of_injOn tab (fun w hw => hw.2) ?_ hBf
    intro w hw w' hw' hww
    refine List.ext_getElem (by rw [hw.1.1, hw'.1.1]) fun i h1 h2 => ?_
    have hi : i < I.numRounds * I.m1 := by rw [← hw.1.1]; exact h1
    have hm : 0 < I.m1 := Nat.pos_of_ne_zero fun e => by rw [e] at hi; omega
    have he : i / I.m1 < I.numRounds := Nat.div_lt_of_lt_mul (by rwa [Nat.mul_comm])
    have hj : i % I.m1 < I.m1 := Nat.mod_lt _ hm
    have hv := congrArg (fun l : List W64 => l.getD (i % I.m1) 0) (congrFun hww ⟨i / I.m1, he⟩)
    dsimp only [tab] at hv
    rw [getD_range_map _ _ _ _ hj, getD_range_map _ _ _ _ hj, Nat.div_add_mod', getD_of_lt h1, getD_of_lt h2] at hv
    exact blockElem_inj hl (hw.1.2 _ (List.getElem_mem h1)) (hw'.1.2 _ (List.getElem_mem h2)) hv
  rw [e]
  refine le_trans (Nat.cast_le.2 (le_trans k (Nat.mul_le_mul_right _ hW))) (le_of_eq ?_)
  have hR : (Round1 I).ncard = 256 ^ (I.numRounds * I.m1 * I.lambda) := by
    rw [(C65_rounds I hI).1, ← pow_mul, ← pow_mul, show 256 = 2 ^ 8 from rfl, ← pow_mul]
    congr 1
    ring
  rw [hR, show (256 : ℚ) ^ L = 256 ^ (I.numRounds * I.m1 * I.lambda) * 256 ^ (L - I.numRounds * I.m1 * I.lambda) by rw [← pow_add]; congr 1; omega]
  push_cast
  field_simp

/-- Answers whose values drawn with rejection are among given ones. -/
theorem count_drawn {α : Type} (f : Bytes → α) (ok : α → Prop) (len n N L : Nat) (d0 : α) (hL : n * len ≤ L) (R B : Set (Fin N → α)) (hBR : B ⊆ R) (hR : R.Finite)
    (hu : ∀ b ∈ R, ∀ b' ∈ R, {w | Blocks len n w ∧ firstOk f ok N w = List.ofFn b}.ncard = {w | Blocks len n w ∧ firstOk f ok N w = List.ofFn b'}.ncard) (s : Stream) :
    ({a : Fin L → Byte | (firstOk f ok N (streamBlocks (answer s a) len n)).length = N ∧ (fun e : Fin N => (firstOk f ok N (streamBlocks (answer s a) len n)).getD e d0) ∈ B}.ncard : ℚ) ≤ B.ncard / R.ncard * 256 ^ L := by
  rcases B.eq_empty_or_nonempty with rfl | ⟨b0, hb0⟩
  · simp
  have hofn : ∀ l : List α, l.length = N → l = List.ofFn fun e : Fin N => l.getD e d0 := fun l hl => by
    refine List.ext_getElem (by simp [hl]) fun i h1 h2 => ?_
    rw [List.getElem_ofFn, getD_of_lt h1]
  let W : (Fin N → α) → Set (List Bytes) := fun b => {w | Blocks len n w ∧ firstOk f ok N w = List.ofFn b}
  have hWf : ∀ b, (W b).Finite := fun b => finite_blocks fun w hw => hw.1
  let c := (W b0).ncard
  have hc : ∀ b ∈ R, (W b).ncard = c := fun b hb => hu b hb b0 (hBR hb0)
  have hBf := hR.subset hBR
  have k := count_answers hL s {w | Blocks len n w ∧ (firstOk f ok N w).length = N ∧ (fun e : Fin N => (firstOk f ok N w).getD e d0) ∈ B} fun w hw => hw.1
  have e : {a : Fin L → Byte | (firstOk f ok N (streamBlocks (answer s a) len n)).length = N ∧ (fun e : Fin N => (firstOk f ok N (streamBlocks (answer s a) len n)).getD e d0) ∈ B} =
      {a : Fin L → Byte | streamBlocks (answer s a) len n ∈ {w | Blocks len n w ∧ (firstOk f ok N w).length = N ∧ (fun e : Fin N => (firstOk f ok N w).getD e d0) ∈ B}} := by
    ext a
    exact ⟨fun h => ⟨blocks_streamBlocks _ _ _, h⟩, fun h => h.2⟩
  have h1 : {w | Blocks len n w ∧ (firstOk f ok N w).length = N ∧ (fun e : Fin N => (firstOk f ok N w).getD e d0) ∈ B}.ncard ≤ B.ncard * c := by
    obtain ⟨p1, p2⟩ := count_pairs hBf W (b := c) fun b hb => ⟨hWf b, (hc b (hBR hb)).le⟩
    refine le_trans (Set.ncard_le_ncard_of_injOn (fun w => (fun e : Fin N => (firstOk f ok N w).getD e d0, w)) (fun w hw => ?_) (fun w _ w' _ h => (Prod.mk.inj h).2) p1) p2
    exact ⟨hw.2.2, hw.1, hofn _ hw.2.1⟩
  have h2 : R.ncard * c ≤ 256 ^ (n * len) := by
    have := hR.to_subtype
    have := Fintype.ofFinite R
    have := fun b => (hWf b).to_subtype
    rw [← count_blocks]
    have hf : {w | Blocks len n w}.Finite := finite_blocks fun w hw => hw
    have := hf.to_subtype
    have key : Nat.card (Σ b : R, W b.1) ≤ Nat.card {w | Blocks len n w} := by
      refine Nat.card_le_card_of_injective (fun x => ⟨x.2.1, x.2.2.1⟩) ?_
      rintro ⟨⟨b, hb⟩, w, hw⟩ ⟨⟨b', hb'⟩, w', hw'⟩ h
      obtain rfl : w = w' := congrArg Subtype.val h
      obtain rfl : b = b' := List.ofFn_injective (hw.2.symm.trans hw'.2)
      rfl
    rw [Nat.card_sigma, Finset.sum_congr rfl fun (b : R) _ => show Nat.card (W b.1) = c from hc b.1 b.2, Finset.sum_const, smul_eq_mul, Finset.card_univ, ← Nat.card_eq_fintype_card] at key
    exact key
  have hRpos : (0 : ℚ) < R.ncard := Nat.cast_pos.2 ((Set.ncard_pos hR).2 ⟨b0, hBR hb0⟩)
  have h3 : {a : Fin L → Byte | streamBlocks (answer s a) len n ∈ {w | Blocks len n w ∧ (firstOk f ok N w).length = N ∧ (fun e : Fin N => (firstOk f ok N w).getD e d0) ∈ B}}.ncard * R.ncard ≤ B.ncard * 256 ^ L := by
    calc _ ≤ B.ncard * c * 256 ^ (L - n * len) * R.ncard := Nat.mul_le_mul_right _ (le_trans k (Nat.mul_le_mul_right _ h1))
      _ = B.ncard * ((R.ncard * c) * 256 ^ (L - n * len)) := by ring
      _ ≤ B.ncard * (256 ^ (n * len) * 256 ^ (L - n * len)) := Nat.mul_le_mul_left _ (Nat.mul_le_mul_right _ h2)
      _ = B.ncard * 256 ^ L := by rw [← pow_add]; congr 2; omega
  rw [e, div_mul_eq_mul_div, le_div_iff₀ hRpos]
  exact_mod_cast h3

end Banquet
