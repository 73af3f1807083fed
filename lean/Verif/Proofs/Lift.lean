import Verif.Proofs.FieldPoly
import Verif.Proofs.AesByte

/-! The lifting table and the byte encoding of field elements. -/

set_option linter.unusedSectionVars false

namespace Banquet

open Polynomial Spec FieldOk

variable {F : FieldState} [hF : FieldOk F]

attribute [local irreducible] clmul wordPoly

/-- Value of a polynomial over GF(2) at a field element, from the bits of an index. -/
theorem lift_loop (gen : W64) (hg : Reduced F.byteSize gen) (k : Nat) :
    let st := (List.range k).foldl (fun st _ => liftStep F.reducer gen st) (([0, 1] : List W64), gen)
    st.1.length = 2 ^ (k + 1) ∧ AllRed F.byteSize st.1 ∧ Reduced F.byteSize st.2 ∧ val F.byteSize st.2 = val F.byteSize gen ^ (k + 1) ∧
      ∀ i < 2 ^ (k + 1), val F.byteSize (st.1.getD i 0) = ∑ j ∈ Finset.range (k + 1), if i.testBit j then val F.byteSize gen ^ j else 0 := by
  induction k with
  | zero =>
    refine ⟨rfl, ?_, hg, by simp, ?_⟩
    · intro w hw
      have : w = 0 ∨ w = 1 := by simpa using hw
      rcases this with rfl | rfl
      · exact reduced_zero
      · exact reduced_one
    · intro i hi
      have : i = 0 ∨ i = 1 := by omega
      rcases this with rfl | rfl
      · simp only [List.range_zero, List.foldl_nil, List.getD_cons_zero]
        rw [val_zero]; simp
      · simp only [List.range_zero, List.foldl_nil, List.getD_cons_succ, List.getD_cons_zero]
        rw [val_one]; simp
  | succ k ih =>
    simp only [List.range_succ, List.foldl_append, List.foldl_cons, List.foldl_nil]
    obtain ⟨h1, h2, h3, h4, h5⟩ := ih
    generalize (List.range k).foldl (fun st _ => liftStep F.reducer gen st) (([0, 1] : List W64), gen) = st at *
    obtain ⟨l, pw⟩ := st
    simp only [liftStep] at *
    refine ⟨?_, ?_, reduced_apply _, ?_, ?_⟩
    · rw [List.length_append, List.length_map, h1]; ring
    · intro w hw
      rcases List.mem_append.1 hw with h | h
      · exact h2 w h
      · obtain ⟨v, hv, rfl⟩ := List.mem_map.1 h
        exact reduced_add (h2 v hv) h3
    · have := val_mul (F := F) h3 hg
      rw [FieldState.mul] at this
      rw [this, h4, ← pow_succ]
    · intro i hi
      rw [List.getD_eq_getElem?_getD]
      by_cases hlt : i < 2 ^ (k + 1)
      · rw [List.getElem?_append_left (by omega), ← List.getD_eq_getElem?_getD, h5 i hlt, Finset.sum_range_succ _ (k + 1)]
        rw [Nat.testBit_lt_two_pow hlt]; simp
      · rw [List.getElem?_append_right (by omega), h1, List.getElem?_map]
        have hi2 : i - 2 ^ (k + 1) < 2 ^ (k + 1) := by rw [pow_succ 2 (k + 1)] at hi; omega
        rw [List.getElem?_eq_getElem (by omega)]
        simp only [Option.map_some, Option.getD_some]
        have := h5 (i - 2 ^ (k + 1)) hi2
        rw [List.getD_eq_getElem?_getD, List.getElem?_eq_getElem (by omega), Option.getD_some] at this
        rw [val_add, this, h4]
        have hd : i = 2 ^ (k + 1) + (i - 2 ^ (k + 1)) := by omega
        have hsum : ∀ n ≤ k + 1, (∑ j ∈ Finset.range n, if i.testBit j then val F.byteSize gen ^ j else 0)
            = ∑ j ∈ Finset.range n, if (i - 2 ^ (k + 1)).testBit j then val F.byteSize gen ^ j else 0 := by
          intro n hn
          apply Finset.sum_congr rfl
          intro j hj
          have hj' : j < k + 1 := by have := Finset.mem_range.1 hj; omega
          congr 1
          have : i.testBit j = (i - 2 ^ (k + 1)).testBit j := by
            conv_lhs => rw [hd]
            rw [Nat.testBit_two_pow_add_gt hj']
          rw [this]
        rw [Finset.sum_range_succ _ (k + 1), hsum (k + 1) le_rfl]
        have hb : i.testBit (k + 1) = true := by
          rw [hd, Nat.testBit_two_pow_add_eq, Nat.testBit_lt_two_pow hi2]; rfl
        rw [hb]; simp

theorem lut_spec' : ∃ gen : W64, Reduced F.byteSize gen ∧ (aeval (val F.byteSize gen) aesPoly = 0 ∧ wordPoly gen = aesRoot F.byteSize) ∧
    ∀ b : Byte, Reduced F.byteSize (F.lift b) ∧ val F.byteSize (F.lift b) = aeval (val F.byteSize gen) (wordPoly b) := by
  obtain ⟨gen, h1, h2, h3⟩ := hF.lut
  refine ⟨gen, h2, h3, ?_⟩
  intro b
  obtain ⟨g1, g2, g3, g4, g5⟩ := lift_loop (F := F) gen h2 7
  have hl : F.lift b = ((List.range 7).foldl (fun st _ => liftStep F.reducer gen st) (([0, 1] : List W64), gen)).1.getD b.toNat 0 := by
    rw [FieldState.lift, h1]; rfl
  rw [hl]
  refine ⟨g2.getD _, ?_⟩
  rw [g5 _ b.isLt, aeval_eq_sum_range' (n := 8)]
  · apply Finset.sum_congr rfl
    intro j hj
    rw [coeff_wordPoly]
    have : b.getLsbD j = b.toNat.testBit j := rfl
    rw [this]
    split <;> simp
  · by_cases hz : wordPoly b = 0
    · rw [hz]; simp
    · rw [natDegree_lt_iff_degree_lt hz]
      exact (degree_wordPoly_lt b 8).2 b.isLt

theorem lut_spec : ∃ gen : W64, Reduced F.byteSize gen ∧ aeval (val F.byteSize gen) aesPoly = 0 ∧
    ∀ b : Byte, Reduced F.byteSize (F.lift b) ∧ val F.byteSize (F.lift b) = aeval (val F.byteSize gen) (wordPoly b) := by
  obtain ⟨gen, h1, h2, h3⟩ := lut_spec' (F := F)
  exact ⟨gen, h1, h2.1, h3⟩

theorem val_lift (b : Byte) : val F.byteSize (F.lift b) = liftVal F.byteSize b := by
  obtain ⟨gen, _, h2, h3⟩ := lut_spec' (F := F)
  rw [(h3 b).2, val, h2.2, liftVal]

theorem reduced_lift (b : Byte) : Reduced F.byteSize (F.lift b) := by
  obtain ⟨_, _, _, h⟩ := lut_spec (F := F)
  exact (h b).1

theorem val_lift_xor (a b : Byte) : val F.byteSize (F.lift (a ^^^ b)) = val F.byteSize (F.lift a) + val F.byteSize (F.lift b) := by
  obtain ⟨_, _, _, h⟩ := lut_spec (F := F)
  rw [(h _).2, (h _).2, (h _).2, wordPoly_xor, map_add]

theorem val_lift_mul (a b : Byte) : val F.byteSize (F.lift (aesMul a b)) = val F.byteSize (F.lift a) * val F.byteSize (F.lift b) := by
  obtain ⟨gen, _, hr, h⟩ := lut_spec (F := F)
  rw [(h _).2, (h _).2, (h _).2, ← map_mul, ← sub_eq_zero, ← map_sub]
  obtain ⟨c, hc⟩ := aesMul_dvd a b
  rw [hc, map_mul, hr, zero_mul]

theorem val_lift_zero : val F.byteSize (F.lift 0) = 0 := by
  obtain ⟨_, _, _, h⟩ := lut_spec (F := F)
  rw [(h _).2, wordPoly_zero, map_zero]

theorem val_lift_one : val F.byteSize (F.lift 1) = 1 := by
  obtain ⟨_, _, _, h⟩ := lut_spec (F := F)
  rw [(h _).2, show (1 : Byte) = 1#8 from rfl, wordPoly_one (by norm_num), map_one]

theorem lift_zero : F.lift 0 = 0 := val_inj (reduced_lift 0) reduced_zero (val_lift_zero.trans val_zero.symm)
theorem lift_one : F.lift 1 = 1 := val_inj (reduced_lift 1) reduced_one (val_lift_one.trans val_one.symm)

theorem lift_xor (a b : Byte) : F.lift (a ^^^ b) = gfAdd (F.lift a) (F.lift b) :=
  val_inj (reduced_lift _) (reduced_add (reduced_lift _) (reduced_lift _)) (by rw [val_lift_xor, val_add])

theorem lift_mul (a b : Byte) : F.lift (aesMul a b) = F.mul (F.lift a) (F.lift b) :=
  val_inj (reduced_lift _) (reduced_mul _ _) (by rw [val_lift_mul, val_mul (reduced_lift _) (reduced_lift _)])

theorem lift_inj {a b : Byte} (h : F.lift a = F.lift b) : a = b := by
  have hx : F.lift (a ^^^ b) = 0 := by rw [lift_xor, h, gfAdd]; exact BitVec.xor_self
  by_contra hne
  have h0 : a ^^^ b ≠ 0 := by
    intro hc
    apply hne
    have := congrArg (· ^^^ b) hc
    simpa [BitVec.xor_assoc] using this
  have h1 := val_lift_mul (F := F) (a ^^^ b) (aesInv (a ^^^ b))
  rw [aesMul_inv _ h0, val_lift_one, hx, val_zero, zero_mul] at h1
  exact one_ne_zero h1

/-! ## Encoding -/

omit hF in
theorem length_toBytes (a : W64) : (F.toBytes a).length = F.byteSize := by simp [FieldState.toBytes]

theorem getLsbD_leWord (bs : Bytes) (h : bs.length ≤ 8) (i : Nat) : (leWord bs).getLsbD i = (bs.getD (i / 8) 0).getLsbD (i % 8) := by
  induction bs generalizing i with
  | nil => simp [leWord]
  | cons b bs ih =>
    have hl : bs.length ≤ 7 := by rw [List.length_cons] at h; omega
    have ih' := ih (by omega)
    show ((leWord bs <<< 8) ||| b.setWidth 64).getLsbD i = _
    rw [BitVec.getLsbD_or, BitVec.getLsbD_shiftLeft, BitVec.getLsbD_setWidth]
    by_cases hi : i < 8
    · have h0 : i / 8 = 0 := by omega
      have h1 : i % 8 = i := by omega
      rw [h0, h1]
      have h64 : i < 64 := by omega
      simp [hi, h64]
    · rw [BitVec.getLsbD_of_ge b i (by omega), ih' (i - 8)]
      have e1 : i / 8 = (i - 8) / 8 + 1 := by omega
      have e2 : i % 8 = (i - 8) % 8 := by omega
      rw [e1, e2, List.getD_cons_succ]
      by_cases h64 : i < 64
      · simp [hi, h64]
      · have : bs.getD ((i - 8) / 8) 0 = 0 := by
          rw [List.getD_eq_getElem?_getD, List.getElem?_eq_none (by omega)]; rfl
        rw [this]; simp

theorem leWord_lt (bs : Bytes) (h : bs.length ≤ 8) : (leWord bs).toNat < 2 ^ (8 * bs.length) := by
  apply lt_of_getLsbD
  intro i hi
  rw [getLsbD_leWord bs h, List.getD_eq_getElem?_getD, List.getElem?_eq_none (by omega)]
  simp

theorem reduced_fromBytes (bs : Bytes) : Reduced F.byteSize (F.fromBytes bs) := by
  have h7 := le7 (F := F)
  have hl : (bs.take F.byteSize).length ≤ F.byteSize := by rw [List.length_take]; omega
  exact lt_of_lt_of_le (leWord_lt _ (by omega)) (Nat.pow_le_pow_right (by norm_num) (by omega))

omit hF in
theorem getD_toBytes (a : W64) (i : Nat) (hi : i < F.byteSize) : (F.toBytes a).getD i 0 = (a >>> (8 * i)).setWidth 8 := by
  rw [List.getD_eq_getElem?_getD, FieldState.toBytes, List.getElem?_map, List.getElem?_range hi]; rfl

theorem fromBytes_toBytes {a : W64} (ha : Reduced F.byteSize a) : F.fromBytes (F.toBytes a) = a := by
  have h7 := le7 (F := F)
  apply BitVec.eq_of_getLsbD_eq
  intro i hi
  rw [FieldState.fromBytes, List.take_of_length_le (by rw [length_toBytes]), getLsbD_leWord _ (by rw [length_toBytes]; omega)]
  by_cases hlt : i / 8 < F.byteSize
  · rw [getD_toBytes _ _ hlt, BitVec.getLsbD_setWidth, BitVec.getLsbD_ushiftRight]
    have e : 8 * (i / 8) + i % 8 = i := by omega
    have e2 : i % 8 < 8 := by omega
    simp [e, e2]
  · rw [List.getD_eq_getElem?_getD, List.getElem?_eq_none (by rw [length_toBytes]; omega), getLsbD_of_lt a ha (by omega)]
    simp

theorem toBytes_fromBytes {bs : Bytes} (hl : bs.length = F.byteSize) : F.toBytes (F.fromBytes bs) = bs := by
  have h7 := le7 (F := F)
  apply List.ext_getElem?
  intro i
  by_cases hi : i < F.byteSize
  · rw [FieldState.toBytes, List.getElem?_map, List.getElem?_range hi, List.getElem?_eq_getElem (by omega)]
    simp only [Option.map_some]
    congr 1
    apply BitVec.eq_of_getLsbD_eq
    intro j hj
    rw [BitVec.getLsbD_setWidth, BitVec.getLsbD_ushiftRight, FieldState.fromBytes, List.take_of_length_le (by omega), getLsbD_leWord _ (by omega)]
    have e1 : (8 * i + j) / 8 = i := by omega
    have e2 : (8 * i + j) % 8 = j := by omega
    rw [e1, e2, List.getD_eq_getElem?_getD, List.getElem?_eq_getElem (by omega)]
    simp [hj]
  · rw [List.getElem?_eq_none (by rw [length_toBytes]; omega), List.getElem?_eq_none (by omega)]

theorem toBytes_inj {a b : W64} (ha : Reduced F.byteSize a) (hb : Reduced F.byteSize b) (h : F.toBytes a = F.toBytes b) : a = b := by
  rw [← fromBytes_toBytes ha, ← fromBytes_toBytes hb, h]

end Banquet
