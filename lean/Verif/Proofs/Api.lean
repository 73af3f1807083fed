import Verif.Model.Api
import Verif.Proofs.FieldOk

namespace Banquet

theorem take_set_eq (l : List W64) (n : Nat) (v : W64) (h : n < l.length) : (l.set n v).take (n + 1) = l.take n ++ [v] := by
  rw [List.take_succ_eq_append_getElem (by simpa using h), List.take_set_of_le (Nat.le_refl n)]
  simp

theorem writeInner (f : W64 → W64) (n : Nat) (pre l : List W64) (hl : l.length = 256) (hn : 2 * n ≤ 256) (hp : l.take n = pre) (k : Nat) (hk : k ≤ n) :
    ((List.range k).foldl (fun l idx => l.set (n + idx) (f (l.getD idx 0))) l).length = 256 ∧
    ((List.range k).foldl (fun l idx => l.set (n + idx) (f (l.getD idx 0))) l).take (n + k) = pre ++ (pre.map f).take k := by
  induction k with
  | zero => simpa using ⟨hl, hp⟩
  | succ k ih =>
    obtain ⟨h1, h2⟩ := ih (by omega)
    have hpl : pre.length = n := by rw [← hp, List.length_take]; omega
    rw [List.range_succ, List.foldl_append, List.foldl_cons, List.foldl_nil]
    generalize (List.range k).foldl (fun l idx => l.set (n + idx) (f (l.getD idx 0))) l = m at h1 h2
    refine ⟨by rw [List.length_set, h1], ?_⟩
    rw [← Nat.add_assoc, take_set_eq _ _ _ (by omega), h2, List.append_assoc]
    congr 1
    rw [List.take_succ_eq_append_getElem (by rw [List.length_map]; omega)]
    congr 1
    have : m.getD k 0 = pre.getD k 0 := by
      have h3 : (m.take (n + k)).getD k 0 = m.getD k 0 := by
        rw [List.getD_eq_getElem?_getD, List.getD_eq_getElem?_getD, List.getElem?_take_of_lt (by omega)]
      rw [← h3, h2, List.getD_eq_getElem?_getD, List.getD_eq_getElem?_getD, List.getElem?_append_left (by omega)]
    rw [this]
    simp [List.getD_eq_getElem?_getD, List.getElem?_eq_getElem (show k < pre.length by omega)]

theorem writeLut_eq (r : Reducer) (gen : W64) (lut : List W64) (h : lut.length = 256) : writeLut r gen lut = initLiftingLut r gen := by
  unfold writeLut initLiftingLut
  have key : ∀ b, b ≤ 7 → ∀ A B, 
      A = (List.range b).foldl (fun (st : List W64 × W64) b =>
        ((List.range (2 ^ (b + 1))).foldl (fun l idx => l.set (2 ^ (b + 1) + idx) (gfAdd (l.getD idx 0) st.2)) st.1,
          r.apply (clmul st.2 gen))) ((lut.set 0 0).set 1 1, gen) →
      B = (List.range b).foldl (fun st _ => liftStep r gen st) (([0, 1], gen) : List W64 × W64) →
      A.1.length = 256 ∧ A.1.take (2 ^ (b + 1)) = B.1 ∧ A.2 = B.2 := by
    intro b
    induction b with
    | zero =>
      rintro _ A B rfl rfl
      refine ⟨by simpa using h, ?_, rfl⟩
      match lut, h with
      | a :: b :: l, _ => rfl
    | succ b ih =>
      rintro hb A B hA hB
      rw [List.range_succ, List.foldl_append, List.foldl_cons, List.foldl_nil] at hA hB
      obtain ⟨h1, h2, h3⟩ := ih (by omega) _ _ rfl rfl
      generalize (List.range b).foldl (fun (st : List W64 × W64) b =>
        ((List.range (2 ^ (b + 1))).foldl (fun l idx => l.set (2 ^ (b + 1) + idx) (gfAdd (l.getD idx 0) st.2)) st.1,
          r.apply (clmul st.2 gen))) ((lut.set 0 0).set 1 1, gen) = A' at *
      generalize (List.range b).foldl (fun st _ => liftStep r gen st) (([0, 1], gen) : List W64 × W64) = B' at *
      have hp : 2 ^ (b + 1) ≤ 2 ^ 7 := Nat.pow_le_pow_right (by omega) hb
      have hw := writeInner (fun v => gfAdd v A'.2) (2 ^ (b + 1)) B'.1 A'.1 h1 (by omega) h2 (2 ^ (b + 1)) (Nat.le_refl _)
      have hl : B'.1.length = 2 ^ (b + 1) := by rw [← h2, List.length_take]; omega
      subst hA hB
      refine ⟨hw.1, ?_, by unfold liftStep; rw [h3]⟩
      rw [Nat.pow_succ, Nat.mul_two]
      dsimp only
      rw [hw.2, List.take_of_length_le (by rw [List.length_map]; omega), h3]
      rfl
  obtain ⟨h1, h2, _⟩ := key 7 (by omega) _ _ rfl rfl
  rw [← h2, List.take_of_length_le (by rw [h1]; decide)]

/-- Writing the globals gives the state of `initExtensionField`, whatever was there before. -/
theorem initGlobals_eq (G : FieldState) (hG : G.lut.length = 256) (lam : Nat) :
    initGlobals G lam = match initExtensionField lam with
      | .ok F => (.ok (), F)
      | .error e => (.error e, G) := by
  unfold initGlobals initExtensionField
  split <;> simp only [writeLut_eq _ _ _ hG]

theorem initLiftingLut_length (r : Reducer) (gen : W64) : (initLiftingLut r gen).length = 256 := by
  have : ∀ n, ((List.range n).foldl (fun st _ => liftStep r gen st) (([0, 1], gen) : List W64 × W64)).1.length = 2 ^ (n + 1) := by
    intro n
    induction n with
    | zero => rfl
    | succ n ih =>
      rw [List.range_succ, List.foldl_append, List.foldl_cons, List.foldl_nil]
      unfold liftStep at *
      rw [List.length_append, List.length_map, ih, Nat.pow_succ 2 (n + 1), Nat.mul_two]
  exact this 7

theorem initGlobals_lut (G : FieldState) (hG : G.lut.length = 256) (lam : Nat) : (initGlobals G lam).2.lut.length = 256 := by
  rw [initGlobals_eq G hG]
  split
  · rename_i F h
    unfold initExtensionField at h
    split at h <;> first | (cases h; done) | (rw [← Except.ok.inj h]; exact initLiftingLut_length _ _)
  · exact hG

theorem runCall_lut (X : Xof) (fuel : Nat) (G : FieldState) (hG : G.lut.length = 256) (c : Call) : (runCall X fuel G c).2.lut.length = 256 := by
  cases c with
  | init I => exact initGlobals_lut G hG _
  | keygen I d => exact hG
  | sign I sk pk msg =>
    have := initGlobals_lut G hG I.lambda
    simp only [runCall]
    split <;> (rename_i h; rw [h] at this; exact this)
  | verify I pk sig msg =>
    have := initGlobals_lut G hG I.lambda
    simp only [runCall]
    split <;> (rename_i h; rw [h] at this; exact this)
  | serialize I s => exact hG
  | deserialize I bs => exact hG

theorem runCalls_lut (X : Xof) (fuel : Nat) (cs : List Call) (G : FieldState) (hG : G.lut.length = 256) : (runCalls X fuel G cs).lut.length = 256 := by
  induction cs generalizing G with
  | nil => exact hG
  | cons c cs ih => exact ih _ (runCall_lut X fuel G hG c)

theorem initial_lut : FieldState.initial.lut.length = 256 := List.length_replicate

theorem toBytes_congr {F G : FieldState} (h : F.byteSize = G.byteSize) : F.toBytes = G.toBytes := by
  funext x
  unfold FieldState.toBytes
  rw [h]

theorem fromBytes_congr {F G : FieldState} (h : F.byteSize = G.byteSize) : F.fromBytes = G.fromBytes := by
  funext x
  unfold FieldState.fromBytes
  rw [h]

theorem serialize_congr {F G : FieldState} (h : F.byteSize = G.byteSize) : serialize F = serialize G := by
  have : serializeProof F = serializeProof G := by
    funext I p
    unfold serializeProof
    rw [toBytes_congr h]
  funext I s
  unfold serialize
  rw [this]

theorem deserialize_congr (X : Xof) (fuel : Nat) {F G : FieldState} (h : F.byteSize = G.byteSize) : deserialize X fuel F = deserialize X fuel G := by
  have h1 : deserializeProof F = deserializeProof G := by
    funext I m bs
    unfold deserializeProof
    rw [fromBytes_congr h]
  have h2 : deserializeProofs F = deserializeProofs G := by
    funext I ms
    induction ms with
    | nil => rfl
    | cons m ms ih => funext bs; unfold deserializeProofs; rw [h1, ih]
  funext I bs
  unfold deserialize deserializeRest
  rw [h2, h]

end Banquet
