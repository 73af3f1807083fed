import Verif.Spec.Instance
import Verif.Model.Container
import Mathlib.Tactic.Ring
import Mathlib.Tactic.Linarith

/-! Property theorems C36, C37 (instances) and C40 (`RepContainer`). -/

namespace Banquet.Props

open Spec

/-! ### C36 -/

theorem consistent_of_check (I : Instance) (h : ((I.aes = ⟨16, 16, 1, 200⟩ ∨ I.aes = ⟨24, 16, 2, 416⟩ ∨ I.aes = ⟨32, 16, 2, 500⟩) ∧ I.seedSize = I.aes.keySize ∧
    I.digestSize = 2 * I.seedSize ∧ I.m1 * I.m2 = I.aes.numSboxes ∧ (∃ k < 16, 1 ≤ k ∧ I.numParties = 2 ^ k) ∧ (1 ≤ I.numRounds ∧ I.numRounds < 2 ^ 16) ∧
    (I.lambda = 2 ∨ I.lambda = 4 ∨ I.lambda = 5 ∨ I.lambda = 6) ∧ 2 * I.m2 + 1 ≤ 21845)) : Consistent I := by
  obtain ⟨h1, h2, h3, h4, ⟨k, h5, h6, h7⟩, h8, h9, h10⟩ := h
  refine ⟨?_, h2, h3, h4, ⟨k, h6, by omega, h7⟩, h8, h9, h10⟩
  rcases h1 with h | h | h <;> rw [h] <;> simp

/-- C36. Every supplied parameter set is consistent. -/
theorem C36_consistent : ∀ p : Int, 1 ≤ p → p ≤ 23 → ∃ I, instanceGet p = .ok I ∧ Consistent I := by
  intro p h1 h2
  obtain ⟨n, rfl⟩ : ∃ n : Nat, p = n := ⟨p.toNat, by omega⟩
  have h : ∀ n < 24, 1 ≤ n → ∃ I, instances[n]? = some I ∧ Consistent I := by
    intro n hn h1
    have hlen : instances.length = 24 := rfl
    refine ⟨instances[n]'(by omega), List.getElem?_eq_getElem _, consistent_of_check _ ?_⟩
    have key : ∀ I ∈ instances.drop 1, (I.aes = ⟨16, 16, 1, 200⟩ ∨ I.aes = ⟨24, 16, 2, 416⟩ ∨ I.aes = ⟨32, 16, 2, 500⟩) ∧ I.seedSize = I.aes.keySize ∧
        I.digestSize = 2 * I.seedSize ∧ I.m1 * I.m2 = I.aes.numSboxes ∧ (∃ k < 16, 1 ≤ k ∧ I.numParties = 2 ^ k) ∧ (1 ≤ I.numRounds ∧ I.numRounds < 2 ^ 16) ∧
        (I.lambda = 2 ∨ I.lambda = 4 ∨ I.lambda = 5 ∨ I.lambda = 6) ∧ 2 * I.m2 + 1 ≤ 21845 := by decide
    apply key
    rw [List.mem_iff_getElem]
    exact ⟨n - 1, by simp [hlen]; omega, by simp [show n - 1 + 1 = n by omega]⟩
  obtain ⟨I, hI, hc⟩ := h n (by omega) (by omega)
  refine ⟨I, ?_, hc⟩
  rw [instanceGet, if_neg (by omega)]
  simp only [Int.toNat_natCast, hI]

/-- C36. Other parameter values throw. -/
theorem C36_invalid (p : Int) (h : p < 1 ∨ 23 < p) : instanceGet p = .error .thrown := by
  rw [instanceGet, if_pos (by omega)]

example : Consistent (instances.getD 9 instances[0]) := consistent_of_check _ (by decide)

/-! ### C37 -/

/-- C37, full statement: every instance is labelled with its own parameter. -/
def C37_statement : Prop := ∀ p : Int, 1 ≤ p → p ≤ 23 → ∀ I, instanceGet p = .ok I → (I.params : Int) = p

/-- C37 does not hold: `Banquet_L1_Param7` is labelled 8. -/
theorem C37_violated : ¬ C37_statement := by
  intro h
  have := h 7 (by norm_num) (by norm_num) _ (rfl : instanceGet 7 = .ok ⟨aes128Params, 32, 16, 28, 128, 10, 20, 4, 8⟩)
  exact absurd this (by decide)

/-- C37 for all parameters except 7 and 8. Missing: 7 and 8, which carry each other's label (`C37_violated`, `C37_swapped`). -/
theorem C37_partial : ∀ p : Int, 1 ≤ p → p ≤ 23 → p ≠ 7 → p ≠ 8 → ∀ I, instanceGet p = .ok I → (I.params : Int) = p := by
  intro p h1 h2 h7 h8 I hI
  obtain ⟨n, rfl⟩ : ∃ n : Nat, p = n := ⟨p.toNat, by omega⟩
  have key : ∀ n < 24, 1 ≤ n → n ≠ 7 → n ≠ 8 → (instances[n]?.map Instance.params) = some n := by decide
  have := key n (by omega) (by omega) (by omega) (by omega)
  rw [instanceGet, if_neg (by omega)] at hI
  simp only [Int.toNat_natCast] at hI
  cases hn : instances[n]? with
  | none => rw [hn] at this; simp at this
  | some J =>
    rw [hn] at hI this
    obtain rfl := Except.ok.inj hI
    simp at this
    exact_mod_cast this

/-- C37. The labels of 7 and 8 are exchanged. -/
theorem C37_swapped : (∃ I, instanceGet 7 = .ok I ∧ I.params = 8) ∧ (∃ I, instanceGet 8 = .ok I ∧ I.params = 7) := ⟨⟨_, rfl, rfl⟩, ⟨_, rfl, rfl⟩⟩

example : ∃ I, instanceGet 9 = .ok I ∧ I.params = 9 := ⟨_, rfl, rfl⟩

/-! ### C40 -/

/-- The container is full: the invariant established by the constructor. -/
def Full {α : Type} (c : RepContainer α) : Prop := c.data.length = c.numRepetitions * c.numParties * c.objectSize

/-- C40. The constructor establishes the invariant. -/
theorem C40_new {α : Type} (z : α) (a b c : Nat) : Full (RepContainer.mk' z a b c) := by simp [Full, RepContainer.mk']

theorem offset_eq {α : Type} (c : RepContainer α) (r p : Nat) : c.offset r p = (r * c.numParties + p) * c.objectSize := by
  unfold RepContainer.offset; ring

theorem offset_le {α : Type} {c : RepContainer α} (h : Full c) {r p : Nat} (hr : r < c.numRepetitions) (hp : p < c.numParties) :
    c.offset r p + c.objectSize ≤ c.data.length := by
  rw [offset_eq, h]
  calc (r * c.numParties + p) * c.objectSize + c.objectSize = (r * c.numParties + (p + 1)) * c.objectSize := by ring
    _ ≤ (r * c.numParties + c.numParties) * c.objectSize := Nat.mul_le_mul_right _ (by omega)
    _ = ((r + 1) * c.numParties) * c.objectSize := by ring
    _ ≤ _ := Nat.mul_le_mul_right _ (Nat.mul_le_mul_right _ hr)

theorem slices_disjoint {α : Type} (c : RepContainer α) {r p r' p' : Nat} (hp : p < c.numParties) (hp' : p' < c.numParties) (hne : (r, p) ≠ (r', p')) :
    c.offset r p + c.objectSize ≤ c.offset r' p' ∨ c.offset r' p' + c.objectSize ≤ c.offset r p := by
  rw [offset_eq, offset_eq]
  have h : r * c.numParties + p ≠ r' * c.numParties + p' := by
    intro he
    apply hne
    have h1 : (r * c.numParties + p) / c.numParties = (r' * c.numParties + p') / c.numParties := by rw [he]
    rw [Nat.mul_comm r, Nat.mul_comm r', Nat.mul_add_div (by omega), Nat.mul_add_div (by omega), Nat.div_eq_of_lt hp, Nat.div_eq_of_lt hp'] at h1
    have h2 : r = r' := by omega
    subst h2
    have : p = p' := by omega
    rw [this]
  rcases Nat.lt_or_gt_of_ne h with h | h
  · left
    calc (r * c.numParties + p) * c.objectSize + c.objectSize = (r * c.numParties + p + 1) * c.objectSize := by ring
      _ ≤ _ := Nat.mul_le_mul_right _ h
  · right
    calc (r' * c.numParties + p') * c.objectSize + c.objectSize = (r' * c.numParties + p' + 1) * c.objectSize := by ring
      _ ≤ _ := Nat.mul_le_mul_right _ h

/-- C40. A slice has `object_size` elements, and the spans of `get_repetition` are the spans of `get`. -/
theorem C40_read {α : Type} (c : RepContainer α) (h : Full c) (r p : Nat) (hr : r < c.numRepetitions) (hp : p < c.numParties) :
    (c.read r p).length = c.objectSize ∧ (c.readRepetition r)[p]? = some (c.read r p) ∧ (c.readRepetition r).length = c.numParties := by
  have := offset_le h hr hp
  refine ⟨by simp [RepContainer.read]; omega, ?_, by simp [RepContainer.readRepetition, RepContainer.repetitionOffsets]⟩
  simp [RepContainer.readRepetition, RepContainer.repetitionOffsets, RepContainer.read, RepContainer.offset, hp]

/-- C40. Writing a slice is seen by reading that slice and by no other; the sizes do not change. -/
theorem C40_write {α : Type} (c : RepContainer α) (h : Full c) (r p : Nat) (hr : r < c.numRepetitions) (hp : p < c.numParties) (v : List α) (hv : v.length = c.objectSize) :
    Full (c.write r p v) ∧ (c.write r p v).read r p = v ∧
    ∀ r' p', r' < c.numRepetitions → p' < c.numParties → (r', p') ≠ (r, p) → (c.write r p v).read r' p' = c.read r' p' := by
  have ho := offset_le h hr hp
  have hfull : Full (c.write r p v) := by
    unfold Full at *
    simp only [RepContainer.write, List.length_append, List.length_take, List.length_drop]
    omega
  refine ⟨hfull, ?_, ?_⟩
  · show ((c.data.take (c.offset r p) ++ v ++ c.data.drop (c.offset r p + v.length)).drop (c.offset r p)).take c.objectSize = v
    rw [List.append_assoc, List.drop_left' (by rw [List.length_take]; omega), ← hv, List.take_left' rfl]
  · intro r' p' hr' hp' hne
    have hd := slices_disjoint c hp' hp hne
    have ho' := offset_le h hr' hp'
    show ((c.data.take (c.offset r p) ++ v ++ c.data.drop (c.offset r p + v.length)).drop (c.offset r' p')).take c.objectSize = (c.data.drop (c.offset r' p')).take c.objectSize
    apply List.ext_getElem?
    intro i
    by_cases hi : i < c.objectSize
    · rw [List.getElem?_take_of_lt hi, List.getElem?_take_of_lt hi, List.getElem?_drop, List.getElem?_drop]
      rcases hd with hd | hd
      · rw [List.append_assoc, List.getElem?_append_left (by rw [List.length_take]; omega), List.getElem?_take_of_lt (by omega)]
      · rw [List.getElem?_append_right (by simp; omega), List.getElem?_drop]
        congr 1
        simp; omega
    · rw [List.getElem?_eq_none (by simp; omega), List.getElem?_eq_none (by simp; omega)]

example : let c : RepContainer Nat := RepContainer.mk' 0 2 3 2
    ((c.write 1 1 [7, 8]).read 1 1, (c.write 1 1 [7, 8]).read 1 0, (c.write 1 1 [7, 8]).read 1 2) = ([7, 8], [0, 0], [0, 0]) := by decide

end Banquet.Props
