import Verif.Model.Tree
import Verif.Spec.Tree
import Verif.Proofs.Misc

/-! Which nodes of a seed tree exist. -/

namespace Banquet

open Spec

section shape
variable {n : Nat} (hn : 2 ≤ n) (hN : n ≤ 2 ^ 29)
include hn hN

omit hn in
theorem ceilLog2_depth : ceilLog2 n = depth n := by
  have h : (2:ℕ)^29 < 2^32 := by norm_num
  exact ceilLog2_eq n (lt_of_le_of_lt hN h)

theorem depth_bounds : 1 ≤ depth n ∧ n ≤ 2 ^ depth n ∧ 2 ^ (depth n - 1) < n := by
  have h1 : 0 < Nat.clog 2 n := Nat.clog_pos (by norm_num) hn
  exact ⟨h1, Nat.le_pow_clog (by norm_num) n, Nat.pow_pred_clog_lt_self (by norm_num) (by omega)⟩

theorem two_pow_depth : 2 ^ depth n = 2 * 2 ^ (depth n - 1) := by
  have := (depth_bounds hn hN).1
  rw [← pow_succ']; congr 1; omega

theorem treeTotal_eq : treeTotal n = 2 ^ depth n - 1 + n := by
  unfold treeTotal
  rw [ceilLog2_depth hN]
  have h := depth_bounds hn hN
  have e : 2 ^ (1 + depth n) = 2 * 2 ^ depth n := by rw [add_comm, pow_succ']
  rw [e]
  have : 0 < 2 ^ depth n := by positivity
  omega

theorem total_sub : treeTotal n - n = 2 ^ depth n - 1 := by rw [treeTotal_eq hn hN]; omega

omit hn hN in
theorem length_treeExists (n : Nat) : (treeExists n).length = treeTotal n := by
  unfold treeExists
  simp only [List.length_set]
  generalize hd : treeTotal n - n = m
  generalize hi : ((List.range (treeTotal n)).map fun i => decide (m ≤ i)) = init
  have hl : init.length = treeTotal n := by rw [← hi]; simp
  rw [← hl]
  generalize List.range m = l
  clear hl hi hd
  induction l generalizing init with
  | nil => rfl
  | cons a l ih =>
    rw [List.foldl_cons, ih]
    split <;> simp

/-- One step of the existence loop. -/
def exStep (m : Nat) (ex : List Bool) (d : Nat) : List Bool :=
  if ex.getD (2 * (m - d) + 1) false || ex.getD (2 * (m - d) + 2) false then ex.set (m - d) true else ex

omit hn hN in
theorem getD_set_bool (l : List Bool) (k i : Nat) (v : Bool) : (l.set k v).getD i false = if k = i ∧ i < l.length then v else l.getD i false := by
  rw [List.getD_eq_getElem?_getD, List.getElem?_set, List.getD_eq_getElem?_getD]
  by_cases h : k = i
  · subst h
    by_cases hk : k < l.length
    · simp [hk]
    · simp [hk]
  · simp [h]

omit hn hN in
theorem exStep_loop (m total : Nat) (init : List Bool) (hl : init.length = total) (hm : m < total) (k : Nat) (hk : k ≤ m) :
    let E := (List.range k).foldl (exStep m) init
    E.length = total ∧ (∀ i, i ≤ m - k ∨ m < i → E.getD i false = init.getD i false) ∧
    (∀ i, m - k < i → i ≤ m → E.getD i false = (init.getD i false || E.getD (2 * i + 1) false || E.getD (2 * i + 2) false)) := by
  induction k with
  | zero =>
    refine ⟨hl, fun i _ => rfl, ?_⟩
    intro i h1 h2; omega
  | succ k ih =>
    obtain ⟨h1, h2, h3⟩ := ih (by omega)
    rw [List.range_succ, List.foldl_append]
    simp only [List.foldl_cons, List.foldl_nil]
    generalize (List.range k).foldl (exStep m) init = E at *
    have hget : ∀ i, (exStep m E k).getD i false = if i = m - k then (E.getD i false || E.getD (2 * i + 1) false || E.getD (2 * i + 2) false) else E.getD i false := by
      intro i
      unfold exStep
      by_cases hi : i = m - k
      · subst hi
        rw [if_pos rfl]
        by_cases hc : E.getD (2 * (m - k) + 1) false || E.getD (2 * (m - k) + 2) false
        · rw [if_pos hc, getD_set_bool, if_pos ⟨rfl, by omega⟩]
          rw [Bool.or_assoc, hc, Bool.or_true]
        · rw [if_neg hc]
          rw [Bool.or_assoc, Bool.not_eq_true _ |>.mp hc, Bool.or_false]
      · rw [if_neg hi]
        split
        · rw [getD_set_bool, if_neg (fun hc => hi hc.1.symm)]
        · rfl
    refine ⟨?_, ?_, ?_⟩
    · unfold exStep; split
      · rw [List.length_set, h1]
      · exact h1
    · intro i hi
      rw [hget i, if_neg (by omega), h2 i (by omega)]
    · intro i hi1 hi2
      rw [hget (2 * i + 1), hget (2 * i + 2), if_neg (by omega), if_neg (by omega), hget i]
      split
      · rename_i he
        subst he
        rw [h2 (m - k) (by omega)]
      · exact h3 i (by omega) hi2

/-- The existence table, as closure properties. -/
theorem ex_facts : (∀ i, (treeExists n).getD i false = true → i < treeTotal n) ∧ (treeExists n).getD 0 false = true ∧
    (∀ i, treeTotal n - n ≤ i → i < treeTotal n → (treeExists n).getD i false = true) ∧
    (∀ i, i < treeTotal n - n → 0 < i → (treeExists n).getD i false = ((treeExists n).getD (2 * i + 1) false || (treeExists n).getD (2 * i + 2) false)) := by
  have hlen := length_treeExists n
  have hT := treeTotal_eq hn hN
  have hs := total_sub hn hN
  have hb := depth_bounds hn hN
  have h2 := two_pow_depth hn hN
  have hm0 : 0 < treeTotal n - n := by
    rw [hs, h2]
    have : 0 < 2 ^ (depth n - 1) := by positivity
    omega
  obtain ⟨g1, g2, g3⟩ := exStep_loop (treeTotal n - n) (treeTotal n) ((List.range (treeTotal n)).map fun i => decide (treeTotal n - n ≤ i)) (by simp) (by omega) (treeTotal n - n) le_rfl
  have hE : treeExists n = ((List.range (treeTotal n - n)).foldl (exStep (treeTotal n - n)) ((List.range (treeTotal n)).map fun i => decide (treeTotal n - n ≤ i))).set 0 true := rfl
  have hinit : ∀ i, ((List.range (treeTotal n)).map fun i => decide (treeTotal n - n ≤ i)).getD i false = decide (treeTotal n - n ≤ i ∧ i < treeTotal n) := by
    intro i
    rw [List.getD_eq_getElem?_getD, List.getElem?_map]
    by_cases hi : i < treeTotal n
    · rw [List.getElem?_range hi]; simp [hi]
    · rw [List.getElem?_eq_none (by simp; omega)]; simp [hi]
  generalize (List.range (treeTotal n - n)).foldl (exStep (treeTotal n - n)) ((List.range (treeTotal n)).map fun i => decide (treeTotal n - n ≤ i)) = E at *
  have hget : ∀ i, 0 < i → (treeExists n).getD i false = E.getD i false := by
    intro i hi
    rw [hE, getD_set_bool, if_neg (by omega)]
  refine ⟨?_, ?_, ?_, ?_⟩
  · intro i hi
    by_contra hc
    rw [List.getD_eq_getElem?_getD, List.getElem?_eq_none (by omega)] at hi
    simp at hi
  · rw [hE, getD_set_bool, if_pos ⟨rfl, by omega⟩]
  · intro i h1 h2
    rw [hget i (by omega)]
    rcases Nat.eq_or_lt_of_le h1 with h | h
    · rw [g3 i (by omega) (by omega), hinit]
      simp [h1, h2]
    · rw [g2 i (Or.inr h), hinit]; simp [h1, h2]
  · intro i h1 h2
    rw [hget i h2, hget _ (by omega), hget _ (by omega), g3 i (by omega) (by omega), hinit]
    simp [Nat.not_le.2 h1]

/-- A node of height `k` exists when its leftmost leaf does. -/
theorem ex_iff (k : Nat) (hk : k ≤ depth n) (i : Nat) (h1 : 2 ^ (depth n - k) ≤ i + 1) (h2 : i + 1 < 2 ^ (depth n - k + 1)) :
    (treeExists n).getD i false = true ↔ Present n k i := by
  obtain ⟨f1, f2, f3, f4⟩ := ex_facts hn hN
  have hT := treeTotal_eq hn hN
  have hs := total_sub hn hN
  unfold Present
  rw [← hT]
  induction k generalizing i with
  | zero =>
    rw [Nat.sub_zero] at h1
    simp only [pow_zero, mul_one]
    constructor
    · intro h; exact f1 i h
    · intro h; exact f3 i (by rw [hs]; omega) (by omega)
  | succ k ih =>
    have e : depth n - k = depth n - (k + 1) + 1 := by omega
    by_cases h0 : i = 0
    · subst h0
      refine ⟨fun _ => ?_, fun _ => f2⟩
      have : depth n - (k + 1) = 0 := by
        by_contra hc
        have : 2 ≤ 2 ^ (depth n - (k + 1)) := by
          calc 2 = 2 ^ 1 := rfl
            _ ≤ _ := Nat.pow_le_pow_right (by norm_num) (by omega)
        omega
      have hd : k + 1 = depth n := by omega
      rw [hd, hT]
      have : 0 < 2 ^ depth n := by positivity
      omega
    · have hpow : 2 ^ (depth n - k) = 2 * 2 ^ (depth n - (k + 1)) := by rw [e, pow_succ']
      have hpow2 : 2 ^ (depth n - k + 1) = 2 * 2 ^ (depth n - (k + 1) + 1) := by rw [e, pow_succ']
      have hlt : i < treeTotal n - n := by
        rw [hs]
        have : 2 ^ (depth n - (k + 1) + 1) ≤ 2 ^ depth n := Nat.pow_le_pow_right (by norm_num) (by omega)
        omega
      rw [f4 i hlt (by omega), Bool.or_eq_true]
      have i1 : _ ↔ _ := ih (by omega) (2 * i + 1) (by omega) (by omega)
      have i2 : _ ↔ _ := ih (by omega) (2 * i + 2) (by omega) (by omega)
      rw [i1, i2]
      have hp : 0 < 2 ^ k := by positivity
      have e1 : (i + 1) * 2 ^ (k + 1) = (2 * i + 1 + 1) * 2 ^ k := by rw [pow_succ]; ring
      have e2 : (2 * i + 2 + 1) * 2 ^ k = (2 * i + 1 + 1) * 2 ^ k + 2 ^ k := by ring
      rw [e1, e2]
      constructor
      · rintro (h | h) <;> omega
      · intro h; exact Or.inl h

/-- Every node has a level. -/
theorem exists_height (i : Nat) (hi : i < treeTotal n) : ∃ k ≤ depth n, 2 ^ (depth n - k) ≤ i + 1 ∧ i + 1 < 2 ^ (depth n - k + 1) := by
  have hb := depth_bounds hn hN
  have hT := treeTotal_eq hn hN
  have hl : Nat.log 2 (i + 1) ≤ depth n := by
    have : i + 1 < 2 ^ (depth n + 1) := by rw [pow_succ]; omega
    exact Nat.lt_succ_iff.1 (Nat.log_lt_of_lt_pow (by omega) this)
  refine ⟨depth n - Nat.log 2 (i + 1), by omega, ?_, ?_⟩
  · rw [show depth n - (depth n - Nat.log 2 (i + 1)) = Nat.log 2 (i + 1) by omega]
    exact Nat.pow_log_le_self 2 (by omega)
  · rw [show depth n - (depth n - Nat.log 2 (i + 1)) = Nat.log 2 (i + 1) by omega]
    exact Nat.lt_pow_succ_log_self (by norm_num) _

omit hn hN in
theorem getParent_eq (i : Nat) (hi : 0 < i) : getParent i = (i - 1) / 2 := by unfold getParent; omega

/-- Parents of existing nodes exist and are inner nodes. -/
theorem ex_parent (i : Nat) (hi : 0 < i) (h : (treeExists n).getD i false = true) :
    (treeExists n).getD ((i - 1) / 2) false = true ∧ (i - 1) / 2 < treeTotal n - n := by
  obtain ⟨f1, f2, f3, f4⟩ := ex_facts hn hN
  have hT := treeTotal_eq hn hN
  have hs := total_sub hn hN
  have hb := depth_bounds hn hN
  have := f1 i h
  have hlt : (i - 1) / 2 < treeTotal n - n := by omega
  refine ⟨?_, hlt⟩
  by_cases h0 : (i - 1) / 2 = 0
  · rw [h0]; exact f2
  · rw [f4 _ hlt (by omega), Bool.or_eq_true]
    rcases Nat.even_or_odd' i with ⟨c, hc | hc⟩
    · right; rwa [show 2 * ((i - 1) / 2) + 2 = i by omega]
    · left; rwa [show 2 * ((i - 1) / 2) + 1 = i by omega]

/-- A right child does not exist without the left one. -/
theorem ex_left (i : Nat) (h : (treeExists n).getD (2 * i + 2) false = true) : (treeExists n).getD (2 * i + 1) false = true := by
  obtain ⟨f1, _⟩ := ex_facts hn hN
  obtain ⟨k, hk, h1, h2⟩ := exists_height hn hN (2 * i + 2) (f1 _ h)
  have hp := (ex_iff hn hN k hk _ h1 h2).1 h
  have hd : depth n - k ≠ 0 := by
    intro hc
    rw [hc] at h2
    omega
  obtain ⟨e, he⟩ : ∃ e, depth n - k = e + 1 := ⟨depth n - k - 1, by omega⟩
  have hpow : 2 ^ (depth n - k) = 2 * 2 ^ e := by rw [he, pow_succ']
  refine (ex_iff hn hN k hk (2 * i + 1) (by omega) (by omega)).2 ?_
  unfold Present at *
  calc (2 * i + 1 + 1) * 2 ^ k ≤ (2 * i + 2 + 1) * 2 ^ k := Nat.mul_le_mul_right _ (by omega)
    _ ≤ _ := hp

/-- An existing inner node has a left child. -/
theorem ex_child (i : Nat) (hi : i < treeTotal n - n) (h : (treeExists n).getD i false = true) : (treeExists n).getD (2 * i + 1) false = true := by
  obtain ⟨f1, f2, f3, f4⟩ := ex_facts hn hN
  by_cases h0 : i = 0
  · subst h0
    have hT := treeTotal_eq hn hN
    have hb := depth_bounds hn hN
    refine (ex_iff hn hN (depth n - 1) (by omega) 1 ?_ ?_).2 ?_
    · rw [show depth n - (depth n - 1) = 1 by omega]; norm_num
    · rw [show depth n - (depth n - 1) = 1 by omega]; norm_num
    · unfold Present
      have h2 := two_pow_depth hn hN
      omega
  · rw [f4 i hi (by omega), Bool.or_eq_true] at h
    rcases h with h | h
    · exact h
    · exact ex_left hn hN i h

end shape

/-- With a power of two of leaves every node exists. -/
theorem ex_all_pow {e : Nat} (he : 1 ≤ e) (he2 : e ≤ 29) (i : Nat) (hi : i < treeTotal (2 ^ e)) : (treeExists (2 ^ e)).getD i false = true := by
  have hn : 2 ≤ 2 ^ e := by
    calc 2 = 2 ^ 1 := rfl
      _ ≤ _ := Nat.pow_le_pow_right (by norm_num) he
  have hN : 2 ^ e ≤ 2 ^ 29 := Nat.pow_le_pow_right (by norm_num) he2
  have hd : depth (2 ^ e) = e := Nat.clog_pow 2 e (by norm_num)
  obtain ⟨k, hk, h1, h2⟩ := exists_height hn hN i hi
  refine (ex_iff hn hN k hk i h1 h2).2 ?_
  unfold Present
  rw [hd] at *
  have hp : 2 ^ (e - k + 1) * 2 ^ k = 2 * 2 ^ e := by rw [← pow_add, ← pow_succ']; congr 1; omega
  have h3 : (i + 1 + 1) * 2 ^ k ≤ 2 ^ (e - k + 1) * 2 ^ k := Nat.mul_le_mul_right _ h2
  have h4 : (i + 1 + 1) * 2 ^ k = (i + 1) * 2 ^ k + 2 ^ k := by ring
  have : 0 < 2 ^ k := by positivity
  omega

end Banquet
