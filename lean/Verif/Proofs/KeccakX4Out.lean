import Verif.Proofs.KeccakX4Rest

/-! Writing the lanes of all four states. -/

namespace Banquet.X4

open Spec
open Opt64 (parity okThen)

theorem bindUb {α β : Type} (P : α → Prop) {m : M α} {f : α → M β} (hm : (∃ a, m = .ok a ∧ P a) ∨ m = .error .ub) (hf : ∀ a, P a → f a = .error .ub) : (m >>= f) = .error .ub := by
  rcases hm with ⟨a, rfl, h⟩ | rfl
  · exact hf a h
  · rfl

theorem write_ok {d : List W64} {i : Nat} (w : W64) (h : i < d.length) : writeWord d i w = .ok (d.set i w) := by rw [writeWord, if_pos h]

theorem write_ub {d : List W64} {i : Nat} (w : W64) (h : ¬ i < d.length) : writeWord d i w = .error .ub := by rw [writeWord, if_neg h]

theorem write_cases (d : List W64) (i : Nat) (w : W64) : (∃ a, writeWord d i w = .ok a ∧ a.length = d.length) ∨ writeWord d i w = .error .ub := by
  by_cases h : i < d.length
  · exact .inl ⟨_, write_ok w h, List.length_set⟩
  · exact .inr (write_ub w h)

theorem store_ok {d : List W64} {i : Nat} (v : V256) (h : i + 3 < d.length) : store256 d i v = .ok ((((d.set i (v 0)).set (i + 1) (v 1)).set (i + 2) (v 2)).set (i + 3) (v 3)) := by
  unfold store256
  rw [write_ok _ (by omega), okThen, write_ok _ (by rw [List.length_set]; omega), okThen, write_ok _ (by simp only [List.length_set]; omega), okThen, write_ok _ (by simp only [List.length_set]; omega)]

theorem store_ub {d : List W64} {i : Nat} (v : V256) (h : ¬ i + 3 < d.length) : store256 d i v = .error .ub := by
  unfold store256
  refine bindUb (fun a => a.length = d.length) (write_cases _ _ _) fun a ha => bindUb (fun b => b.length = d.length) (by rw [← ha]; exact write_cases _ _ _) fun b hb => ?_
  refine bindUb (fun a => a.length = d.length) (by rw [← hb]; exact write_cases _ _ _) fun a ha => write_ub _ (by omega)

theorem store_cases (d : List W64) (i : Nat) (v : V256) : (∃ a, store256 d i v = .ok a ∧ a.length = d.length) ∨ store256 d i v = .error .ub := by
  by_cases h : i + 3 < d.length
  · exact .inl ⟨_, store_ok v h, by simp only [List.length_set]⟩
  · exact .inr (store_ub v h)

/-- Write `w k p` to word `p` of buffer `k`, for the listed pairs. -/
def sets (off : Nat) (w : Nat → Nat → W64) (L : List (Nat × Nat)) (out : List W64) : List W64 := L.foldl (fun o x => o.set (x.1 * off + x.2) (w x.1 x.2)) out

theorem sets_length (off : Nat) (w : Nat → Nat → W64) (L : List (Nat × Nat)) (out : List W64) : (sets off w L out).length = out.length := by
  induction L generalizing out with
  | nil => rfl
  | cons x L ih =>
    rw [sets, List.foldl_cons]
    exact (ih _).trans List.length_set

theorem sets_append (off : Nat) (w : Nat → Nat → W64) (L L' : List (Nat × Nat)) (out : List W64) : sets off w (L ++ L') out = sets off w L' (sets off w L out) := List.foldl_append

/-- The order does not matter if no word is written twice. -/
theorem sets_perm (off : Nat) (w : Nat → Nat → W64) {L L' : List (Nat × Nat)} (h : L.Perm L') (hd : ∀ x ∈ L, ∀ y ∈ L, x.1 * off + x.2 = y.1 * off + y.2 → x = y) (out : List W64) :
    sets off w L out = sets off w L' out := by
  refine h.foldl_eq' (fun x hx y hy z => ?_) out
  by_cases e : x = y
  · rw [e]
  · exact List.set_comm _ _ (fun h => e (hd x hx y hy h))

theorem sets_other (off : Nat) (w : Nat → Nat → W64) (L : List (Nat × Nat)) (out : List W64) (p : Nat) (h : ∀ x ∈ L, x.1 * off + x.2 ≠ p) : (sets off w L out)[p]? = out[p]? := by
  induction L generalizing out with
  | nil => rfl
  | cons x L ih =>
    rw [sets, List.foldl_cons]
    refine (ih _ fun y hy => h y (List.mem_cons_of_mem _ hy)).trans ?_
    exact List.getElem?_set_ne (h x List.mem_cons_self)

theorem sets_mem (off : Nat) (w : Nat → Nat → W64) (L : List (Nat × Nat)) (out : List W64) (x : Nat × Nat) (hx : x ∈ L)
    (hd : ∀ x ∈ L, ∀ y ∈ L, x.1 * off + x.2 = y.1 * off + y.2 → x = y) (hl : x.1 * off + x.2 < out.length) : (sets off w L out)[x.1 * off + x.2]? = some (w x.1 x.2) := by
  induction L generalizing out with
  | nil => exact absurd hx (by simp)
  | cons y L ih =>
    rw [sets, List.foldl_cons]
    by_cases hm : x ∈ L
    · exact ih _ hm (fun a ha b hb => hd a (List.mem_cons_of_mem _ ha) b (List.mem_cons_of_mem _ hb)) (by rw [List.length_set]; exact hl)
    · have e : x = y := by
        rcases List.mem_cons.1 hx with h | h
        · exact h
        · exact absurd h hm
      subst e
      refine (sets_other off w L _ _ fun z hz he => hm ?_).trans ?_
      · rw [← hd z (List.mem_cons_of_mem _ hz) x List.mem_cons_self he]
        exact hz
      · rw [List.getElem?_set_self hl]

/-- The order of `Extr`: one word of each buffer. -/
def colOrder (i : Nat) : List (Nat × Nat) := [(0, i), (1, i), (2, i), (3, i)]

/-- The order of `Extr4`: four words of each buffer. -/
def rowOrder (i : Nat) : List (Nat × Nat) :=
  [(0, i), (0, i + 1), (0, i + 2), (0, i + 3), (1, i), (1, i + 1), (1, i + 2), (1, i + 3), (2, i), (2, i + 1), (2, i + 2), (2, i + 3), (3, i), (3, i + 1), (3, i + 2), (3, i + 3)]

theorem order_perm (i : Nat) : (rowOrder i).Perm (colOrder i ++ colOrder (i + 1) ++ colOrder (i + 2) ++ colOrder (i + 3)) := by
  have e : ∀ L L' : List (Nat × Nat), L.Perm L' → (L.map fun x => (x.1, i + x.2)).Perm (L'.map fun x => (x.1, i + x.2)) := fun _ _ h => h.map _
  exact e (rowOrder 0) (colOrder 0 ++ colOrder 1 ++ colOrder 2 ++ colOrder 3) (by decide)

theorem rowOrder_mem {i : Nat} {x : Nat × Nat} (h : x ∈ rowOrder i) : x.1 < 4 ∧ i ≤ x.2 ∧ x.2 < i + 4 := by
  simp only [rowOrder, List.mem_cons, List.not_mem_nil, or_false] at h
  rcases h with h | h | h | h | h | h | h | h | h | h | h | h | h | h | h | h <;> subst h <;> simp

theorem distinct_of (off lo n : Nat) (hn : n ≤ off) {x y : Nat × Nat} (hx : lo ≤ x.2 ∧ x.2 < lo + n) (hy : lo ≤ y.2 ∧ y.2 < lo + n) (h : x.1 * off + x.2 = y.1 * off + y.2) : x = y := by
  have h1 : x.1 = y.1 := by
    rcases Nat.lt_trichotomy x.1 y.1 with c | c | c
    · have : (x.1 + 1) * off ≤ y.1 * off := Nat.mul_le_mul_right _ c
      rw [Nat.add_mul] at this
      omega
    · exact c
    · have : (y.1 + 1) * off ≤ x.1 * off := Nat.mul_le_mul_right _ c
      rw [Nat.add_mul] at this
      omega
  refine Prod.ext h1 ?_
  rw [h1] at h
  omega

theorem rows_sets (off : Nat) (w : Nat → Nat → W64) (i : Nat) (ho4 : 4 ≤ off) (out : List W64) :
    sets off w (rowOrder i) out = sets off w (colOrder (i + 3)) (sets off w (colOrder (i + 2)) (sets off w (colOrder (i + 1)) (sets off w (colOrder i) out))) := by
  rw [sets_perm off w (order_perm i) (fun x hx y hy h => distinct_of off i 4 ho4 (rowOrder_mem hx).2 (rowOrder_mem hy).2 h), sets_append, sets_append, sets_append]

theorem fold_sets (off : Nat) (w : Nat → Nat → W64) (n : Nat) (out : List W64) : (List.range n).foldl (fun o i => sets off w (colOrder i) o) out = sets off w ((List.range n).flatMap colOrder) out := by
  induction n with
  | zero => rfl
  | succ n ih => rw [List.range_succ, List.foldl_append, ih, List.flatMap_append, sets_append]; simp

theorem all_mem {n : Nat} {x : Nat × Nat} : x ∈ (List.range n).flatMap colOrder ↔ x.1 < 4 ∧ x.2 < n := by
  obtain ⟨a, b⟩ := x
  simp only [List.mem_flatMap, List.mem_range, colOrder, List.mem_cons, List.not_mem_nil, or_false, Prod.mk.injEq]
  constructor
  · rintro ⟨i, hi, h | h | h | h⟩ <;> omega
  · rintro ⟨h1, h2⟩
    exact ⟨b, h2, by omega⟩

theorem storeFour_eq (off : Nat) (w : Nat → Nat → W64) (out : List W64) (i : Nat) (v : Vector V256 4) (hv : ∀ (k l : Fin 4), v[k] l = w k.val (i + l.val)) :
    (do
      let out ← store256 out (0 * off + i) v[0]
      let out ← store256 out (1 * off + i) v[1]
      let out ← store256 out (2 * off + i) v[2]
      store256 out (3 * off + i) v[3] : M (List W64)) = if 3 * off + i + 3 < out.length then .ok (sets off w (rowOrder i) out) else .error .ub := by
  by_cases h : 3 * off + i + 3 < out.length
  · rw [if_pos h, store_ok _ (by omega), okThen, store_ok _ (by simp only [List.length_set]; omega), okThen, store_ok _ (by simp only [List.length_set]; omega), okThen,
      store_ok _ (by simp only [List.length_set]; omega)]
    refine congrArg Except.ok ?_
    have e0 : ∀ l : Fin 4, v[0] l = w 0 (i + l.val) := hv 0
    have e1 : ∀ l : Fin 4, v[1] l = w 1 (i + l.val) := hv 1
    have e2 : ∀ l : Fin 4, v[2] l = w 2 (i + l.val) := hv 2
    have e3 : ∀ l : Fin 4, v[3] l = w 3 (i + l.val) := hv 3
    simp only [e0, e1, e2, e3, sets, rowOrder, List.foldl_cons, List.foldl_nil, Fin.isValue, Fin.val_zero, Fin.val_one, Fin.val_two, show (3 : Fin 4).val = 3 from rfl, Nat.add_zero, Nat.add_assoc]
  · rw [if_neg h]
    refine bindUb (fun a => a.length = out.length) (store_cases _ _ _) fun a ha => bindUb (fun b => b.length = out.length) (by rw [← ha]; exact store_cases _ _ _) fun b hb => ?_
    refine bindUb (fun a => a.length = out.length) (by rw [← hb]; exact store_cases _ _ _) fun a ha => store_ub _ (by omega)

theorem storeRows_eq (off : Nat) (ho : off * 24 < 2 ^ 32) (w : Nat → Nat → W64) (out : List W64) (i : Nat) (v : Vector V256 4) (hv : ∀ (k l : Fin 4), v[k] l = w k.val (i + l.val)) :
    storeRows out off i v = if 3 * off + i + 3 < out.length then .ok (sets off w (rowOrder i) out) else .error .ub := by
  unfold storeRows
  rw [ptr_eq off 3 ho (by omega), ptr_eq off 2 ho (by omega), ptr_eq off 1 ho (by omega), ptr_eq off 0 ho (by omega)]
  exact storeFour_eq off w out i v hv

/-- The lanes, zero behind the state. -/
def laneAt (s : Regs) (k p : Nat) : W64 := if h : p < 25 then s[p] (Fin.ofNat 4 k) else 0

theorem getWord_at (s : Regs) (i k : Nat) (hk : k < 4) : getWord s (4 * i + k) = if i < 25 then .ok (laneAt s k i) else .error .ub := by
  have h1 : (4 * i + k) / 4 = i := by omega
  have h2 : (4 * i + k) % 4 = k := by omega
  by_cases h : i < 25
  · rw [getWord_eq s (l := Fin.ofNat 4 k) h1 (h2.trans (Nat.mod_eq_of_lt hk).symm) h, if_pos h, laneAt, dif_pos h]
  · rw [getWord, dif_neg (by rw [h1]; exact h), if_neg h]

theorem loadRegs_eq (s : Regs) (i : Nat) : loadRegs s i = if i + 3 < 25 then .ok (Vector.ofFn fun k => fun l => laneAt s l.val (i + k.val)) else .error .ub := by
  have e : ∀ p, getReg s p = if p < 25 then .ok (fun l : Fin 4 => laneAt s l.val p) else .error .ub := fun p => by
    unfold getReg
    by_cases h : p < 25
    · rw [dif_pos h, if_pos h]
      refine congrArg Except.ok (funext fun l => ?_)
      rw [laneAt, dif_pos h, show Fin.ofNat 4 l.val = l from Fin.ext (Nat.mod_eq_of_lt l.isLt)]
    · rw [dif_neg h, if_neg h]
  unfold loadRegs
  rw [e, e, e, e]
  by_cases h : i + 3 < 25
  · rw [if_pos (by omega), okThen, if_pos (by omega), okThen, if_pos (by omega), okThen, if_pos h, okThen, if_pos h]
    refine congrArg Except.ok (Vector.ext fun k hk => ?_)
    interval_cases k <;> rfl
  · rw [if_neg h, if_neg h]
    by_cases h0 : i < 25 <;> by_cases h1 : i + 1 < 25 <;> by_cases h2 : i + 2 < 25 <;> simp only [h0, h1, h2, if_true, if_false] <;> rfl

theorem regs_get (s : Regs) (i : Nat) (k l : Fin 4) : (unintleave (Vector.ofFn fun k : Fin 4 => fun l : Fin 4 => laneAt s l.val (i + k.val)))[k] l = laneAt s k.val (i + l.val) := by
  rw [unintleave_get]
  simp only [Fin.getElem_fin, Vector.getElem_ofFn]

variable (off : Nat) (ho : off * 24 < 2 ^ 32)

include ho in
theorem extr_eq (s : Regs) (N : Nat) (out : List W64) (hN : out.length = N) (i : Nat) :
    extr s off out i = if i < min 25 (N - 3 * off) then .ok (sets off (laneAt s) (colOrder i) out) else .error .ub := by
  subst hN
  unfold extr
  have g0 := getWord_at s i 0 (by omega)
  rw [Nat.add_zero] at g0
  rw [ptr_eq off 3 ho (by omega), ptr_eq off 2 ho (by omega), ptr_eq off 1 ho (by omega), ptr_eq off 0 ho (by omega), g0, getWord_at s i 1 (by omega), getWord_at s i 2 (by omega), getWord_at s i 3 (by omega)]
  by_cases h : i < 25
  · rw [if_pos h, if_pos h, if_pos h, if_pos h]
    simp only [okThen]
    by_cases h3 : 3 * off + i < out.length
    · rw [if_pos (by omega), write_ok _ (by omega), okThen, write_ok _ (by simp only [List.length_set]; omega), okThen, write_ok _ (by simp only [List.length_set]; omega), okThen,
        write_ok _ (by simp only [List.length_set]; omega)]
      rfl
    · rw [if_neg (by omega)]
      refine bindUb (fun a => a.length = out.length) (write_cases _ _ _) fun a ha => bindUb (fun b => b.length = out.length) (by rw [← ha]; exact write_cases _ _ _) fun b hb => ?_
      refine bindUb (fun a => a.length = out.length) (by rw [← hb]; exact write_cases _ _ _) fun a ha => write_ub _ (by omega)
  · rw [if_neg (show ¬ i < min 25 (out.length - 3 * off) by omega), if_neg h]
    rfl

include ho in
theorem extr4_eq (ho4 : 4 ≤ off) (s : Regs) (N : Nat) (out : List W64) (hN : out.length = N) (i : Nat) : extr4 s off out i = if i + 3 < min 25 (N - 3 * off) then
    .ok (sets off (laneAt s) (colOrder (i + 3)) (sets off (laneAt s) (colOrder (i + 2)) (sets off (laneAt s) (colOrder (i + 1)) (sets off (laneAt s) (colOrder i) out)))) else .error .ub := by
  subst hN
  unfold extr4
  rw [loadRegs_eq, ← rows_sets off _ i ho4]
  by_cases h : i + 3 < 25
  · rw [if_pos h, okThen, storeRows_eq off ho (laneAt s) out i _ (regs_get s i)]
    by_cases h' : 3 * off + i + 3 < out.length
    · rw [if_pos h', if_pos (by omega)]
    · rw [if_neg h', if_neg (by omega)]
  · rw [if_neg h, if_neg (by omega)]
    rfl

include ho in
theorem extractLanesAll_eq (s : Regs) (out : List W64) (n : Nat) (hn : n ≤ off) : extractLanesAll s out n off =
    if n ≤ min 25 (out.length - 3 * off) then .ok (sets off (laneAt s) ((List.range n).flatMap colOrder) out) else .error .ub := by
  rw [← fold_sets]
  exact lanesAll_eq (fun o => o.length = out.length) _ _ (fun o i => sets off (laneAt s) (colOrder i) o) _ (fun o i h => (sets_length _ _ _ _).trans h)
    (fun o i h => extr_eq off ho s out.length o h i) n (fun h16 o i h => extr4_eq off ho (by omega) s out.length o h i) out rfl

/-- Input XOR lanes. -/
def sumAt (s : Regs) (input : List W64) (k p : Nat) : W64 := input.getD (k * off + p) 0 ^^^ laneAt s k p

include ho in
theorem extrXor_eq (s : Regs) (input : List W64) (N : Nat) (out : List W64) (hN : out.length = N) (i : Nat) : extrXor s input off out i =
    if i < min (min 25 (input.length - 3 * off)) (N - 3 * off) then .ok (sets off (sumAt off s input) (colOrder i) out) else .error .ub := by
  subst hN
  unfold extrXor
  have g0 := getWord_at s i 0 (by omega)
  rw [Nat.add_zero] at g0
  rw [ptr_eq off 3 ho (by omega), ptr_eq off 2 ho (by omega), ptr_eq off 1 ho (by omega), ptr_eq off 0 ho (by omega), g0, getWord_at s i 1 (by omega), getWord_at s i 2 (by omega), getWord_at s i 3 (by omega)]
  by_cases h : i < 25
  · rw [if_pos h, if_pos h, if_pos h, if_pos h]
    simp only [okThen]
    by_cases hi : 3 * off + i < input.length
    · rw [read_ok (show 0 * off + i < input.length by omega), read_ok (show 1 * off + i < input.length by omega), read_ok (show 2 * off + i < input.length by omega), read_ok hi]
      simp only [okThen]
      by_cases h3 : 3 * off + i < out.length
      · rw [if_pos (by omega), write_ok _ (by omega), okThen, write_ok _ (by simp only [List.length_set]; omega), okThen, write_ok _ (by simp only [List.length_set]; omega), okThen,
          write_ok _ (by simp only [List.length_set]; omega)]
        rfl
      · rw [if_neg (by omega)]
        refine bindUb (fun a => a.length = out.length) (write_cases _ _ _) fun a ha => bindUb (fun b => b.length = out.length) (by rw [← ha]; exact write_cases _ _ _) fun b hb => ?_
        refine bindUb (fun a => a.length = out.length) (by rw [← hb]; exact write_cases _ _ _) fun a ha => write_ub _ (by omega)
    · rw [if_neg (by omega), read_ub hi]
      have rc : ∀ p, (∃ a, readWord input p = .ok a ∧ True) ∨ readWord input p = .error .ub := fun p => by
        rw [readWord_eq]
        split
        · exact .inl ⟨_, rfl, trivial⟩
        · exact .inr rfl
      have wc : ∀ (d : List W64) p w, (∃ a, writeWord d p w = .ok a ∧ True) ∨ writeWord d p w = .error .ub := fun d p w => by
        rcases write_cases d p w with ⟨a, h, _⟩ | h
        · exact .inl ⟨a, h, trivial⟩
        · exact .inr h
      exact bindUb _ (rc _) fun _ _ => bindUb _ (wc _ _ _) fun _ _ => bindUb _ (rc _) fun _ _ => bindUb _ (wc _ _ _) fun _ _ => bindUb _ (rc _) fun _ _ => bindUb _ (wc _ _ _) fun _ _ => rfl
  · rw [if_neg (show ¬ i < min (min 25 (input.length - 3 * off)) (out.length - 3 * off) by omega), if_neg h, readWord_eq]
    split <;> rfl

include ho in
theorem extrXor4_eq (ho4 : 4 ≤ off) (s : Regs) (input : List W64) (N : Nat) (out : List W64) (hN : out.length = N) (i : Nat) : extrXor4 s input off out i =
    if i + 3 < min (min 25 (input.length - 3 * off)) (N - 3 * off) then
    .ok (sets off (sumAt off s input) (colOrder (i + 3)) (sets off (sumAt off s input) (colOrder (i + 2)) (sets off (sumAt off s input) (colOrder (i + 1)) (sets off (sumAt off s input) (colOrder i) out)))) else .error .ub := by
  subst hN
  unfold extrXor4
  rw [loadRegs_eq, ← rows_sets off _ i ho4]
  by_cases h : i + 3 < 25
  · rw [if_pos h, okThen]
    simp only
    rw [loadRows_eq off ho]
    by_cases hi : 3 * off + i + 3 < input.length
    · rw [if_pos hi, okThen]
      refine (storeRows_eq off ho (sumAt off s input) out i _ fun k l => ?_).trans ?_
      · have e1 := regs_get s i k l
        have e2 : (rows off input i)[k] l = input.getD (k.val * off + (i + l.val)) 0 := by
          simp only [rows, Fin.getElem_fin, Vector.getElem_ofFn, Nat.add_assoc]
        rw [sumAt, ← e1, ← e2, BitVec.xor_comm]
        fin_cases k <;> rfl
      · by_cases h' : 3 * off + i + 3 < out.length
        · rw [if_pos h', if_pos (by omega)]
        · rw [if_neg h', if_neg (by omega)]
    · rw [if_neg hi, if_neg (by omega)]
      rfl
  · rw [if_neg h, if_neg (by omega)]
    rfl

include ho in
theorem extractAndAddLanesAll_eq (s : Regs) (input out : List W64) (n : Nat) (hn : n ≤ off) : extractAndAddLanesAll s input out n off =
    if n ≤ min (min 25 (input.length - 3 * off)) (out.length - 3 * off) then .ok (sets off (sumAt off s input) ((List.range n).flatMap colOrder) out) else .error .ub := by
  rw [← fold_sets]
  exact lanesAll_eq (fun o => o.length = out.length) _ _ (fun o i => sets off (sumAt off s input) (colOrder i) o) _ (fun o i h => (sets_length _ _ _ _).trans h)
    (fun o i h => extrXor_eq off ho s input out.length o h i) n (fun h16 o i h => extrXor4_eq off ho (by omega) s input out.length o h i) out rfl

end Banquet.X4
