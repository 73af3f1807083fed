import Verif.Model.KeccakX4Rest
import Verif.Spec.KeccakX4Rest
import Verif.Proofs.KeccakX4
import Verif.Proofs.KeccakRest

/-! The 4-way functions that the library does not call. -/

namespace Banquet.X4

open Spec
open Opt64 (parity okThen)

/-! ## Transposition -/

theorem intleave_get (v : Vector V256 4) (k : Fin 4) (l : Fin 4) : (intleave v)[k] l = v[l] k := by
  fin_cases k <;> fin_cases l <;> rfl

theorem unintleave_get (v : Vector V256 4) (k : Fin 4) (l : Fin 4) : (unintleave v)[k] l = v[l] k := by
  fin_cases k <;> fin_cases l <;> rfl

/-! ## Buffers -/

theorem readWord_eq (d : List W64) (i : Nat) : readWord d i = if i < d.length then .ok (d.getD i 0) else .error .ub := by
  unfold readWord
  by_cases h : i < d.length
  · rw [dif_pos h, if_pos h, List.getD_eq_getElem?_getD, List.getElem?_eq_getElem h]
    rfl
  · rw [dif_neg h, if_neg h]

theorem read_ok {d : List W64} {i : Nat} (h : i < d.length) : readWord d i = .ok (d.getD i 0) := by rw [readWord_eq, if_pos h]

theorem read_ub {d : List W64} {i : Nat} (h : ¬ i < d.length) : readWord d i = .error .ub := by rw [readWord_eq, if_neg h]

theorem ub_bind {α β : Type} (f : α → M β) : (Except.error Err.ub : M α) >>= f = .error .ub := rfl

theorem load_ok {d : List W64} {i : Nat} (h : i + 3 < d.length) : load256 d i = .ok (fun l => d.getD (i + l.val) 0) := by
  unfold load256
  rw [read_ok (by omega), okThen, read_ok (by omega), okThen, read_ok (by omega), okThen, read_ok h, okThen]
  refine congrArg Except.ok (funext fun l => ?_)
  fin_cases l <;> rfl

theorem load_ub {d : List W64} {i : Nat} (h : ¬ i + 3 < d.length) : load256 d i = .error .ub := by
  unfold load256
  rw [readWord_eq, readWord_eq, readWord_eq, read_ub h]
  by_cases h0 : i < d.length <;> by_cases h1 : i + 1 < d.length <;> by_cases h2 : i + 2 < d.length <;> simp only [h0, h1, h2, if_true, if_false] <;> rfl

theorem ptr_eq (off k : Nat) (h : off * 24 < 2 ^ 32) (hk : k ≤ 3) : ptr off k = k * off := by
  unfold ptr
  rw [Nat.mod_eq_of_lt, Nat.mul_div_cancel _ (by norm_num), Nat.mul_comm]
  have : off * k ≤ off * 3 := Nat.mul_le_mul_left _ hk
  omega

/-- Replace one vector. -/
def upd (s : Regs) (i : Nat) (v : V256 → V256) : Regs := Vector.ofFn fun j => if j.val = i then v s[j] else s[j]

theorem upd_get (s : Regs) (i j : Nat) (v : V256 → V256) (hj : j < 25) : (upd s i v)[j] = if j = i then v s[j] else s[j] := by
  rw [upd, Vector.getElem_ofFn]
  rfl

theorem setReg_upd (s : Regs) (i : Nat) (v : V256 → V256) : (getReg s i >>= fun a => setReg s i (v a)) = if i < 25 then .ok (upd s i v) else .error .ub := by
  unfold getReg setReg
  by_cases h : i < 25
  · rw [dif_pos h, okThen, dif_pos h, if_pos h]
    refine congrArg Except.ok (Vector.ext fun j hj => ?_)
    rw [upd_get _ _ _ _ hj, Vector.getElem_set]
    by_cases e : i = j
    · subst e
      rw [if_pos rfl]
    · rw [if_neg e, if_neg (fun h => e h.symm)]
  · rw [dif_neg h, if_neg h]
    rfl

theorem setReg_const (s : Regs) (i : Nat) (v : V256) : setReg s i v = if i < 25 then .ok (upd s i fun _ => v) else .error .ub := by
  rw [← setReg_upd]
  unfold getReg setReg
  by_cases h : i < 25
  · rw [dif_pos h, dif_pos h, okThen]
  · rw [dif_neg h, dif_neg h]
    rfl

theorem fold_upd (v : Nat → V256 → V256) (n : Nat) (s : Regs) (j : Nat) (hj : j < 25) : ((List.range n).foldl (fun s i => upd s i (v i)) s)[j] = if j < n then v j s[j] else s[j] := by
  induction n with
  | zero => rfl
  | succ n ih =>
    rw [List.range_succ, List.foldl_append, List.foldl_cons, List.foldl_nil, upd_get _ _ _ _ hj, ih]
    by_cases e : j = n
    · subst e
      rw [if_pos rfl, if_neg (by omega), if_pos (by omega)]
    · rw [if_neg e]
      by_cases h : j < n
      · rw [if_pos h, if_pos (by omega)]
      · rw [if_neg h, if_neg (by omega)]

variable (off : Nat) (ho : off * 24 < 2 ^ 32)

include ho in
theorem loadCol_eq (d : List W64) (i : Nat) :
    loadCol d off i = if 3 * off + i < d.length then .ok (fun l => d.getD (l.val * off + i) 0) else .error .ub := by
  unfold loadCol
  rw [ptr_eq off 3 ho (by omega), ptr_eq off 2 ho (by omega), ptr_eq off 1 ho (by omega), ptr_eq off 0 ho (by omega)]
  by_cases h : 3 * off + i < d.length
  · rw [if_pos h, read_ok h, okThen, read_ok (by omega), okThen, read_ok (by omega), okThen, read_ok (by omega), okThen]
    refine congrArg Except.ok (funext fun l => ?_)
    fin_cases l <;> rfl
  · rw [if_neg h, read_ub h]
    rfl

/-- Four words of each of the four buffers. -/
def rows (d : List W64) (i : Nat) : Vector V256 4 := Vector.ofFn fun k => fun l => d.getD (k.val * off + i + l.val) 0

include ho in
theorem loadRows_eq (d : List W64) (i : Nat) : loadRows d off i = if 3 * off + i + 3 < d.length then .ok (rows off d i) else .error .ub := by
  unfold loadRows
  rw [ptr_eq off 3 ho (by omega), ptr_eq off 2 ho (by omega), ptr_eq off 1 ho (by omega), ptr_eq off 0 ho (by omega)]
  by_cases h : 3 * off + i + 3 < d.length
  · rw [if_pos h, load_ok (by omega), okThen, load_ok (by omega), okThen, load_ok (by omega), okThen, load_ok h, okThen]
    refine congrArg Except.ok (Vector.ext fun k hk => ?_)
    interval_cases k <;> rfl
  · rw [if_neg h, load_ub h]
    by_cases h0 : 0 * off + i + 3 < d.length
    · rw [load_ok h0, okThen]
      by_cases h1 : 1 * off + i + 3 < d.length
      · rw [load_ok h1, okThen]
        by_cases h2 : 2 * off + i + 3 < d.length
        · rw [load_ok h2, okThen]
          rfl
        · rw [load_ub h2]
          rfl
      · rw [load_ub h1]
        rfl
    · rw [load_ub h0]
      rfl

theorem rows_get (d : List W64) (i : Nat) (k l : Fin 4) : (intleave (rows off d i))[k] l = d.getD (l.val * off + (i + k.val)) 0 := by
  rw [intleave_get]
  simp only [rows, Fin.getElem_fin, Vector.getElem_ofFn, Nat.add_assoc]

theorem rows_get' (d : List W64) (i : Nat) (k : Nat) (hk : k < 4) : (intleave (rows off d i))[k] = fun l => d.getD (l.val * off + (i + k)) 0 :=
  funext fun l => rows_get off d i ⟨k, hk⟩ l

/-! ## The control flow -/

theorem forLanes_eq {S : Type} (Inv : S → Prop) (f : S → Nat → M S) (g : S → Nat → S) (K : Nat) (hg : ∀ s i, Inv s → Inv (g s i))
    (hf : ∀ s i, Inv s → f s i = if i < K then .ok (g s i) else .error .ub) (start n : Nat) (s : S) (hs : Inv s) :
    (List.range' start n).foldlM f s = if n = 0 ∨ start + n ≤ K then .ok ((List.range' start n).foldl g s) else .error .ub := by
  induction n generalizing start s with
  | zero => simp; rfl
  | succ n ih =>
    rw [List.range'_succ, List.foldlM_cons, hf s start hs, List.foldl_cons]
    by_cases h : start < K
    · rw [if_pos h, okThen, ih (start + 1) _ (hg s start hs)]
      by_cases h' : start + (n + 1) ≤ K
      · rw [if_pos (by omega), if_pos (by omega)]
      · rw [if_neg (by omega), if_neg (by omega)]
    · rw [if_neg h, if_neg (by omega)]
      rfl

theorem lanesAll_eq {S : Type} (Inv : S → Prop) (f4 f1 : S → Nat → M S) (g : S → Nat → S) (K : Nat) (hg : ∀ s i, Inv s → Inv (g s i))
    (hf : ∀ s i, Inv s → f1 s i = if i < K then .ok (g s i) else .error .ub)
    (n : Nat) (hf4 : 16 ≤ n → ∀ s i, Inv s → f4 s i = if i + 3 < K then .ok (g (g (g (g s i) (i + 1)) (i + 2)) (i + 3)) else .error .ub) (s : S) (hs : Inv s) :
    lanesAll f4 f1 n s = if n ≤ K then .ok ((List.range n).foldl g s) else .error .ub := by
  have four : 16 ≤ n → ∀ s i, Inv s → f4 s i = (List.range' i 4).foldlM f1 s := fun hn s i hs => by
    rw [forLanes_eq Inv f1 g K hg hf i 4 s hs, hf4 hn s i hs]
    by_cases h : i + 3 < K
    · rw [if_pos h, if_pos (by omega)]
      rfl
    · rw [if_neg h, if_neg (by omega)]
  have all : (List.range' 0 n).foldlM f1 s = if n ≤ K then .ok ((List.range n).foldl g s) else .error .ub := by
    rw [forLanes_eq Inv f1 g K hg hf 0 n s hs, ← List.range_eq_range']
    by_cases h : n ≤ K
    · rw [if_pos h, if_pos (by omega)]
    · rw [if_neg h, if_neg (by omega)]
  have glue : 16 ≤ n → ∀ (a b : Nat) (t : S) (r : S → M S), Inv t → (∀ t', Inv t' → r t' = (List.range' (a + 4) b).foldlM f1 t') → (f4 t a >>= r) = (List.range' a (4 + b)).foldlM f1 t := fun hn a b t r ht hr => by
    rw [four hn t a ht, ← List.range'_append_1, List.foldlM_append]
    have e := forLanes_eq Inv f1 g K hg hf a 4 t ht
    rw [e]
    split
    · rw [okThen, okThen]
      exact hr _ (hg _ _ (hg _ _ (hg _ _ (hg _ _ ht))))
    · rfl
  rw [← all]
  unfold lanesAll
  by_cases h16 : n ≥ 16
  · rw [if_pos h16]
    have e16 : ∀ t', Inv t' → (if n ≥ 20 then (do
        let s ← f4 t' 16
        forLanes f1 20 n s) else forLanes f1 16 n t') = (List.range' 16 (n - 16)).foldlM f1 t' := fun t' ht => by
      by_cases h20 : n ≥ 20
      · rw [if_pos h20]
        refine (glue h16 16 (n - 20) t' (fun s => forLanes f1 20 n s) ht (fun _ _ => rfl)).trans ?_
        rw [show 4 + (n - 20) = n - 16 by omega]
      · rw [if_neg h20]
        rfl
    rw [glue h16 0 (n - 4) s _ hs fun s hs => ?_, show 4 + (n - 4) = n by omega]
    rw [glue h16 4 (n - 8) s _ hs fun s hs => ?_, show 4 + (n - 8) = n - 4 by omega]
    rw [glue h16 8 (n - 12) s _ hs fun s hs => ?_, show 4 + (n - 12) = n - 8 by omega]
    rw [glue h16 12 (n - 16) s _ hs fun s hs => e16 s hs, show 4 + (n - 16) = n - 12 by omega]
  · rw [if_neg h16]
    rfl

/-! ## Adding and overwriting lanes -/

/-- Word `i` of each of the four buffers. -/
def col (d : List W64) (i : Nat) : V256 := fun l => d.getD (l.val * off + i) 0

include ho in
theorem xorIn_eq (d : List W64) (s : Regs) (i : Nat) :
    xorIn d off s i = if i < min 25 (d.length - 3 * off) then .ok (upd s i fun a => xor256 a (col off d i)) else .error .ub := by
  unfold xorIn
  rw [loadCol_eq off ho]
  by_cases h : 3 * off + i < d.length
  · rw [if_pos h, okThen]
    have e := setReg_upd s i fun a => xor256 a (col off d i)
    refine e.trans ?_
    by_cases h' : i < 25
    · rw [if_pos h', if_pos (by omega)]
    · rw [if_neg h', if_neg (by omega)]
  · rw [if_neg h, if_neg (by omega)]
    rfl

include ho in
theorem xorIn4_eq (d : List W64) (s : Regs) (i : Nat) : xorIn4 d off s i = if i + 3 < min 25 (d.length - 3 * off) then
    .ok (upd (upd (upd (upd s i fun a => xor256 a (col off d i)) (i + 1) fun a => xor256 a (col off d (i + 1))) (i + 2) fun a => xor256 a (col off d (i + 2))) (i + 3)
      fun a => xor256 a (col off d (i + 3))) else .error .ub := by
  unfold xorIn4
  rw [loadRows_eq off ho]
  by_cases h : 3 * off + i + 3 < d.length
  · rw [if_pos h, okThen]
    simp only
    rw [rows_get' off d i 0 (by omega), rows_get' off d i 1 (by omega), rows_get' off d i 2 (by omega), rows_get' off d i 3 (by omega)]
    have e : ∀ (s : Regs) (k : Nat) (r : Regs → M Regs), (getReg s (i + k) >>= fun a => setReg s (i + k) (xor256 a fun l => d.getD (l.val * off + (i + k)) 0) >>= r) =
        if i + k < 25 then r (upd s (i + k) fun a => xor256 a (col off d (i + k))) else .error .ub := fun s k r => by
      have := setReg_upd s (i + k) fun a => xor256 a (col off d (i + k))
      have h2 : (getReg s (i + k) >>= fun a => setReg s (i + k) (xor256 a fun l => d.getD (l.val * off + (i + k)) 0) >>= r) =
        ((getReg s (i + k) >>= fun a => setReg s (i + k) (xor256 a (col off d (i + k)))) >>= r) := (bind_assoc _ _ _).symm
      rw [h2, this]
      split <;> rfl
    have e0 := e s 0
    simp only [Nat.add_zero] at e0
    rw [Nat.add_zero, e0, e, e]
    have e3 := setReg_upd (upd (upd (upd s i fun a => xor256 a (col off d i)) (i + 1) fun a => xor256 a (col off d (i + 1))) (i + 2) fun a => xor256 a (col off d (i + 2))) (i + 3)
      fun a => xor256 a (col off d (i + 3))
    rw [show (fun l : Fin 4 => d.getD (l.val * off + (i + 3)) 0) = col off d (i + 3) from rfl, e3]
    by_cases h' : i + 3 < 25
    · rw [if_pos (by omega), if_pos (by omega), if_pos (by omega), if_pos (by omega), if_pos (by omega)]
    · rw [if_neg (show ¬ i + 3 < min 25 (d.length - 3 * off) by omega), if_neg h']
      simp only [ite_self]
  · rw [if_neg h, if_neg (by omega)]
    rfl

include ho in
theorem addLanesAll_eq (s : Regs) (d : List W64) (n : Nat) :
    addLanesAll s d n off = if n ≤ min 25 (d.length - 3 * off) then .ok ((List.range n).foldl (fun s i => upd s i fun a => xor256 a (col off d i)) s) else .error .ub :=
  lanesAll_eq (fun _ => True) _ _ (fun s i => upd s i fun a => xor256 a (col off d i)) _ (fun _ _ _ => trivial) (fun s i _ => xorIn_eq off ho d s i) n (fun _ s i _ => xorIn4_eq off ho d s i) s trivial

include ho in
theorem overWr_eq (d : List W64) (s : Regs) (i : Nat) :
    overWr d off s i = if i < min 25 (d.length - 3 * off) then .ok (upd s i fun _ => col off d i) else .error .ub := by
  unfold overWr
  rw [loadCol_eq off ho]
  by_cases h : 3 * off + i < d.length
  · rw [if_pos h, okThen, setReg_const]
    by_cases h' : i < 25
    · rw [if_pos h', if_pos (by omega)]
      rfl
    · rw [if_neg h', if_neg (by omega)]
  · rw [if_neg h, if_neg (by omega)]
    rfl

include ho in
theorem overWr4_eq (d : List W64) (s : Regs) (i : Nat) : overWr4 d off s i = if i + 3 < min 25 (d.length - 3 * off) then
    .ok (upd (upd (upd (upd s i fun _ => col off d i) (i + 1) fun _ => col off d (i + 1)) (i + 2) fun _ => col off d (i + 2)) (i + 3) fun _ => col off d (i + 3)) else .error .ub := by
  unfold overWr4
  rw [loadRows_eq off ho]
  by_cases h : 3 * off + i + 3 < d.length
  · rw [if_pos h, okThen]
    simp only
    rw [rows_get' off d i 0 (by omega), rows_get' off d i 1 (by omega), rows_get' off d i 2 (by omega), rows_get' off d i 3 (by omega), setReg_const]
    by_cases h' : i + 3 < 25
    · rw [if_pos (by omega), okThen, setReg_const, if_pos (by omega), okThen, setReg_const, if_pos (by omega), okThen, setReg_const, if_pos (by omega), if_pos (by omega)]
      rfl
    · rw [if_neg (show ¬ i + 3 < min 25 (d.length - 3 * off) by omega)]
      by_cases h0 : i < 25
      · rw [if_pos h0, okThen, setReg_const]
        by_cases h1 : i + 1 < 25
        · rw [if_pos h1, okThen, setReg_const]
          by_cases h2 : i + 2 < 25
          · rw [if_pos h2, okThen, setReg_const, if_neg h']
          · rw [if_neg h2]
            rfl
        · rw [if_neg h1]
          rfl
      · rw [if_neg h0]
        rfl
  · rw [if_neg h, if_neg (by omega)]
    rfl

include ho in
theorem overwriteLanesAll_eq (s : Regs) (d : List W64) (n : Nat) :
    overwriteLanesAll s d n off = if n ≤ min 25 (d.length - 3 * off) then .ok ((List.range n).foldl (fun s i => upd s i fun _ => col off d i) s) else .error .ub :=
  lanesAll_eq (fun _ => True) _ _ (fun s i => upd s i fun _ => col off d i) _ (fun _ _ _ => trivial) (fun s i _ => overWr_eq off ho d s i) n (fun _ s i _ => overWr4_eq off ho d s i) s trivial

end Banquet.X4
