import Verif.Model.Helpers
import Verif.Spec.Helpers
import Mathlib.Tactic.Ring
import Mathlib.Tactic.IntervalCases

/-! The parity functions. -/

namespace Banquet

open Spec

theorem filter_parity (n : Nat) (p : Nat → Bool) : ((List.range n).filter p).length % 2 = ((List.range n).foldl (fun s i => s ^^ p i) false).toNat := by
  induction n with
  | zero => rfl
  | succ n ih =>
    rw [List.range_succ, List.filter_append, List.length_append, List.foldl_append, Nat.add_mod, ih]
    cases hp : p n <;> cases (List.range n).foldl (fun s i => s ^^ p i) false <;> simp [hp]

/-- Four neighbouring bits folded into one. -/
theorem fold_bit {w : Nat} (x : BitVec w) (i : Nat) :
    ((x ^^^ (x >>> 1)) ^^^ ((x ^^^ (x >>> 1)) >>> 2)).getLsbD i = (x.getLsbD i ^^ x.getLsbD (i + 1) ^^ x.getLsbD (i + 2) ^^ x.getLsbD (i + 3)) := by
  simp only [BitVec.getLsbD_xor, BitVec.getLsbD_ushiftRight, Nat.add_comm 1, Nat.add_comm 2]
  rw [show i + 2 + 1 = i + 3 from rfl]
  cases x.getLsbD i <;> cases x.getLsbD (i + 1) <;> cases x.getLsbD (i + 2) <;> cases x.getLsbD (i + 3) <;> rfl

theorem nibble {w : Nat} (y : BitVec w) (k : Nat) (h : y.getLsbD (4 * k + 1) = false ∧ y.getLsbD (4 * k + 2) = false ∧ y.getLsbD (4 * k + 3) = false) :
    y.toNat / 2 ^ (4 * k) % 16 = (y.getLsbD (4 * k)).toNat := by
  have e : ∀ j, (y.getLsbD (4 * k + j)).toNat = y.toNat / 2 ^ (4 * k) / 2 ^ j % 2 := by
    intro j
    rw [BitVec.getLsbD, Nat.testBit_eq_decide_div_mod_eq, pow_add, Nat.div_div_eq_div_mul]
    rcases Nat.mod_two_eq_zero_or_one (y.toNat / (2 ^ (4 * k) * 2 ^ j)) with h | h <;> simp [h]
  have e0 := e 0
  have e1 := e 1
  have e2 := e 2
  have e3 := e 3
  rw [h.1] at e1
  rw [h.2.1] at e2
  rw [h.2.2] at e3
  rw [Nat.add_zero] at e0
  simp at e1 e2 e3
  rw [e0]
  omega

theorem parity16_sum (y : Nat) (b0 b1 b2 b3 : Nat) (h : y < 2 ^ 16) (h0 : y % 16 = b0) (h1 : y / 2 ^ 4 % 16 = b1) (h2 : y / 2 ^ 8 % 16 = b2) (h3 : y / 2 ^ 12 % 16 = b3)
    (l0 : b0 ≤ 1) (l1 : b1 ≤ 1) (l2 : b2 ≤ 1) (l3 : b3 ≤ 1) : y * 0x1111 % 2 ^ 16 / 2 ^ 12 % 2 = (b0 + b1 + b2 + b3) % 2 := by
  have : y = b0 + 16 * b1 + 256 * b2 + 4096 * b3 := by omega
  subst this
  clear h h0 h1 h2 h3
  interval_cases b0 <;> interval_cases b1 <;> interval_cases b2 <;> interval_cases b3 <;> rfl

theorem parity64_sum (b0 b1 b2 b3 b4 b5 b6 b7 b8 b9 ba bb bc bd be bf : Nat) (l0 : b0 ≤ 1) (l1 : b1 ≤ 1) (l2 : b2 ≤ 1) (l3 : b3 ≤ 1) (l4 : b4 ≤ 1) (l5 : b5 ≤ 1) (l6 : b6 ≤ 1) (l7 : b7 ≤ 1)
    (l8 : b8 ≤ 1) (l9 : b9 ≤ 1) (la : ba ≤ 1) (lb : bb ≤ 1) (lc : bc ≤ 1) (ld : bd ≤ 1) (le : be ≤ 1) :
    (b0 + 16 ^ 1 * b1 + 16 ^ 2 * b2 + 16 ^ 3 * b3 + 16 ^ 4 * b4 + 16 ^ 5 * b5 + 16 ^ 6 * b6 + 16 ^ 7 * b7 + 16 ^ 8 * b8 + 16 ^ 9 * b9 + 16 ^ 10 * ba + 16 ^ 11 * bb + 16 ^ 12 * bc + 16 ^ 13 * bd +
      16 ^ 14 * be + 16 ^ 15 * bf) * 0x1111111111111111 % 2 ^ 64 / 2 ^ 60 % 2 = (b0 + b1 + b2 + b3 + b4 + b5 + b6 + b7 + b8 + b9 + ba + bb + bc + bd + be + bf) % 2 := by
  have key : ∀ S low hi : Nat, low < 2 ^ 60 → (S * 2 ^ 60 + low + hi * 2 ^ 64) % 2 ^ 64 / 2 ^ 60 % 2 = S % 2 := by omega
  have e : (b0 + 16 ^ 1 * b1 + 16 ^ 2 * b2 + 16 ^ 3 * b3 + 16 ^ 4 * b4 + 16 ^ 5 * b5 + 16 ^ 6 * b6 + 16 ^ 7 * b7 + 16 ^ 8 * b8 + 16 ^ 9 * b9 + 16 ^ 10 * ba + 16 ^ 11 * bb + 16 ^ 12 * bc + 16 ^ 13 * bd + 16 ^ 14 * be + 16 ^ 15 * bf) * 0x1111111111111111 =
      (b0 + b1 + b2 + b3 + b4 + b5 + b6 + b7 + b8 + b9 + ba + bb + bc + bd + be + bf) * 2 ^ 60 + (b0 * 76861433640456465 + b1 * 76861433640456464 + b2 * 76861433640456448 + b3 * 76861433640456192 + b4 * 76861433640452096 + b5 * 76861433640386560 + b6 * 76861433639337984 + b7 * 76861433622560768 + b8 * 76861433354125312 + b9 * 76861429059158016 + ba * 76861360339681280 + bb * 76860260828053504 + bc * 76842668642009088 + bd * 76561193665298432 + be * 72057594037927936) + (b1 * 1 + b2 * 17 + b3 * 273 + b4 * 4369 + b5 * 69905 + b6 * 1118481 + b7 * 17895697 + b8 * 286331153 + b9 * 4581298449 + ba * 73300775185 + bb * 1172812402961 + bc * 18764998447377 + bd * 300239975158033 + be * 4803839602528529 + bf * 76861433640456465) * 2 ^ 64 := by ring
  rw [e]
  exact key _ _ _ (by omega)

theorem bits_mod (l : List Bool) : (l.map Bool.toNat).sum % 2 = (l.foldl (· ^^ ·) false).toNat := by
  have : ∀ (l : List Bool) (b : Bool), (b.toNat + (l.map Bool.toNat).sum) % 2 = (l.foldl (· ^^ ·) b).toNat := by
    intro l
    induction l with
    | nil => intro b; cases b <;> rfl
    | cons a l ih =>
      intro b
      rw [List.map_cons, List.sum_cons, List.foldl_cons, ← ih, ← Nat.add_assoc, Nat.add_mod, Nat.add_mod ((b ^^ a).toNat)]
      congr 2
      cases a <;> cases b <;> rfl
  have h := this l false
  rwa [Bool.toNat_false, Nat.zero_add] at h

theorem masked16 (x : BitVec 16) (k : Nat) : (x &&& 0x1111).getLsbD (4 * k) = x.getLsbD (4 * k) ∧
    ((x &&& 0x1111).getLsbD (4 * k + 1) = false ∧ (x &&& 0x1111).getLsbD (4 * k + 2) = false ∧ (x &&& 0x1111).getLsbD (4 * k + 3) = false) := by
  simp only [BitVec.getLsbD_and]
  by_cases hk : k < 4
  · interval_cases k <;> simp
  · have h : ∀ j, x.getLsbD (4 * k + j) = false := fun j => BitVec.getLsbD_of_ge _ _ (by omega)
    have h0 := h 0
    rw [Nat.add_zero] at h0
    simp [h, h0]

theorem masked64 (x : BitVec 64) (k : Nat) : (x &&& 0x1111111111111111).getLsbD (4 * k) = x.getLsbD (4 * k) ∧
    ((x &&& 0x1111111111111111).getLsbD (4 * k + 1) = false ∧ (x &&& 0x1111111111111111).getLsbD (4 * k + 2) = false ∧ (x &&& 0x1111111111111111).getLsbD (4 * k + 3) = false) := by
  simp only [BitVec.getLsbD_and]
  by_cases hk : k < 16
  · interval_cases k <;> simp
  · have h : ∀ j, x.getLsbD (4 * k + j) = false := fun j => BitVec.getLsbD_of_ge _ _ (by omega)
    have h0 := h 0
    rw [Nat.add_zero] at h0
    simp [h, h0]

theorem toNat_le_one (b : Bool) : b.toNat ≤ 1 := Bool.toNat_le b

theorem parityUint16_nat (x : BitVec 16) : (parityUint16 x).toNat = ((List.range 16).foldl (fun s i => s ^^ x.getLsbD i) false).toNat := by
  set z := (x ^^^ (x >>> 1)) ^^^ ((x ^^^ (x >>> 1)) >>> 2) with hz
  have n := fun k => nibble (z &&& 0x1111) k (masked16 z k).2
  have e : (parityUint16 x).toNat = (z &&& 0x1111).toNat * 0x1111 % 2 ^ 16 / 2 ^ 12 % 2 := by
    show (((z &&& 0x1111) * 0x1111) >>> 12 &&& 1).toNat = _
    rw [BitVec.toNat_and, BitVec.toNat_ushiftRight, BitVec.toNat_mul, Nat.shiftRight_eq_div_pow]
    exact Nat.and_one_is_mod _
  rw [e, parity16_sum _ _ _ _ _ (z &&& 0x1111).isLt (show (z &&& 0x1111).toNat % 16 = ((z &&& 0x1111).getLsbD (4 * 0)).toNat from by rw [← n 0, Nat.mul_zero, pow_zero, Nat.div_one]) (n 1) (n 2) (n 3) (toNat_le_one _) (toNat_le_one _) (toNat_le_one _) (toNat_le_one _)]
  simp only [(masked16 z _).1]
  have b := bits_mod [z.getLsbD (4 * 0), z.getLsbD (4 * 1), z.getLsbD (4 * 2), z.getLsbD (4 * 3)]
  simp only [List.map_cons, List.map_nil, List.sum_cons, List.sum_nil, List.foldl_cons, List.foldl_nil] at b
  simp only [← Nat.add_assoc, Nat.add_zero] at b
  rw [b, hz]
  simp only [fold_bit, List.range_succ, List.foldl_append, List.foldl_cons, List.foldl_nil, List.range_zero, Bool.false_xor, Nat.zero_add, Nat.reduceMul, Nat.reduceAdd, Bool.xor_assoc]

theorem parityUint64_nat (x : BitVec 64) : (parityUint64 x).toNat = ((List.range 64).foldl (fun s i => s ^^ x.getLsbD i) false).toNat := by
  set z := (x ^^^ (x >>> 1)) ^^^ ((x ^^^ (x >>> 1)) >>> 2) with hz
  set y := z &&& 0x1111111111111111 with hy
  have n := fun k => nibble y k (masked64 z k).2
  have m := fun k => (masked64 z k).1
  have e : (parityUint64 x).toNat = y.toNat * 0x1111111111111111 % 2 ^ 64 / 2 ^ 60 % 2 := by
    show ((y * 0x1111111111111111) >>> 60 &&& 1).toNat = _
    rw [BitVec.toNat_and, BitVec.toNat_ushiftRight, BitVec.toNat_mul, Nat.shiftRight_eq_div_pow]
    exact Nat.and_one_is_mod _
  rw [e]
  have sum : y.toNat = (y.getLsbD (4 * 0)).toNat + 16 ^ 1 * (y.getLsbD (4 * 1)).toNat + 16 ^ 2 * (y.getLsbD (4 * 2)).toNat + 16 ^ 3 * (y.getLsbD (4 * 3)).toNat + 16 ^ 4 * (y.getLsbD (4 * 4)).toNat + 16 ^ 5 * (y.getLsbD (4 * 5)).toNat + 16 ^ 6 * (y.getLsbD (4 * 6)).toNat + 16 ^ 7 * (y.getLsbD (4 * 7)).toNat + 16 ^ 8 * (y.getLsbD (4 * 8)).toNat + 16 ^ 9 * (y.getLsbD (4 * 9)).toNat + 16 ^ 10 * (y.getLsbD (4 * 10)).toNat + 16 ^ 11 * (y.getLsbD (4 * 11)).toNat + 16 ^ 12 * (y.getLsbD (4 * 12)).toNat + 16 ^ 13 * (y.getLsbD (4 * 13)).toNat + 16 ^ 14 * (y.getLsbD (4 * 14)).toNat + 16 ^ 15 * (y.getLsbD (4 * 15)).toNat := by
    have := y.isLt
    rw [← n 0, ← n 1, ← n 2, ← n 3, ← n 4, ← n 5, ← n 6, ← n 7, ← n 8, ← n 9, ← n 10, ← n 11, ← n 12, ← n 13, ← n 14, ← n 15]
    omega
  rw [sum, parity64_sum _ _ _ _ _ _ _ _ _ _ _ _ _ _ _ _ (toNat_le_one _) (toNat_le_one _) (toNat_le_one _) (toNat_le_one _) (toNat_le_one _) (toNat_le_one _) (toNat_le_one _) (toNat_le_one _)
    (toNat_le_one _) (toNat_le_one _) (toNat_le_one _) (toNat_le_one _) (toNat_le_one _) (toNat_le_one _) (toNat_le_one _)]
  have b := bits_mod ((List.range 16).map fun k => z.getLsbD (4 * k))
  simp only [hy, m, List.range_succ, List.range_zero, List.nil_append, List.cons_append, List.map_cons, List.map_nil, List.sum_cons, List.sum_nil, List.foldl_cons,
    List.foldl_nil, Nat.add_zero] at b ⊢
  simp only [Nat.add_assoc] at b ⊢
  rw [b, hz]
  simp only [fold_bit, Bool.false_xor, Nat.reduceMul, Nat.reduceAdd, Nat.zero_add, Bool.xor_assoc]

end Banquet
