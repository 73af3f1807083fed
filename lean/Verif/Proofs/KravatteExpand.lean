import Verif.Proofs.KravatteLoop

/-! Kravatte: expansion. -/

namespace Banquet.X4

open Spec
open Opt64 (okThen)

theorem mapM_read (d : List W64) (L : List Nat) (h : ∀ i ∈ L, i < d.length) : L.mapM (readWord d) = .ok (L.map fun i => d.getD i 0) := by
  induction L with
  | nil => rfl
  | cons i L ih =>
    rw [List.mapM_cons, read_ok (h i (by simp)), okThen, ih (fun j hj => h j (by simp [hj])), okThen]
    rfl

/-- The state assembled by `expandBlock`. -/
def expandState (y : List W64) (ama ame ami amo amu asa ase asi aso asu : V256) : Regs :=
  let c := fun i => set1 (y.getD i 0)
  #v[c 0, c 1, c 2, c 3, c 4, c 5, c 6, c 7, c 8, c 9, c 10, c 11, c 12, c 13, c 14, ama, ame, ami, amo, amu, asa, ase, asi, aso, asu]

theorem expandBlock_unfold (kRoll : List W64) (base : Nat) (yAccu out : List W64) : expandBlock kRoll base yAccu out = (do
    let y ← (List.range 15).mapM (readWord yAccu)
    let ama ← load256 yAccu 15
    let ame ← load256 yAccu 16
    let ami ← load256 yAccu 17
    let amo ← load256 yAccu 18
    let amu ← load256 yAccu 19
    let asa ← load256 yAccu 20
    let ase ← load256 yAccu 21
    let yAccu ← store256 yAccu 15 amu
    let yAccu ← writeWord yAccu 19 ((rolle ama ame ami ase).2.1 0)
    let yAccu ← writeWord yAccu 20 ((rolle ama ame ami ase).2.1 1)
    let yAccu ← store256 yAccu 21 (rolle ama ame ami ase).2.2.2
    let out ← addKeyAll kRoll base (rounds6 (expandState y ama ame ami amo amu asa ase (rolle ama ame ami ase).1 (rolle ama ame ami ase).2.1 (rolle ama ame ami ase).2.2.1)) out
    .ok (yAccu, out)) := by
  unfold expandBlock addKeyAll
  simp only [bind_assoc]
  rfl

theorem expandState_inst (yAccu : List W64) (l : Fin 4) :
    inst l (expandState ((List.range 15).map fun i => yAccu.getD i 0) (fun l => yAccu.getD (15 + l.val) 0) (fun l => yAccu.getD (16 + l.val) 0) (fun l => yAccu.getD (17 + l.val) 0)
      (fun l => yAccu.getD (18 + l.val) 0) (fun l => yAccu.getD (19 + l.val) 0) (fun l => yAccu.getD (20 + l.val) 0) (fun l => yAccu.getD (21 + l.val) 0)
      (fun l => (rollE^[l.val] (lanesAt yAccu 0))[22]) (fun l => (rollE^[l.val] (lanesAt yAccu 0))[23]) (fun l => (rollE^[l.val] (lanesAt yAccu 0))[24])) = rollE^[l.val] (lanesAt yAccu 0) := by
  refine Vector.ext fun i hi => ?_
  rw [inst_get]
  by_cases h15 : i < 15
  · rw [rollE_low _ _ _ h15, lanesAt_get, Nat.zero_add]
    interval_cases i <;> rfl
  · by_cases h22 : i < 22
    · have e : (rollE^[l.val] (lanesAt yAccu 0))[i] = yAccu.getD (i + l.val) 0 := by
        rw [rollE_at _ _ _ (by omega) (by omega) hi, dif_pos (by omega), lanesAt_get, Nat.zero_add]
      rw [e]
      interval_cases i <;> rfl
    · interval_cases i <;> rfl

theorem expandBlock_eq (kRoll : List W64) (base : Nat) (yAccu out : List W64) (hk : kRoll.length = 25) (hy : yAccu.length = 25) (ho : base + 100 ≤ out.length) :
    ∃ y' o', expandBlock kRoll base yAccu out = .ok (y', o') ∧ y'.length = 25 ∧ o'.length = out.length ∧ lanesAt y' 0 = rollE^[4] (lanesAt yAccu 0) ∧
      (∀ m, m < 4 → lanesAt o' (base + 25 * m) = expand (lanesAt yAccu 0) (lanesAt kRoll 0) m) ∧ ∀ t, t < base ∨ base + 100 ≤ t → o'.getD t 0 = out.getD t 0 := by
  have ld : ∀ (p : Nat) (hp : 15 ≤ p) (hp' : p ≤ 21) (l : Fin 4), (fun l : Fin 4 => yAccu.getD (p + l.val) 0) l = (lanesAt yAccu 0)[p + l.val]'(by omega) := fun p hp hp' l => by
    rw [lanesAt_get, Nat.zero_add]
  obtain ⟨r1, r2, r3, r4⟩ := rolle_eq (lanesAt yAccu 0) _ _ _ _ (ld 15 (by omega) (by omega)) (ld 16 (by omega) (by omega)) (ld 17 (by omega) (by omega)) (ld 21 (by omega) (by omega))
  rw [expandBlock_unfold, mapM_read _ _ (fun i hi => by have := List.mem_range.1 hi; omega), okThen, load_ok (by omega), okThen, load_ok (by omega), okThen, load_ok (by omega), okThen, load_ok (by omega), okThen,
    load_ok (by omega), okThen, load_ok (by omega), okThen, load_ok (by omega), okThen, store_ok _ (by omega), okThen, write_ok _ (by simp only [List.length_set]; omega), okThen,
    write_ok _ (by simp only [List.length_set]; omega), okThen, store_ok _ (by simp only [List.length_set]; omega), okThen, funext r1, funext r3, r2, r2, r4, r4, r4, r4, funext r2]
  have is := expandState_inst yAccu
  generalize expandState _ _ _ _ _ _ _ _ _ _ _ = A at is
  obtain ⟨o', e, lo, g⟩ := addKeyAll_eq kRoll base (rounds6 A) out hk ho
  rw [e, okThen]
  refine ⟨_, o', rfl, by simp only [List.length_set]; exact hy, lo, Vector.ext fun i hi => ?_, fun m hm => Vector.ext fun i hi => ?_, fun t ht => ?_⟩
  · rw [lanesAt_get _ _ _ hi, Nat.zero_add]
    simp only [getD_set, List.length_set, hy, Nat.reduceLT, Nat.reduceAdd]
    by_cases h15 : i < 15
    · rw [rollE_low _ _ _ h15, lanesAt_get, Nat.zero_add, if_neg (by omega), if_neg (by omega), if_neg (by omega), if_neg (by omega), if_neg (by omega), if_neg (by omega), if_neg (by omega), if_neg (by omega),
        if_neg (by omega), if_neg (by omega)]
    · rw [rollE_at _ _ _ (by omega) (by omega) hi]
      clear is g e r1 r2 r3 r4 ld
      interval_cases i <;> simp [rollE_get, lanesAt_get]
  · rw [lanesAt_get _ _ _ hi, g, if_pos (by omega), outAt, show (base + 25 * m + i - base) / 25 = m by omega, show (base + 25 * m + i - base) % 25 = i by omega, expand, xorLanes_get _ _ _ hi,
      lanesAt_get _ _ _ hi, Nat.zero_add]
    have b := laneAt_inst (rounds6 A) ⟨m, hm⟩ i hi
    simp only at b
    rw [b, inst_rounds6, is]
  · rw [g, if_neg (by omega)]

theorem expand_shift (y k : Spec.Lanes) (a m : Nat) : expand (rollE^[a] y) k m = expand y k (m + a) := by
  rw [expand, expand, ← Function.iterate_add_apply]

theorem expandLoop_eq (kRoll : List W64) (hk : kRoll.length = 25) (n fuel : Nat) (hf : n < fuel) (hn : n + 1 < 2 ^ 64) :
    ∀ (base : Nat) (yAccu out : List W64) (_ : yAccu.length = 25) (_ : base + 100 * (n + 1) ≤ out.length), ∃ y' o',
      expandLoop kRoll fuel base (BitVec.ofNat 64 (n + 1)) yAccu out = .ok (y', o', base + 100 * (n + 1)) ∧ y'.length = 25 ∧ o'.length = out.length ∧ lanesAt y' 0 = rollE^[4 * (n + 1)] (lanesAt yAccu 0) ∧
      (∀ m, m < 4 * (n + 1) → lanesAt o' (base + 25 * m) = expand (lanesAt yAccu 0) (lanesAt kRoll 0) m) ∧ ∀ t, t < base ∨ base + 100 * (n + 1) ≤ t → o'.getD t 0 = out.getD t 0 := by
  induction n generalizing fuel with
  | zero =>
    intro base yAccu out hy ho
    obtain ⟨fuel, rfl⟩ : ∃ f, fuel = f + 1 := ⟨fuel - 1, by omega⟩
    obtain ⟨y', o', e, l1, l2, g1, g2, g3⟩ := expandBlock_eq kRoll base yAccu out hk hy (by omega)
    refine ⟨y', o', ?_, l1, l2, g1, g2, g3⟩
    rw [expandLoop, e, okThen, ofNat_pred _ (by omega)]
    rfl
  | succ n ih =>
    intro base yAccu out hy ho
    obtain ⟨fuel, rfl⟩ : ∃ f, fuel = f + 1 := ⟨fuel - 1, by omega⟩
    obtain ⟨y1, o1, e, l1, l2, g1, g2, g3⟩ := expandBlock_eq kRoll base yAccu out hk hy (by omega)
    obtain ⟨y', o', e', l1', l2', g1', g2', g3'⟩ := ih fuel (by omega) (by omega) (base + 100) y1 o1 l1 (by omega)
    refine ⟨y', o', ?_, l1', by omega, ?_, fun m hm => ?_, fun t ht => ?_⟩
    · rw [expandLoop, e, okThen, ofNat_pred _ hn]
      have c : BitVec.ofNat 64 (n + 1) ≠ 0 := fun c => by
        have := congrArg BitVec.toNat c
        rw [BitVec.toNat_ofNat, Nat.mod_eq_of_lt (by omega)] at this
        exact absurd this (Nat.succ_ne_zero n)
      simp only [ne_eq, c, not_false_eq_true, if_true]
      rw [e', show base + 100 + 100 * (n + 1) = base + 100 * (n + 1 + 1) by omega]
    · rw [g1', g1, ← Function.iterate_add_apply, show 4 * (n + 1) + 4 = 4 * (n + 1 + 1) by omega]
    · by_cases c : m < 4
      · rw [← g2 m c]
        refine Vector.ext fun i hi => ?_
        rw [lanesAt_get _ _ _ hi, lanesAt_get _ _ _ hi, g3' _ (by omega)]
      · have := g2' (m - 4) (by omega)
        rw [g1, expand_shift, show m - 4 + 4 = m by omega, show base + 100 + 25 * (m - 4) = base + 25 * m by omega] at this
        exact this
    · rw [g3' t (by omega), g3 t (by omega)]

theorem kravatteExpand_eq (fuel : Nat) (yAccu kRoll out : List W64) (hy : yAccu.length = 25) (hk : kRoll.length = 25) (ho : 100 ≤ out.length) (hl : 8 * out.length < 2 ^ 64) (hf : out.length / 100 ≤ fuel) :
    ∃ y' o', kravatteExpand fuel yAccu kRoll out = .ok (y', o', 800 * (out.length / 100)) ∧ y'.length = 25 ∧ o'.length = out.length ∧ lanesAt y' 0 = rollE^[4 * (out.length / 100)] (lanesAt yAccu 0) ∧
      (∀ m, m < 4 * (out.length / 100) → lanesAt o' (25 * m) = expand (lanesAt yAccu 0) (lanesAt kRoll 0) m) ∧ ∀ t, 100 * (out.length / 100) ≤ t → o'.getD t 0 = out.getD t 0 := by
  obtain ⟨n, hn⟩ : ∃ n, out.length / 100 = n + 1 := ⟨out.length / 100 - 1, by omega⟩
  have hn' : 8 * out.length / (4 * 200) = n + 1 := by omega
  rw [hn] at hf ⊢
  obtain ⟨y', o', e, l1, l2, g1, g2, g3⟩ := expandLoop_eq kRoll hk n fuel (by omega) (by omega) 0 yAccu out hy (by omega)
  refine ⟨y', o', ?_, l1, l2, g1, fun m hm => ?_, fun t ht => g3 t (.inr (by omega))⟩
  · unfold kravatteExpand
    simp only [hn']
    rw [e, okThen, show 8 * (0 + 100 * (n + 1)) = 800 * (n + 1) by omega]
  · have := g2 m hm
    rwa [Nat.zero_add] at this

/-! ### Too little room -/

theorem bindLen {m : M (List W64)} {f : List W64 → M (List W64)} {d : List W64} (hm : (∃ a, m = .ok a ∧ a.length = d.length) ∨ m = .error .ub)
    (hf : ∀ a : List W64, a.length = d.length → (∃ b, f a = .ok b ∧ b.length = a.length) ∨ f a = .error .ub) : (∃ b, (m >>= f) = .ok b ∧ b.length = d.length) ∨ (m >>= f) = .error .ub := by
  rcases hm with ⟨a, rfl, h⟩ | rfl
  · rcases hf a h with ⟨b, e, h'⟩ | e
    · exact .inl ⟨b, e, by omega⟩
    · exact .inr e
  · exact .inr rfl

theorem extrAddKey4_cases (kRoll : List W64) (lanes : Vector V256 4) (p : List W64) (base arg : Nat) (hk : arg + 3 < kRoll.length) :
    (∃ a, extrAddKey4 kRoll lanes p base arg = .ok a ∧ a.length = p.length) ∨ extrAddKey4 kRoll lanes p base arg = .error .ub := by
  unfold extrAddKey4
  rw [read_ok (by omega), okThen, read_ok (by omega), okThen, read_ok (by omega), okThen, read_ok (by omega), okThen]
  exact bindLen (store_cases _ _ _) fun a _ => bindLen (store_cases _ _ _) fun b _ => bindLen (store_cases _ _ _) fun c _ => store_cases _ _ _

theorem extrAddKey_ub (kRoll : List W64) (lanes : V256) (p : List W64) (base arg : Nat) (hk : arg < kRoll.length) (hp : p.length ≤ base + (arg + 75)) : extrAddKey kRoll lanes p base arg = .error .ub := by
  unfold extrAddKey
  rw [read_ok (by omega), okThen]
  refine bindUb (fun a => a.length = p.length) (write_cases _ _ _) fun a ha => bindUb (fun b => b.length = p.length) (by rw [← ha]; exact write_cases _ _ _) fun b hb => ?_
  exact bindUb (fun a => a.length = p.length) (by rw [← hb]; exact write_cases _ _ _) fun a ha => write_ub _ (by omega)

theorem kravatteExpand_short (fuel : Nat) (yAccu kRoll out : List W64) (hy : yAccu.length = 25) (hk : kRoll.length = 25) (ho : out.length < 100) (hf : 0 < fuel) : kravatteExpand fuel yAccu kRoll out = .error .ub := by
  obtain ⟨fuel, rfl⟩ : ∃ f, fuel = f + 1 := ⟨fuel - 1, by omega⟩
  have e : expandBlock kRoll 0 yAccu out = .error .ub := by
    have a : ∀ s, addKeyAll kRoll 0 s out = .error .ub := fun s => by
      refine bindUb (fun a => a.length = out.length) (extrAddKey4_cases _ _ _ _ _ (by omega)) fun a ha => bindUb (fun b => b.length = out.length) (by rw [← ha]; exact extrAddKey4_cases _ _ _ _ _ (by omega)) fun b hb => ?_
      refine bindUb (fun a => a.length = out.length) (by rw [← hb]; exact extrAddKey4_cases _ _ _ _ _ (by omega)) fun a ha => bindUb (fun b => b.length = out.length) (by rw [← ha]; exact extrAddKey4_cases _ _ _ _ _ (by omega)) fun b hb => ?_
      refine bindUb (fun a => a.length = out.length) (by rw [← hb]; exact extrAddKey4_cases _ _ _ _ _ (by omega)) fun a ha => bindUb (fun b => b.length = out.length) (by rw [← ha]; exact extrAddKey4_cases _ _ _ _ _ (by omega)) fun b hb => ?_
      exact extrAddKey_ub _ _ _ _ _ (by omega) (by omega)
    rw [expandBlock_unfold, mapM_read _ _ (fun i hi => by have := List.mem_range.1 hi; omega), okThen, load_ok (by omega), okThen, load_ok (by omega), okThen, load_ok (by omega), okThen, load_ok (by omega), okThen,
      load_ok (by omega), okThen, load_ok (by omega), okThen, load_ok (by omega), okThen, store_ok _ (by omega), okThen, write_ok _ (by simp only [List.length_set]; omega), okThen,
      write_ok _ (by simp only [List.length_set]; omega), okThen, store_ok _ (by simp only [List.length_set]; omega), okThen, a]
    rfl
  unfold kravatteExpand
  simp only
  rw [expandLoop, e]
  rfl

end Banquet.X4
