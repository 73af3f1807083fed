import Verif.Proofs.Kravatte

/-! Kravatte: the loops. -/

namespace Banquet.X4

open Spec
open Opt64 (okThen)

/-! ## Compression -/

theorem compress_append (block : Nat → Spec.Lanes) (k x : Spec.Lanes) (a b : Nat) :
    Spec.compress block k x (a + b) = Spec.compress (fun j => block (a + j)) (rollC^[a] k) (Spec.compress block k x a) b := by
  induction b with
  | zero => rfl
  | succ b ih =>
    rw [← Nat.add_assoc, Spec.compress, Spec.compress, ih, ← Function.iterate_add_apply, Nat.add_comm b a]

theorem ofNat_pred (n : Nat) (hn : n + 1 < 2 ^ 64) : BitVec.ofNat 64 (n + 1) - 1 = BitVec.ofNat 64 n := by
  apply BitVec.eq_of_toNat_eq
  rw [BitVec.toNat_sub, BitVec.toNat_ofNat, BitVec.toNat_ofNat, Nat.mod_eq_of_lt hn, Nat.mod_eq_of_lt (by omega : n < 2 ^ 64), show (1 : W64).toNat = 1 from rfl]
  omega

theorem compressLoop_eq (kRoll inp : List W64) (hk : kRoll.length = 25) (n fuel : Nat) (hf : n < fuel) (hn : n + 1 < 2 ^ 64) :
    ∀ (base : Nat) (k : Spec.Lanes) (x0 x1 : V256) (xAccu : List W64) (_ : xAccu.length = 25) (_ : base + 100 * (n + 1) ≤ inp.length) (_ : ∀ i (hi : i < 20), kRoll.getD i 0 = k[i])
      (_ : Holds k x0 x1), ∃ x' x0' x1', compressLoop kRoll inp fuel base (BitVec.ofNat 64 (n + 1)) x0 x1 xAccu = .ok (x', x0', x1', base + 100 * (n + 1)) ∧ x'.length = 25 ∧
        Holds (rollC^[4 * (n + 1)] k) x0' x1' ∧ lanesAt x' 0 = Spec.compress (fun j => lanesAt inp (base + 25 * j)) k (lanesAt xAccu 0) (4 * (n + 1)) := by
  induction n generalizing fuel with
  | zero =>
    intro base k x0 x1 xAccu hx hi hlow h
    obtain ⟨fuel, rfl⟩ : ∃ f, fuel = f + 1 := ⟨fuel - 1, by omega⟩
    obtain ⟨x', e, l', g⟩ := compressBlock_eq kRoll inp xAccu base k x0 x1 hk hx (by omega) hlow h
    refine ⟨x', _, _, ?_, l', (rollc_eq h).2, g⟩
    rw [compressLoop, e, okThen, ofNat_pred _ (by omega)]
    rfl
  | succ n ih =>
    intro base k x0 x1 xAccu hx hi hlow h
    obtain ⟨fuel, rfl⟩ : ∃ f, fuel = f + 1 := ⟨fuel - 1, by omega⟩
    obtain ⟨y, e, ly, g⟩ := compressBlock_eq kRoll inp xAccu base k x0 x1 hk hx (by omega) hlow h
    obtain ⟨x', x0', x1', e', l', h', g'⟩ := ih fuel (by omega) (by omega) (base + 100) (rollC^[4] k) _ _ y ly (by omega) (fun i hi => by rw [rollC_low k 4 i hi, hlow i hi]) (rollc_eq h).2
    refine ⟨x', x0', x1', ?_, l', ?_, ?_⟩
    · rw [compressLoop, e, okThen, ofNat_pred _ hn]
      have c : BitVec.ofNat 64 (n + 1) ≠ 0 := fun c => by
        have := congrArg BitVec.toNat c
        rw [BitVec.toNat_ofNat, Nat.mod_eq_of_lt (by omega)] at this
        exact absurd this (Nat.succ_ne_zero n)
      simp only [ne_eq, c, not_false_eq_true, if_true]
      rw [e', show base + 100 + 100 * (n + 1) = base + 100 * (n + 1 + 1) by omega]
    · rw [← Function.iterate_add_apply, show 4 * (n + 1) + 4 = 4 * (n + 1 + 1) by omega] at h'
      exact h'
    · rw [show 4 * (n + 1 + 1) = 4 + 4 * (n + 1) by omega, compress_append, g', g]
      refine congrArg (fun b => Spec.compress b _ _ _) (funext fun j => ?_)
      rw [show base + 100 + 25 * j = base + 25 * (4 + j) by omega]

theorem kravatteCompress_eq (fuel : Nat) (xAccu kRoll input : List W64) (hx : xAccu.length = 25) (hk : kRoll.length = 25) (hi : 100 ≤ input.length) (hl : 8 * input.length < 2 ^ 64) (hf : input.length / 100 ≤ fuel) :
    ∃ x' k', kravatteCompress fuel xAccu kRoll input = .ok (x', k', 800 * (input.length / 100)) ∧ x'.length = 25 ∧ k'.length = 25 ∧
      lanesAt x' 0 = Spec.compress (fun j => lanesAt input (25 * j)) (lanesAt kRoll 0) (lanesAt xAccu 0) (4 * (input.length / 100)) ∧ lanesAt k' 0 = rollC^[4 * (input.length / 100)] (lanesAt kRoll 0) := by
  obtain ⟨n, hn⟩ : ∃ n, input.length / 100 = n + 1 := ⟨input.length / 100 - 1, by omega⟩
  have hn' : 8 * input.length / (4 * 200) = n + 1 := by omega
  rw [hn] at hf ⊢
  have h0 : Holds (lanesAt kRoll 0) (fun l => kRoll.getD (20 + l.val) 0) (fun l => kRoll.getD (21 + l.val) 0) :=
    ⟨fun l => by rw [lanesAt_get, Nat.zero_add], fun l => by rw [lanesAt_get, Nat.zero_add]⟩
  obtain ⟨x', x0', x1', e, l', h', g⟩ := compressLoop_eq kRoll input hk n fuel (by omega) (by omega) 0 (lanesAt kRoll 0) _ _ xAccu hx (by omega)
    (fun i hi => by rw [lanesAt_get, Nat.zero_add]) h0
  unfold kravatteCompress
  simp only [hn']
  rw [load_ok (by omega), okThen, load_ok (by omega), okThen, e, okThen]
  simp only
  rw [store_ok _ (by omega), okThen, write_ok _ (by simp only [List.length_set]; omega), okThen]
  refine ⟨x', _, by rw [show 8 * (0 + 100 * (n + 1)) = 800 * (n + 1) by omega], l', by simp only [List.length_set]; exact hk, ?_, Vector.ext fun i hi => ?_⟩
  · rw [g]
    simp only [Nat.zero_add]
  · rw [lanesAt_get _ _ _ hi, Nat.zero_add, getD_set _ _ _ _ (by simp only [List.length_set]; omega), getD_set _ _ _ _ (by simp only [List.length_set]; omega),
      getD_set _ _ _ _ (by simp only [List.length_set]; omega), getD_set _ _ _ _ (by simp only [List.length_set]; omega), getD_set _ _ _ _ (by omega)]
    have a0 := h'.x0 0; have a1 := h'.x0 1; have a2 := h'.x0 2; have a3 := h'.x0 3; have a4 := h'.x1 3
    by_cases h20 : i < 20
    · rw [if_neg (by omega), if_neg (by omega), if_neg (by omega), if_neg (by omega), if_neg (by omega), rollC_low _ _ _ h20, lanesAt_get, Nat.zero_add]
    · clear g e
      interval_cases i
      · exact a0
      · exact a1
      · exact a2
      · exact a3
      · exact a4

/-! ### Too little input -/

theorem read_cases (d : List W64) (i : Nat) : (∃ a, readWord d i = .ok a ∧ True) ∨ readWord d i = .error .ub := by
  by_cases h : i < d.length
  · exact .inl ⟨_, read_ok h, trivial⟩
  · exact .inr (read_ub h)

theorem load_cases (d : List W64) (i : Nat) : (∃ a, load256 d i = .ok a ∧ True) ∨ load256 d i = .error .ub := by
  by_cases h : i + 3 < d.length
  · exact .inl ⟨_, load_ok h, trivial⟩
  · exact .inr (load_ub h)

theorem bindCases {α β : Type} {m : M α} {f : α → M β} (hm : (∃ a, m = .ok a ∧ True) ∨ m = .error .ub) (hf : ∀ a, (∃ b, f a = .ok b ∧ True) ∨ f a = .error .ub) :
    (∃ b, (m >>= f) = .ok b ∧ True) ∨ (m >>= f) = .error .ub := by
  rcases hm with ⟨a, rfl, _⟩ | rfl
  · exact hf a
  · exact .inr rfl

theorem addOverWr4_cases (key inp : List W64) (base arg : Nat) : (∃ a, addOverWr4 key inp base arg = .ok a ∧ True) ∨ addOverWr4 key inp base arg = .error .ub :=
  bindCases (load_cases _ _) fun _ => bindCases (load_cases _ _) fun _ => bindCases (load_cases _ _) fun _ => bindCases (load_cases _ _) fun _ =>
    bindCases (read_cases _ _) fun _ => bindCases (read_cases _ _) fun _ => bindCases (read_cases _ _) fun _ => bindCases (read_cases _ _) fun _ => .inl ⟨_, rfl, trivial⟩

theorem loadXorEq_cases (lanes : V256) (inp : List W64) (base arg : Nat) : (∃ a, loadXorEq lanes inp base arg = .ok a ∧ True) ∨ loadXorEq lanes inp base arg = .error .ub :=
  bindCases (read_cases _ _) fun _ => bindCases (read_cases _ _) fun _ => bindCases (read_cases _ _) fun _ => bindCases (read_cases _ _) fun _ => .inl ⟨_, rfl, trivial⟩

theorem loadXorEq_ub (lanes : V256) (inp : List W64) (base arg : Nat) (h : ¬ base + 75 + arg < inp.length) : loadXorEq lanes inp base arg = .error .ub := by
  unfold loadXorEq
  rw [read_ub (by omega)]
  rfl

theorem kravatteCompress_short (fuel : Nat) (xAccu kRoll input : List W64) (hk : kRoll.length = 25) (hi : input.length < 100) (hf : 0 < fuel) : kravatteCompress fuel xAccu kRoll input = .error .ub := by
  obtain ⟨fuel, rfl⟩ : ∃ f, fuel = f + 1 := ⟨fuel - 1, by omega⟩
  have e : ∀ x0 x1, compressBlock kRoll input 0 x0 x1 xAccu = .error .ub := fun x0 x1 => by
    rw [compressBlock_unfold]
    exact bindUb (fun _ => True) (addOverWr4_cases _ _ _ _) fun _ _ => bindUb (fun _ => True) (addOverWr4_cases _ _ _ _) fun _ _ => bindUb (fun _ => True) (addOverWr4_cases _ _ _ _) fun _ _ =>
      bindUb (fun _ => True) (addOverWr4_cases _ _ _ _) fun _ _ => bindUb (fun _ => True) (addOverWr4_cases _ _ _ _) fun _ _ => bindUb (fun _ => True) (loadXorEq_cases _ _ _ _) fun _ _ =>
      bindUb (fun _ => True) (loadXorEq_cases _ _ _ _) fun _ _ => bindUb (fun _ => True) (loadXorEq_cases _ _ _ _) fun _ _ => bindUb (fun _ => True) (loadXorEq_cases _ _ _ _) fun _ _ => by
        rw [loadXorEq_ub _ _ _ _ (by omega)]
        rfl
  unfold kravatteCompress
  simp only
  rw [load_ok (by omega), okThen, load_ok (by omega), okThen, compressLoop, e]
  rfl

/-! ## Expansion -/

theorem rollE_get (y : Spec.Lanes) (i : Nat) (hi : i < 25) :
    (rollE y)[i] = if i < 15 then y[i] else if h : i < 24 then y[i + 1] else y[15].rotateLeft 7 ^^^ y[16].rotateLeft 18 ^^^ (y[17] &&& (y[16] >>> 1)) := by
  rw [rollE, Vector.getElem_ofFn]
  rfl

theorem rollE_low (y : Spec.Lanes) (n i : Nat) (hi : i < 15) : (rollE^[n] y)[i] = y[i] := by
  induction n generalizing y with
  | zero => rfl
  | succ n ih =>
    rw [Function.iterate_succ_apply, ih, rollE_get _ _ (by omega), if_pos hi]

theorem rollE_shift (y : Spec.Lanes) (n m i : Nat) (h : 15 ≤ i) (hi : i + m < 25) : (rollE^[n + m] y)[i] = (rollE^[n] y)[i + m] := by
  induction m generalizing i with
  | zero => rfl
  | succ m ih =>
    rw [← Nat.add_assoc, Function.iterate_succ_apply', rollE_get _ _ (by omega), if_neg (by omega), dif_pos (by omega), ih (i + 1) (by omega) (by omega)]
    congr 1
    omega

/-- The lane appended by roll number `l`. -/
def newLane (y : Spec.Lanes) (l : Fin 4) : W64 := y[15 + l.val].rotateLeft 7 ^^^ y[16 + l.val].rotateLeft 18 ^^^ (y[17 + l.val] &&& (y[16 + l.val] >>> 1))

theorem rollE_new (y : Spec.Lanes) (l : Fin 4) : (rollE^[l.val + 1] y)[24] = newLane y l := by
  have s : ∀ i (hi : 15 ≤ i) (hi' : i < 18), (rollE^[l.val] y)[i] = y[i + l.val] := fun i hi hi' => by
    have := rollE_shift y 0 l.val i hi (by omega)
    simpa using this
  rw [Function.iterate_succ_apply', rollE_get _ _ (by omega), if_neg (by omega), dif_neg (by omega), s 15 (by omega) (by omega), s 16 (by omega) (by omega), s 17 (by omega) (by omega)]
  rfl

/-- The four lanes of position `i` after 0, 1, 2 and 3 rolls. -/
theorem rollE_at (y : Spec.Lanes) (n i : Nat) (hn : n ≤ 4) (h : 15 ≤ i) (hi : i < 25) :
    (rollE^[n] y)[i] = if h : i + n < 25 then y[i + n] else newLane y ⟨i + n - 25, by omega⟩ := by
  by_cases c : i + n < 25
  · rw [dif_pos c]
    have := rollE_shift y 0 n i h c
    simpa using this
  · rw [dif_neg c, ← rollE_new]
    have := rollE_shift y (i + n - 24) (24 - i) i h (by omega)
    simp only [show i + n - 24 + (24 - i) = n by omega, show i + (24 - i) = 24 by omega] at this
    rw [this]
    simp only [show i + n - 25 + 1 = i + n - 24 by omega]

theorem rolle_eq (y : Spec.Lanes) (ama ame ami ase : V256) (h1 : ∀ l : Fin 4, ama l = y[15 + l.val]) (h2 : ∀ l : Fin 4, ame l = y[16 + l.val]) (h3 : ∀ l : Fin 4, ami l = y[17 + l.val])
    (h4 : ∀ l : Fin 4, ase l = y[21 + l.val]) : (∀ l : Fin 4, (rolle ama ame ami ase).1 l = (rollE^[l.val] y)[22]) ∧ (∀ l : Fin 4, (rolle ama ame ami ase).2.1 l = (rollE^[l.val] y)[23]) ∧
      (∀ l : Fin 4, (rolle ama ame ami ase).2.2.1 l = (rollE^[l.val] y)[24]) ∧ ∀ l : Fin 4, (rolle ama ame ami ase).2.2.2 l = newLane y l := by
  have n : ∀ l : Fin 4, (rolle ama ame ami ase).2.2.2 l = newLane y l := fun l => by
    have : (rolle ama ame ami ase).2.2.2 l = (ama l).rotateLeft 7 ^^^ (ame l).rotateLeft 18 ^^^ (ami l &&& (ame l >>> 1)) := by
      rw [← rol_get ama l 7 (by omega), ← rol_get ame l 18 (by omega)]
      rfl
    rw [this, h1, h2, h3]
    rfl
  have n0 := n 0; have n1 := n 1; have n2 := n 2
  have b0 := h4 0; have b1 := h4 1; have b2 := h4 2; have b3 := h4 3
  refine ⟨fun l => ?_, fun l => ?_, fun l => ?_, n⟩
  · rw [rollE_at _ _ _ (by omega) (by omega)]
    fin_cases l
    · exact b1
    · exact b2
    · exact b3
    · exact n0
  · rw [rollE_at _ _ _ (by omega) (by omega)]
    fin_cases l
    · exact b2
    · exact b3
    · exact n0
    · exact n1
  · rw [rollE_at _ _ _ (by omega) (by omega)]
    fin_cases l
    · exact b3
    · exact n0
    · exact n1
    · exact n2

/-- What a group of four blocks puts at word `t` of the output buffer. -/
def outAt (s : Regs) (kRoll : List W64) (base t : Nat) : W64 := laneAt s ((t - base) / 25) ((t - base) % 25) ^^^ kRoll.getD ((t - base) % 25) 0

theorem extrAddKey_eq (s : Regs) (kRoll p : List W64) (base arg : Nat) (hk : arg < kRoll.length) (ha : arg < 25) (hp : base + 100 ≤ p.length) : ∃ p', extrAddKey kRoll s[arg] p base arg = .ok p' ∧ p'.length = p.length ∧
    ∀ t, p'.getD t 0 = if base ≤ t ∧ t < base + 100 ∧ arg ≤ (t - base) % 25 ∧ (t - base) % 25 < arg + 1 then outAt s kRoll base t else p.getD t 0 := by
  unfold extrAddKey
  rw [read_ok hk, okThen]
  simp only
  rw [write_ok _ (by omega), okThen, write_ok _ (by simp only [List.length_set]; omega), okThen, write_ok _ (by simp only [List.length_set]; omega), okThen, write_ok _ (by simp only [List.length_set]; omega)]
  refine ⟨_, rfl, by simp only [List.length_set], fun t => ?_⟩
  rw [getD_set _ _ _ _ (by simp only [List.length_set]; omega), getD_set _ _ _ _ (by simp only [List.length_set]; omega), getD_set _ _ _ _ (by simp only [List.length_set]; omega), getD_set _ _ _ _ (by omega)]
  have e : ∀ l : Fin 4, xor256 s[arg] (set1 (kRoll.getD arg 0)) l = outAt s kRoll base (base + (arg + l.val * 25)) := fun l => by
    rw [outAt, show (base + (arg + l.val * 25) - base) / 25 = l.val by omega, show (base + (arg + l.val * 25) - base) % 25 = arg by omega, laneAt, dif_pos ha,
      show Fin.ofNat 4 l.val = l from Fin.ext (Nat.mod_eq_of_lt l.isLt)]
    rfl
  have e0 := e 0; have e1 := e 1; have e2 := e 2; have e3 := e 3
  rw [e0, e1, e2, e3]
  by_cases c3 : t = base + (arg + 3 * 25)
  · subst c3
    rw [if_pos rfl, if_pos (by omega)]
    rfl
  by_cases c2 : t = base + (arg + 2 * 25)
  · subst c2
    rw [if_neg c3, if_pos rfl, if_pos (by omega)]
    rfl
  by_cases c1 : t = base + (arg + 1 * 25)
  · subst c1
    rw [if_neg c3, if_neg c2, if_pos rfl, if_pos (by omega)]
    rfl
  by_cases c0 : t = base + (arg + 0 * 25)
  · subst c0
    rw [if_neg c3, if_neg c2, if_neg c1, if_pos rfl, if_pos (by omega)]
    rfl
  · rw [if_neg c3, if_neg c2, if_neg c1, if_neg c0, if_neg (by omega)]

theorem getD_of_get? {a b : List W64} {t : Nat} (h : a[t]? = b[t]?) : a.getD t 0 = b.getD t 0 := by
  rw [List.getD_eq_getElem?_getD, List.getD_eq_getElem?_getD, h]

theorem row_mem {i : Nat} {x : Nat × Nat} : x ∈ rowOrder i ↔ x.1 < 4 ∧ i ≤ x.2 ∧ x.2 < i + 4 := by
  obtain ⟨a, b⟩ := x
  constructor
  · simp only [rowOrder, List.mem_cons, List.not_mem_nil, or_false, Prod.mk.injEq]
    rintro (h | h | h | h | h | h | h | h | h | h | h | h | h | h | h | h) <;> omega
  · rintro ⟨h1, h2, h3⟩
    simp only at h1 h2 h3
    obtain ⟨d, rfl⟩ : ∃ d, b = i + d := ⟨b - i, by omega⟩
    have hd : d < 4 := by omega
    clear h2 h3
    interval_cases a <;> interval_cases d <;> simp [rowOrder]

theorem extrAddKey4_eq (s : Regs) (kRoll p : List W64) (base arg : Nat) (hk : arg + 3 < kRoll.length) (ha : arg + 3 < 25) (hp : base + 100 ≤ p.length) :
    ∃ p', extrAddKey4 kRoll #v[s[arg], s[arg + 1], s[arg + 2], s[arg + 3]] p base arg = .ok p' ∧ p'.length = p.length ∧
    ∀ t, p'.getD t 0 = if base ≤ t ∧ t < base + 100 ∧ arg ≤ (t - base) % 25 ∧ (t - base) % 25 < arg + 4 then outAt s kRoll base t else p.getD t 0 := by
  unfold extrAddKey4
  rw [read_ok (by omega), okThen, read_ok (by omega), okThen, read_ok (by omega), okThen, read_ok (by omega), okThen]
  simp only
  generalize hv : unintleave _ = v
  have g : ∀ k l : Fin 4, v[k] l = (fun k q => outAt s kRoll base (25 * k + q)) k.val (base + arg + l.val) := fun k l => by
    rw [← hv, unintleave_get]
    simp only
    rw [outAt, show (25 * k.val + (base + arg + l.val) - base) / 25 = k.val by omega, show (25 * k.val + (base + arg + l.val) - base) % 25 = arg + l.val by omega, laneAt, dif_pos (by omega),
      show Fin.ofNat 4 k.val = k from Fin.ext (Nat.mod_eq_of_lt k.isLt)]
    fin_cases l <;> rfl
  have st := storeFour_eq 25 (fun k q => outAt s kRoll base (25 * k + q)) p (base + arg) v g
  rw [if_pos (by omega)] at st
  refine ⟨_, Eq.trans ?_ st, sets_length _ _ _ _, fun t => ?_⟩
  · simp only [show base + (arg + 0 * 25) = 0 * 25 + (base + arg) by omega, show base + (arg + 1 * 25) = 1 * 25 + (base + arg) by omega, show base + (arg + 2 * 25) = 2 * 25 + (base + arg) by omega,
      show base + (arg + 3 * 25) = 3 * 25 + (base + arg) by omega]
  · have hd : ∀ x ∈ rowOrder (base + arg), ∀ y ∈ rowOrder (base + arg), x.1 * 25 + x.2 = y.1 * 25 + y.2 → x = y := fun x hx y hy h =>
      distinct_of 25 (base + arg) 4 (by omega) (row_mem.1 hx).2 (row_mem.1 hy).2 h
    by_cases c : base ≤ t ∧ t < base + 100 ∧ arg ≤ (t - base) % 25 ∧ (t - base) % 25 < arg + 4
    · rw [if_pos c]
      have m := sets_mem 25 (fun k q => outAt s kRoll base (25 * k + q)) (rowOrder (base + arg)) p ((t - base) / 25, base + (t - base) % 25) (row_mem.2 ⟨by simp only; omega, by simp only; omega, by simp only; omega⟩) hd
        (by simp only; omega)
      simp only [show (t - base) / 25 * 25 + (base + (t - base) % 25) = t by omega, show 25 * ((t - base) / 25) + (base + (t - base) % 25) = t by omega] at m
      rw [List.getD_eq_getElem?_getD, m]
      rfl
    · rw [if_neg c]
      refine getD_of_get? (sets_other _ _ _ _ _ fun x hx e => c ?_)
      have := row_mem.1 hx
      omega

/-- The seven stores at the end of `expandBlock`. -/
def addKeyAll (kRoll : List W64) (base : Nat) (s : Regs) (out : List W64) : M (List W64) := do
  let out ← extrAddKey4 kRoll #v[s[0], s[1], s[2], s[3]] out base 0
  let out ← extrAddKey4 kRoll #v[s[4], s[5], s[6], s[7]] out base 4
  let out ← extrAddKey4 kRoll #v[s[8], s[9], s[10], s[11]] out base 8
  let out ← extrAddKey4 kRoll #v[s[12], s[13], s[14], s[15]] out base 12
  let out ← extrAddKey4 kRoll #v[s[16], s[17], s[18], s[19]] out base 16
  let out ← extrAddKey4 kRoll #v[s[20], s[21], s[22], s[23]] out base 20
  extrAddKey kRoll s[24] out base 24

theorem addKeyAll_eq (kRoll : List W64) (base : Nat) (s : Regs) (out : List W64) (hk : kRoll.length = 25) (hp : base + 100 ≤ out.length) : ∃ o', addKeyAll kRoll base s out = .ok o' ∧ o'.length = out.length ∧
    ∀ t, o'.getD t 0 = if base ≤ t ∧ t < base + 100 then outAt s kRoll base t else out.getD t 0 := by
  obtain ⟨p1, e1, l1, g1⟩ := extrAddKey4_eq s kRoll out base 0 (by omega) (by omega) (by omega)
  obtain ⟨p2, e2, l2, g2⟩ := extrAddKey4_eq s kRoll p1 base 4 (by omega) (by omega) (by omega)
  obtain ⟨p3, e3, l3, g3⟩ := extrAddKey4_eq s kRoll p2 base 8 (by omega) (by omega) (by omega)
  obtain ⟨p4, e4, l4, g4⟩ := extrAddKey4_eq s kRoll p3 base 12 (by omega) (by omega) (by omega)
  obtain ⟨p5, e5, l5, g5⟩ := extrAddKey4_eq s kRoll p4 base 16 (by omega) (by omega) (by omega)
  obtain ⟨p6, e6, l6, g6⟩ := extrAddKey4_eq s kRoll p5 base 20 (by omega) (by omega) (by omega)
  obtain ⟨p7, e7, l7, g7⟩ := extrAddKey_eq s kRoll p6 base 24 (by omega) (by omega) (by omega)
  refine ⟨p7, ?_, by omega, fun t => ?_⟩
  · simp only [Nat.zero_add, Nat.reduceAdd] at e1 e2 e3 e4 e5 e6
    rw [addKeyAll, e1, okThen, e2, okThen, e3, okThen, e4, okThen, e5, okThen, e6, okThen, e7]
  · rw [g7, g6, g5, g4, g3, g2, g1]
    clear g1 g2 g3 g4 g5 g6 g7 e1 e2 e3 e4 e5 e6 e7
    by_cases c : base ≤ t ∧ t < base + 100
    · have hr : (t - base) % 25 < 25 := Nat.mod_lt _ (by omega)
      rw [if_pos c]
      generalize (t - base) % 25 = r at hr
      obtain ⟨c1, c2⟩ := c
      simp only [c1, c2, true_and]
      interval_cases r <;> simp
    · rw [if_neg c, if_neg (fun h => c ⟨h.1, h.2.1⟩), if_neg (fun h => c ⟨h.1, h.2.1⟩), if_neg (fun h => c ⟨h.1, h.2.1⟩), if_neg (fun h => c ⟨h.1, h.2.1⟩), if_neg (fun h => c ⟨h.1, h.2.1⟩),
        if_neg (fun h => c ⟨h.1, h.2.1⟩), if_neg (fun h => c ⟨h.1, h.2.1⟩)]

end Banquet.X4
