import Verif.Proofs.KeccakX4Loop

/-! Kravatte: four blocks at a time are four blocks one after the other. -/

namespace Banquet.X4

open Spec
open Opt64 (okThen)

/-! ## Rolling the key -/

theorem rollC_get (k : Spec.Lanes) (i : Nat) (hi : i < 25) :
    (rollC k)[i] = if i < 20 then k[i] else if h : i < 24 then k[i + 1] else k[20].rotateLeft 7 ^^^ k[21] ^^^ (k[21] >>> 3) := by
  rw [rollC, Vector.getElem_ofFn]
  rfl

theorem rollC_low (k : Spec.Lanes) (n i : Nat) (hi : i < 20) : (rollC^[n] k)[i] = k[i] := by
  induction n generalizing k with
  | zero => rfl
  | succ n ih =>
    rw [Function.iterate_succ_apply, ih, rollC_get _ _ (by omega), if_pos hi]

theorem blend_same (w : W64) : (w.extractLsb' 32 32 ++ w.extractLsb' 0 32 : BitVec 64) = w := by
  apply BitVec.eq_of_getLsbD_eq
  intro i hi
  rw [BitVec.getLsbD_append]
  by_cases h : i < 32
  · rw [if_pos h, BitVec.getLsbD_extractLsb', decide_eq_true h, Bool.true_and, Nat.zero_add]
  · rw [if_neg h, BitVec.getLsbD_extractLsb', decide_eq_true (show i - 32 < 32 by omega), Bool.true_and]
    congr 1
    omega

theorem blend_b (a b : V256) (c : Nat) (l : Fin 4) (h : c / 2 ^ (2 * l.val) % 2 = 1) (h' : c / 2 ^ (2 * l.val + 1) % 2 = 1) : blend32 a b c l = b l := by
  unfold blend32
  simp only [if_pos h, if_pos h']
  exact blend_same _

theorem blend_a (a b : V256) (c : Nat) (l : Fin 4) (h : c / 2 ^ (2 * l.val) % 2 ≠ 1) (h' : c / 2 ^ (2 * l.val + 1) % 2 ≠ 1) : blend32 a b c l = a l := by
  unfold blend32
  simp only [if_neg h, if_neg h']
  exact blend_same _

/-- The two vectors that hold the last plane of the key. -/
structure Holds (k : Spec.Lanes) (x0 x1 : V256) : Prop where
  x0 : ∀ l : Fin 4, x0 l = k[20 + l.val]
  x1 : ∀ l : Fin 4, x1 l = k[21 + l.val]


theorem roll_new (k : Spec.Lanes) : (rollC k)[24] = k[20].rotateLeft 7 ^^^ k[21] ^^^ (k[21] >>> 3) := by
  rw [rollC_get _ _ (by omega), if_neg (by omega), dif_neg (by omega)]

theorem roll_shift (k : Spec.Lanes) (i : Nat) (h : 20 ≤ i) (h' : i < 24) : (rollC k)[i] = k[i + 1] := by
  rw [rollC_get _ _ (by omega), if_neg (by omega), dif_pos h']

theorem rol_get (a : V256) (l : Fin 4) (n : Nat) (h : n < 64) : rol64in256 a n l = (a l).rotateLeft n := by
  rw [rol_eq a l h, Opt64.rol64_eq _ h]

theorem rollc_new {k : Spec.Lanes} {x0 x1 : V256} (h : Holds k x0 x1) (l : Fin 4) : (rollc x0 x1).2.2 l = (rollC^[l.val + 1] k)[24] := by
  have e : (rollc x0 x1).2.2 l = (x0 l).rotateLeft 7 ^^^ x1 l ^^^ (x1 l >>> 3) := by
    rw [← rol_get x0 l 7 (by omega)]
    rfl
  rw [e, h.x0, h.x1]
  have e20 : ∀ (n : Nat) (k : Spec.Lanes) (hn : n < 4), (rollC^[n] k)[20] = k[20 + n] ∧ (rollC^[n] k)[21] = k[21 + n] := fun n => by
    induction n with
    | zero => intros; exact ⟨rfl, rfl⟩
    | succ n ih =>
      intro k hn
      rw [Function.iterate_succ_apply]
      obtain ⟨i1, i2⟩ := ih (rollC k) (by omega)
      refine ⟨i1.trans ?_, i2.trans ?_⟩
      · exact roll_shift k _ (by omega) (by omega)
      · exact roll_shift k _ (by omega) (by omega)
  rw [Function.iterate_succ_apply', roll_new]
  obtain ⟨e1, e2⟩ := e20 l.val k l.isLt
  rw [e1, e2]

/-- `Kravatte_Rollc`: the last planes of four consecutive keys, and the state after four steps. -/
theorem rollc_eq {k : Spec.Lanes} {x0 x1 : V256} (h : Holds k x0 x1) :
    (∀ (j : Fin 5) (l : Fin 4), (rollc x0 x1).1[j] l = (rollC^[l.val] k)[20 + j.val]) ∧ Holds (rollC^[4] k) (rollc x0 x1).2.1 (rollc x0 x1).2.2 := by
  have n0 := rollc_new h 0
  have n1 := rollc_new h 1
  have n2 := rollc_new h 2
  have n3 := rollc_new h 3
  have asi : ∀ l : Fin 4, (rollc x0 x1).1[2] l = #v[x1 1, x1 2, x1 3, (rollc x0 x1).2.2 0][l] := fun l => by
    fin_cases l
    · exact blend_a _ _ _ _ (by decide) (by decide)
    · exact blend_a _ _ _ _ (by decide) (by decide)
    · exact blend_a _ _ _ _ (by decide) (by decide)
    · exact blend_b _ _ _ _ (by decide) (by decide)
  have aso : ∀ l : Fin 4, (rollc x0 x1).1[3] l = #v[x1 2, x1 3, (rollc x0 x1).2.2 0, (rollc x0 x1).2.2 1][l] := fun l => by fin_cases l <;> rfl
  have asu : ∀ l : Fin 4, (rollc x0 x1).1[4] l = #v[x1 3, (rollc x0 x1).2.2 0, (rollc x0 x1).2.2 1, (rollc x0 x1).2.2 2][l] := fun l => by
    fin_cases l
    · exact blend_a _ _ _ _ (by decide) (by decide)
    · exact blend_b _ _ _ _ (by decide) (by decide)
    · exact blend_b _ _ _ _ (by decide) (by decide)
    · exact blend_b _ _ _ _ (by decide) (by decide)
  have sh := fun (k : Spec.Lanes) => roll_shift k 20 (by omega) (by omega)
  have sh1 := fun (k : Spec.Lanes) => roll_shift k 21 (by omega) (by omega)
  have sh2 := fun (k : Spec.Lanes) => roll_shift k 22 (by omega) (by omega)
  have sh3 := fun (k : Spec.Lanes) => roll_shift k 23 (by omega) (by omega)
  have a0 := h.x0 0; have a1 := h.x0 1; have a2 := h.x0 2; have a3 := h.x0 3
  have b0 := h.x1 0; have b1 := h.x1 1; have b2 := h.x1 2; have b3 := h.x1 3
  have i0 : rollC^[0] k = k := rfl
  have i1 : rollC^[1] k = rollC k := rfl
  have i2 : rollC^[2] k = rollC (rollC k) := rfl
  have i3 : rollC^[3] k = rollC (rollC (rollC k)) := rfl
  have i4 : rollC^[4] k = rollC (rollC (rollC (rollC k))) := rfl
  change _ = k[20] at a0; change _ = k[21] at a1; change _ = k[22] at a2; change _ = k[23] at a3
  change _ = k[21] at b0; change _ = k[22] at b1; change _ = k[23] at b2; change _ = k[24] at b3
  change _ = (rollC k)[24] at n0; change _ = (rollC (rollC k))[24] at n1; change _ = (rollC (rollC (rollC k)))[24] at n2
  change _ = (rollC (rollC (rollC (rollC k))))[24] at n3
  refine ⟨fun j l => ?_, ⟨fun l => ?_, fun l => ?_⟩⟩
  · fin_cases j
    · fin_cases l
      · exact a0
      · exact a1.trans (sh k).symm
      · exact a2.trans (by change _ = (rollC (rollC k))[20]; rw [sh, sh1])
      · exact a3.trans (by change _ = (rollC (rollC (rollC k)))[20]; rw [sh, sh1, sh2])
    · fin_cases l
      · exact b0
      · exact b1.trans (sh1 k).symm
      · exact b2.trans (by change _ = (rollC (rollC k))[21]; rw [sh1, sh2])
      · exact b3.trans (by change _ = (rollC (rollC (rollC k)))[21]; rw [sh1, sh2, sh3])
    · refine (asi l).trans ?_
      fin_cases l
      · exact b1
      · exact b2.trans (sh2 k).symm
      · exact b3.trans (by change _ = (rollC (rollC k))[22]; rw [sh2, sh3])
      · exact n0.trans (by change _ = (rollC (rollC (rollC k)))[22]; rw [sh2, sh3])
    · refine (aso l).trans ?_
      fin_cases l
      · exact b2
      · exact b3.trans (sh3 k).symm
      · exact n0.trans (by change _ = (rollC (rollC k))[23]; rw [sh3])
      · exact n1.trans (by change _ = (rollC (rollC (rollC k)))[23]; rw [sh3])
    · refine (asu l).trans ?_
      fin_cases l
      · exact b3
      · exact n0
      · exact n1
      · exact n2
  · refine (asu l).trans ?_
    fin_cases l
    · exact b3.trans (by change _ = (rollC (rollC (rollC (rollC k))))[20]; rw [sh, sh1, sh2, sh3])
    · exact n0.trans (by change _ = (rollC (rollC (rollC (rollC k))))[21]; rw [sh1, sh2, sh3])
    · exact n1.trans (by change _ = (rollC (rollC (rollC (rollC k))))[22]; rw [sh2, sh3])
    · exact n2.trans (by change _ = (rollC (rollC (rollC (rollC k))))[23]; rw [sh3])
  · fin_cases l
    · exact n0.trans (by change _ = (rollC (rollC (rollC (rollC k))))[21]; rw [sh1, sh2, sh3])
    · exact n1.trans (by change _ = (rollC (rollC (rollC (rollC k))))[22]; rw [sh2, sh3])
    · exact n2.trans (by change _ = (rollC (rollC (rollC (rollC k))))[23]; rw [sh3])
    · exact n3

/-! ## Compression -/

theorem addOverWr4_eq (key inp : List W64) (base arg : Nat) (hk : arg + 3 < key.length) (hi : base + arg + 78 < inp.length) :
    addOverWr4 key inp base arg = .ok (Vector.ofFn fun j => fun l => inp.getD (base + (25 * l.val + (arg + j.val))) 0 ^^^ key.getD (arg + j.val) 0) := by
  unfold addOverWr4
  rw [load_ok (by omega), okThen, load_ok (by omega), okThen, load_ok (by omega), okThen, load_ok (by omega), okThen]
  simp only
  rw [read_ok (by omega), okThen, read_ok (by omega), okThen, read_ok (by omega), okThen, read_ok (by omega), okThen]
  refine congrArg Except.ok (Vector.ext fun j hj => funext fun l => ?_)
  rw [Vector.getElem_ofFn]
  generalize hv : (#v[fun l : Fin 4 => inp.getD (base + arg + 0 * 25 + l.val) 0, fun l => inp.getD (base + arg + 1 * 25 + l.val) 0, fun l => inp.getD (base + arg + 2 * 25 + l.val) 0,
    fun l => inp.getD (base + arg + 3 * 25 + l.val) 0] : Vector V256 4) = v
  have g : ∀ k : Fin 4, (intleave v)[k] l = inp.getD (base + (25 * l.val + (arg + k.val))) 0 := fun k => by
    rw [intleave_get, ← hv]
    fin_cases l <;> fin_cases k <;> (simp only [Fin.getElem_fin]; exact congrArg (fun n => inp.getD n 0) (by simp <;> omega))
  have e : ∀ k : Fin 4, xor256 (intleave v)[k] (set1 (key.getD (arg + k.val) 0)) l = inp.getD (base + (25 * l.val + (arg + k.val))) 0 ^^^ key.getD (arg + k.val) 0 := fun k => by
    rw [xor256, g k, set1]
  interval_cases j
  · exact e 0
  · exact e 1
  · exact e 2
  · exact e 3

theorem loadXorEq_eq (lanes : V256) (inp : List W64) (base arg : Nat) (hi : base + 75 + arg < inp.length) :
    loadXorEq lanes inp base arg = .ok (fun l => lanes l ^^^ inp.getD (base + (25 * l.val + arg)) 0) := by
  unfold loadXorEq
  rw [read_ok (by omega), okThen, read_ok (by omega), okThen, read_ok (by omega), okThen, read_ok (by omega), okThen]
  refine congrArg Except.ok (funext fun l => ?_)
  fin_cases l <;> rfl

/-- The sum of the lanes `p` of the four states. -/
def sum4 (s : Regs) (p : Nat) : W64 := laneAt s 0 p ^^^ laneAt s 1 p ^^^ laneAt s 2 p ^^^ laneAt s 3 p

theorem getD_set (d : List W64) (i j : Nat) (w : W64) (h : i < d.length) : (d.set i w).getD j 0 = if j = i then w else d.getD j 0 := by
  rw [List.getD_eq_getElem?_getD, List.getD_eq_getElem?_getD, List.getElem?_set]
  by_cases e : i = j
  · subst e
    rw [if_pos rfl, if_pos h, if_pos rfl]
    rfl
  · rw [if_neg e, if_neg (fun h => e h.symm)]

theorem extrAccu_eq (s : Regs) (p : List W64) (arg : Nat) (hp : arg < p.length) (ha : arg < 25) : ∃ p', extrAccu s[arg] p arg = .ok p' ∧ p'.length = p.length ∧
    ∀ j, p'.getD j 0 = if arg ≤ j ∧ j < arg + 1 then p.getD j 0 ^^^ sum4 s j else p.getD j 0 := by
  unfold extrAccu
  rw [read_ok hp, okThen, write_ok _ hp]
  refine ⟨_, rfl, List.length_set, fun j => ?_⟩
  rw [getD_set _ _ _ _ hp]
  by_cases h : j = arg
  · subst h
    rw [if_pos rfl, if_pos (by omega), sum4, laneAt, laneAt, laneAt, laneAt, dif_pos ha, dif_pos ha, dif_pos ha, dif_pos ha]
    rfl
  · rw [if_neg h, if_neg (by omega)]

theorem extrAccu4_eq (s : Regs) (p : List W64) (arg : Nat) (hp : arg + 3 < p.length) (ha : arg + 3 < 25) :
    ∃ p', extrAccu4 #v[s[arg], s[arg + 1], s[arg + 2], s[arg + 3]] p arg = .ok p' ∧ p'.length = p.length ∧
    ∀ j, p'.getD j 0 = if arg ≤ j ∧ j < arg + 4 then p.getD j 0 ^^^ sum4 s j else p.getD j 0 := by
  unfold extrAccu4
  simp only
  rw [load_ok hp, okThen, store_ok _ hp]
  refine ⟨_, rfl, by simp only [List.length_set], fun j => ?_⟩
  generalize hv : (#v[s[arg], s[arg + 1], s[arg + 2], s[arg + 3]] : Vector V256 4) = v
  have g : ∀ k l : Fin 4, (unintleave v)[k] l = laneAt s k.val (arg + l.val) := fun k l => by
    rw [unintleave_get, ← hv, laneAt, dif_pos (by omega), show Fin.ofNat 4 k.val = k from Fin.ext (Nat.mod_eq_of_lt k.isLt)]
    fin_cases l <;> rfl
  have e : ∀ l : Fin 4, xor256 (xor256 (xor256 (unintleave v)[0] (unintleave v)[1]) (xor256 (unintleave v)[2] (unintleave v)[3])) (fun l => p.getD (arg + l.val) 0) l =
      p.getD (arg + l.val) 0 ^^^ sum4 s (arg + l.val) := fun l => by
    have g0 : (unintleave v)[0] l = _ := g 0 l
    have g1 : (unintleave v)[1] l = _ := g 1 l
    have g2 : (unintleave v)[2] l = _ := g 2 l
    have g3 : (unintleave v)[3] l = _ := g 3 l
    simp only [xor256, g0, g1, g2, g3]
    rw [BitVec.xor_comm, sum4, ← BitVec.xor_assoc (laneAt s (0 : Fin 4).val _ ^^^ _)]
    rfl
  rw [getD_set _ _ _ _ (by simp only [List.length_set]; omega), getD_set _ _ _ _ (by simp only [List.length_set]; omega), getD_set _ _ _ _ (by simp only [List.length_set]; omega),
    getD_set _ _ _ _ (by omega), e, e, e, e]
  by_cases h3 : j = arg + 3
  · subst h3
    rw [if_pos rfl, if_pos (by omega)]
    rfl
  by_cases h2 : j = arg + 2
  · subst h2
    rw [if_neg h3, if_pos rfl, if_pos (by omega)]
    rfl
  by_cases h1 : j = arg + 1
  · subst h1
    rw [if_neg h3, if_neg h2, if_pos rfl, if_pos (by omega)]
    rfl
  by_cases h0 : j = arg
  · subst h0
    rw [if_neg h3, if_neg h2, if_neg h1, if_pos rfl, if_pos (by omega)]
    rfl
  · rw [if_neg h3, if_neg h2, if_neg h1, if_neg h0, if_neg (by omega)]

theorem lanesAt_get (b : List W64) (pos i : Nat) (hi : i < 25) : (lanesAt b pos)[i] = b.getD (pos + i) 0 := by
  rw [lanesAt, Vector.getElem_ofFn]

theorem xorLanes_get (a b : Spec.Lanes) (i : Nat) (hi : i < 25) : (xorLanes a b)[i] = a[i] ^^^ b[i] := by
  rw [xorLanes, Vector.getElem_ofFn]
  rfl

theorem laneAt_inst (s : Regs) (l : Fin 4) (i : Nat) (hi : i < 25) : laneAt s l.val i = (inst l s)[i] := by
  rw [laneAt, dif_pos hi, inst_get, show Fin.ofNat 4 l.val = l from Fin.ext (Nat.mod_eq_of_lt l.isLt)]

/-- The state assembled from five quadruples of lanes and five lanes. -/
def assemble (a b c d e : Vector V256 4) (sa se si so su : V256) : Regs :=
  #v[a[0], a[1], a[2], a[3], b[0], b[1], b[2], b[3], c[0], c[1], c[2], c[3], d[0], d[1], d[2], d[3], e[0], e[1], e[2], e[3], sa, se, si, so, su]

/-- The seven stores at the end of `compressBlock`. -/
def accuAll (s : Regs) (xAccu : List W64) : M (List W64) := do
  let xAccu ← extrAccu4 #v[s[0], s[1], s[2], s[3]] xAccu 0
  let xAccu ← extrAccu4 #v[s[4], s[5], s[6], s[7]] xAccu 4
  let xAccu ← extrAccu4 #v[s[8], s[9], s[10], s[11]] xAccu 8
  let xAccu ← extrAccu4 #v[s[12], s[13], s[14], s[15]] xAccu 12
  let xAccu ← extrAccu4 #v[s[16], s[17], s[18], s[19]] xAccu 16
  let xAccu ← extrAccu4 #v[s[20], s[21], s[22], s[23]] xAccu 20
  extrAccu s[24] xAccu 24

theorem accuAll_eq (s : Regs) (xAccu : List W64) (hx : xAccu.length = 25) : ∃ x', accuAll s xAccu = .ok x' ∧ x'.length = 25 ∧ ∀ i, i < 25 → x'.getD i 0 = xAccu.getD i 0 ^^^ sum4 s i := by
  obtain ⟨p1, e1, l1, g1⟩ := extrAccu4_eq s xAccu 0 (by omega) (by omega)
  obtain ⟨p2, e2, l2, g2⟩ := extrAccu4_eq s p1 4 (by omega) (by omega)
  obtain ⟨p3, e3, l3, g3⟩ := extrAccu4_eq s p2 8 (by omega) (by omega)
  obtain ⟨p4, e4, l4, g4⟩ := extrAccu4_eq s p3 12 (by omega) (by omega)
  obtain ⟨p5, e5, l5, g5⟩ := extrAccu4_eq s p4 16 (by omega) (by omega)
  obtain ⟨p6, e6, l6, g6⟩ := extrAccu4_eq s p5 20 (by omega) (by omega)
  obtain ⟨p7, e7, l7, g7⟩ := extrAccu_eq s p6 24 (by omega) (by omega)
  refine ⟨p7, ?_, by omega, fun i hi => ?_⟩
  · simp only [Nat.zero_add, Nat.reduceAdd] at e1 e2 e3 e4 e5 e6
    rw [accuAll, e1, okThen, e2, okThen, e3, okThen, e4, okThen, e5, okThen, e6, okThen, e7]
  · rw [g7, g6, g5, g4, g3, g2, g1]
    clear g1 g2 g3 g4 g5 g6 g7 e1 e2 e3 e4 e5 e6 e7
    interval_cases i <;> simp

theorem compressBlock_unfold (kRoll inp : List W64) (base : Nat) (x0 x1 : V256) (xAccu : List W64) : compressBlock kRoll inp base x0 x1 xAccu = (do
    let a ← addOverWr4 kRoll inp base 0
    let b ← addOverWr4 kRoll inp base 4
    let c ← addOverWr4 kRoll inp base 8
    let d ← addOverWr4 kRoll inp base 12
    let e ← addOverWr4 kRoll inp base 16
    let sa ← loadXorEq (rollc x0 x1).1[0] inp base 20
    let se ← loadXorEq (rollc x0 x1).1[1] inp base 21
    let si ← loadXorEq (rollc x0 x1).1[2] inp base 22
    let so ← loadXorEq (rollc x0 x1).1[3] inp base 23
    let su ← loadXorEq (rollc x0 x1).1[4] inp base 24
    let xAccu ← accuAll (rounds6 (assemble a b c d e sa se si so su)) xAccu
    .ok (xAccu, (rollc x0 x1).2.1, (rollc x0 x1).2.2)) := by
  unfold compressBlock accuAll
  simp only [bind_assoc]
  rfl

theorem compressBlock_eq (kRoll inp xAccu : List W64) (base : Nat) (k : Spec.Lanes) (x0 x1 : V256) (hk : kRoll.length = 25) (hx : xAccu.length = 25) (hi : base + 100 ≤ inp.length)
    (hlow : ∀ i (hi : i < 20), kRoll.getD i 0 = k[i]) (h : Holds k x0 x1) :
    ∃ xAccu', compressBlock kRoll inp base x0 x1 xAccu = .ok (xAccu', (rollc x0 x1).2.1, (rollc x0 x1).2.2) ∧ xAccu'.length = 25 ∧
      lanesAt xAccu' 0 = Spec.compress (fun n => lanesAt inp (base + 25 * n)) k (lanesAt xAccu 0) 4 := by
  obtain ⟨hr, _⟩ := rollc_eq h
  rw [compressBlock_unfold, addOverWr4_eq _ _ _ _ (by omega) (by omega), okThen, addOverWr4_eq _ _ _ _ (by omega) (by omega), okThen, addOverWr4_eq _ _ _ _ (by omega) (by omega), okThen,
    addOverWr4_eq _ _ _ _ (by omega) (by omega), okThen, addOverWr4_eq _ _ _ _ (by omega) (by omega), okThen,
    loadXorEq_eq _ _ _ _ (by omega), okThen, loadXorEq_eq _ _ _ _ (by omega), okThen, loadXorEq_eq _ _ _ _ (by omega), okThen, loadXorEq_eq _ _ _ _ (by omega), okThen,
    loadXorEq_eq _ _ _ _ (by omega), okThen]
  generalize hA : assemble _ _ _ _ _ _ _ _ _ _ = A
  have iA : ∀ l : Fin 4, inst l A = xorLanes (lanesAt inp (base + 25 * l.val)) (rollC^[l.val] k) := fun l => by
    refine Vector.ext fun i hi => ?_
    rw [inst_get, xorLanes_get _ _ _ hi, lanesAt_get _ _ _ hi, ← hA, Nat.add_assoc]
    have low : ∀ i (hi : i < 20), (rollC^[l.val] k)[i] = kRoll.getD i 0 := fun i hi => by rw [rollC_low k l.val i hi, hlow i hi]
    by_cases h20 : i < 20
    · rw [low i h20]
      clear hA hr
      interval_cases i <;> (simp [assemble, Vector.getElem_ofFn])
    · have r0 := hr 0 l; have r1 := hr 1 l; have r2 := hr 2 l; have r3 := hr 3 l; have r4 := hr 4 l
      rw [BitVec.xor_comm]
      clear hA
      interval_cases i
      · exact congrArg (· ^^^ _) r0
      · exact congrArg (· ^^^ _) r1
      · exact congrArg (· ^^^ _) r2
      · exact congrArg (· ^^^ _) r3
      · exact congrArg (· ^^^ _) r4
  generalize hs : rounds6 A = s
  have is : ∀ l : Fin 4, inst l s = keccakRounds 6 (xorLanes (lanesAt inp (base + 25 * l.val)) (rollC^[l.val] k)) := fun l => by rw [← hs, inst_rounds6, iA]
  obtain ⟨p, e, lp, g⟩ := accuAll_eq s xAccu hx
  refine ⟨p, by rw [e, okThen], lp, Vector.ext fun i hi => ?_⟩
  · have gi := g i hi
    have b := fun l : Fin 4 => (laneAt_inst s l i hi).trans (by rw [is l])
    have b0 : laneAt s 0 i = _ := b 0
    have b1 : laneAt s 1 i = _ := b 1
    have b2 : laneAt s 2 i = _ := b 2
    have b3 : laneAt s 3 i = _ := b 3
    rw [lanesAt_get _ _ _ hi, Nat.zero_add, gi, sum4, b0, b1, b2, b3]
    simp only [Spec.compress, xorLanes_get _ _ _ hi, lanesAt_get _ 0 _ hi, Nat.zero_add, BitVec.xor_assoc]
    rfl

end Banquet.X4
