import Verif.Proofs.KeccakAvx2

/-! The assembler code for AVX2: access to the state in memory and the fast loop. -/

namespace Banquet.Avx2

open Spec
open Opt64 hiding Lanes addLanes addBytes addByte extractBytes extractLanes permute init fastLoopAbsorb addBytes_eq addByte_eq extractBytes_eq addLanes_eq extractLanes_eq snp snp_ok fastLoopAbsorb_eq view_init

/-- The 200 bytes of the state. -/
def view (m : Mem) : St := ofLanes (lanesMem m)

theorem map_lt' : ∀ i : Fin 25, mapState[i] / 8 < 25 := by decide

theorem map_mod' : ∀ i : Fin 25, mapState[i] % 8 = 0 := by decide

theorem map_inj' : ∀ i j : Fin 25, mapState[i] / 8 = mapState[j] / 8 → i = j := by decide

theorem map_lt {i : Nat} (hi : i < 25) : mapState[i] / 8 < 25 := map_lt' ⟨i, hi⟩

theorem map_mod {i : Nat} (hi : i < 25) : mapState[i] % 8 = 0 := map_mod' ⟨i, hi⟩

theorem map_inj {i j : Nat} (hi : i < 25) (hj : j < 25) (h : mapState[i] / 8 = mapState[j] / 8) : i = j := congrArg Fin.val (map_inj' ⟨i, hi⟩ ⟨j, hj⟩ h)

theorem mapAt_ok {i : Nat} (hi : i < 25) : mapAt i = .ok mapState[i] := dif_pos hi

theorem lanesMem_get (m : Mem) (i : Nat) (hi : i < 25) : (lanesMem m)[i] = m[mapState[i] / 8]'(map_lt hi) := by
  simp [lanesMem]

theorem lanesMem_getD (m : Mem) (i : Nat) (hi : i < 25) : (lanesMem m).getD i 0 = m[mapState[i] / 8]'(map_lt hi) := by
  rw [← lanesMem_get m i hi]
  simp [Vector.getD, hi]

theorem lanesMem_set (m : Mem) (i : Nat) (hi : i < 25) (w : W64) : lanesMem (m.set (mapState[i] / 8) w (map_lt hi)) = (lanesMem m).set i w := by
  refine Vector.ext fun j hj => ?_
  rw [lanesMem_get _ _ hj, Vector.getElem_set, Vector.getElem_set]
  by_cases h : i = j
  · subst h
    simp
  · rw [if_neg fun e => h (map_inj hi hj e), if_neg h, lanesMem_get]

/-- Changing one word in memory. -/
theorem xorAt (m : Mem) (i off : Nat) (hi : i < 25) (bs : Bytes) (h : off + bs.length ≤ 8) :
    view (m.set (mapState[i] / 8) (m[mapState[i] / 8]'(map_lt hi) ^^^ (le64 bs <<< (8 * off))) (map_lt hi)) = Spec.addBytes (view m) bs (8 * i + off) := by
  rw [view, lanesMem_set m i hi, ← lanesMem_get m i hi, view_set _ _ _ hi _ h]
  rfl

theorem xorb_eq (m : Mem) (b : Byte) (i off : Nat) (hi : i < 25) (h : off < 8) :
    ∃ m', xorb m b (mapState[i] + off) = .ok m' ∧ view m' = Spec.addBytes (view m) [b] (8 * i + off) := by
  have h8 := map_mod hi
  have hl := map_lt hi
  have e1 : (mapState[i] + off) / 8 = mapState[i] / 8 := by omega
  have e2 : (mapState[i] + off) % 8 = off := by omega
  have := xorAt m i off hi [b] (by simp; omega)
  refine ⟨_, ?_, this⟩
  simp only [xorb, e1, e2, dif_pos hl]
  simp [le64]

theorem xorq_eq (m : Mem) (bs : Bytes) (hb : bs.length ≤ 8) (i : Nat) (hi : i < 25) :
    ∃ m', xorq m (le64 bs) mapState[i] = .ok m' ∧ view m' = Spec.addBytes (view m) bs (8 * i) := by
  have := xorAt m i 0 hi bs (by omega)
  refine ⟨_, dif_pos (map_lt hi), ?_⟩
  simpa using this

theorem addByte_eq (m : Mem) (b : Byte) (offset : Nat) (h : offset < 200) : ∃ m', addByte m b offset = .ok m' ∧ view m' = Spec.addByte (view m) b offset := by
  obtain ⟨m', e, g⟩ := xorb_eq m b (offset / 8) (offset % 8) (by omega) (by omega)
  refine ⟨m', ?_, ?_⟩
  · rw [addByte, bindOk (mapAt_ok (by omega)), e]
  · rw [g, Spec.addByte]
    congr 1
    omega

theorem xorBytes_eq (m : Mem) (bs : Bytes) (i off : Nat) (hi : i < 25) (h : off + bs.length ≤ 8) :
    ∃ m', xorBytes m bs (mapState[i] + off) = .ok m' ∧ view m' = Spec.addBytes (view m) bs (8 * i + off) := by
  induction bs generalizing m off with
  | nil => exact ⟨m, rfl, (addBytes_nil _ _).symm⟩
  | cons b bs ih =>
    rw [List.length_cons] at h
    obtain ⟨m1, e1, g1⟩ := xorb_eq m b i off hi (by omega)
    obtain ⟨m2, e2, g2⟩ := ih m1 (off + 1) (by omega)
    refine ⟨m2, ?_, ?_⟩
    · rw [xorBytes, bindOk e1]
      exact e2
    · rw [g2, g1]
      exact addBytes_append _ [b] bs _

theorem addLanes_eq (fuel : Nat) (m : Mem) (data : Bytes) (i : Nat) (h : 8 * i + data.length ≤ 200) (hf : data.length ≤ fuel) :
    ∃ m', addLanes fuel m data i = .ok m' ∧ view m' = Spec.addBytes (view m) data (8 * i) := by
  induction fuel generalizing m data i with
  | zero =>
    have : data = [] := List.eq_nil_of_length_eq_zero (by omega)
    subst this
    exact ⟨m, rfl, (addBytes_nil _ _).symm⟩
  | succ fuel ih =>
    rw [addLanes]
    by_cases h8 : data.length ≥ 8
    · rw [if_pos h8]
      have hlen : (data.take 8).length = 8 := by rw [List.length_take]; omega
      obtain ⟨m1, e1, g1⟩ := xorq_eq m (data.take 8) (by omega) i (by omega)
      obtain ⟨m2, e2, g2⟩ := ih m1 (data.drop 8) (i + 1) (by rw [List.length_drop]; omega) (by rw [List.length_drop]; omega)
      refine ⟨m2, ?_, ?_⟩
      · rw [bindOk (mapAt_ok (by omega)), bindOk e1, e2]
      · have := addBytes_append (view m) (data.take 8) (data.drop 8) (8 * i)
        rw [hlen, List.take_append_drop] at this
        rw [g2, g1, ← this]
        rfl
    · rw [if_neg h8]
      by_cases h0 : data.length = 0
      · rw [if_pos h0, List.eq_nil_of_length_eq_zero h0]
        exact ⟨m, rfl, (addBytes_nil _ _).symm⟩
      · rw [if_neg h0]
        obtain ⟨m1, e1, g1⟩ := xorBytes_eq m data i 0 (by omega) (by omega)
        exact ⟨m1, by rw [bindOk (mapAt_ok (by omega))]; exact e1, g1⟩

theorem addBytes_eq (m : Mem) (data : Bytes) (offset : Nat) (h : offset + data.length ≤ 200) :
    ∃ m', addBytes m data offset = .ok m' ∧ view m' = Spec.addBytes (view m) data offset := by
  unfold addBytes
  by_cases h0 : data.length = 0
  · rw [if_pos h0, List.eq_nil_of_length_eq_zero h0]
    exact ⟨m, rfl, (addBytes_nil _ _).symm⟩
  rw [if_neg h0]
  by_cases h8 : offset % 8 = 0
  · rw [if_pos h8]
    obtain ⟨m1, e1, g1⟩ := addLanes_eq data.length m data (offset / 8) (by omega) le_rfl
    refine ⟨m1, e1, ?_⟩
    rw [g1]
    congr 1
    omega
  · rw [if_neg h8]
    simp only
    generalize hn : (if 8 - offset % 8 ≥ data.length then data.length else 8 - offset % 8) = n
    have hp : n ≤ data.length ∧ offset % 8 + n ≤ 8 ∧ (n = data.length ∨ offset % 8 + n = 8) := by
      subst hn
      split <;> omega
    obtain ⟨m1, e1, g1⟩ := xorBytes_eq m (data.take n) (offset / 8) (offset % 8) (by omega) (by rw [List.length_take]; omega)
    obtain ⟨m2, e2, g2⟩ := addLanes_eq data.length m1 (data.drop n) (offset / 8 + 1) (by rw [List.length_drop]; omega) (by rw [List.length_drop]; omega)
    refine ⟨m2, ?_, ?_⟩
    · rw [bindOk (mapAt_ok (by omega)), Nat.add_comm (offset % 8), bindOk e1, e2]
    · rw [g2, g1]
      rcases hp.2.2 with h1 | h1
      · subst h1
        rw [List.drop_length, List.take_length, addBytes_nil]
        congr 1
        omega
      · have := addBytes_append (view m) (data.take n) (data.drop n) (8 * (offset / 8) + offset % 8)
        rw [List.take_append_drop, List.length_take, Nat.min_eq_left hp.1] at this
        rw [show 8 * (offset / 8 + 1) = 8 * (offset / 8) + offset % 8 + n by omega, this]
        congr 1
        omega

/-! ## Reading -/

theorem movb_eq (m : Mem) (i off : Nat) (hi : i < 25) (h : off < 8) : movb m (mapState[i] + off) = .ok ((view m).getD (8 * i + off) 0) := by
  have h8 := map_mod hi
  have hl := map_lt hi
  have e1 : (mapState[i] + off) / 8 = mapState[i] / 8 := by omega
  have e2 : (mapState[i] + off) % 8 = off := by omega
  rw [view, view_getD _ _ (by omega), show (8 * i + off) / 8 = i by omega, show (8 * i + off) % 8 = off by omega]
  rw [lanesMem_getD m i hi]
  simp only [movb, e1, e2, dif_pos hl]

theorem extract_cons (s : St) (o n : Nat) : Spec.extractBytes s o (n + 1) = s.getD o 0 :: Spec.extractBytes s (o + 1) n := by
  rw [Nat.add_comm n 1, ← extract_append]
  rfl

theorem movBytes_eq (m : Mem) (n i off : Nat) (hi : i < 25) (h : off + n ≤ 8) : movBytes m n (mapState[i] + off) = .ok (Spec.extractBytes (view m) (8 * i + off) n) := by
  induction n generalizing off with
  | zero => rfl
  | succ n ih =>
    rw [movBytes, bindOk (movb_eq m i off hi (by omega)), Nat.add_assoc, bindOk (ih (off + 1) (by omega)), extract_cons]
    rfl

theorem lowBytes_eq (n : Nat) (w : W64) : lowBytes n w = (List.range n).map fun k => byteOf w k := by
  induction n generalizing w with
  | zero => rfl
  | succ n ih =>
    rw [lowBytes, ih, List.range_succ_eq_map, List.map_cons, List.map_map]
    refine List.cons_eq_cons.2 ⟨by simp [byteOf], List.map_congr_left fun k _ => ?_⟩
    show byteOf (w >>> 8) k = byteOf w (k + 1)
    rw [byteOf, byteOf, ← BitVec.shiftRight_add, show 8 * (k + 1) = 8 + 8 * k by omega]

theorem lowBytes_view (m : Mem) (i n : Nat) (hi : i < 25) (h : n ≤ 8) : lowBytes n (m[mapState[i] / 8]'(map_lt hi)) = Spec.extractBytes (view m) (8 * i) n := by
  rw [lowBytes_eq, Spec.extractBytes]
  refine List.map_congr_left fun k hk => ?_
  have := List.mem_range.1 hk
  rw [view, view_getD _ _ (by omega), show (8 * i + k) / 8 = i by omega, show (8 * i + k) % 8 = k by omega]
  rw [lanesMem_getD m i hi]

theorem movq_eq (m : Mem) (i : Nat) (hi : i < 25) : movq m mapState[i] = .ok (m[mapState[i] / 8]'(map_lt hi)) := dif_pos (map_lt hi)

theorem extractLanes_eq (m : Mem) (fuel i len : Nat) (h : 8 * i + len ≤ 200) (hf : len ≤ fuel) : extractLanes m fuel i len = .ok (Spec.extractBytes (view m) (8 * i) len) := by
  induction fuel generalizing i len with
  | zero =>
    have : len = 0 := by omega
    subst this
    rfl
  | succ fuel ih =>
    rw [extractLanes]
    by_cases h8 : len ≥ 8
    · rw [if_pos h8, bindOk (mapAt_ok (by omega)), bindOk (movq_eq m i (by omega)), bindOk (ih (i + 1) (len - 8) (by omega) (by omega)), lowBytes_view _ _ _ (by omega) le_rfl]
      have := extract_append (view m) (8 * i) 8 (len - 8)
      rw [Nat.add_sub_cancel' h8] at this
      rw [← this]
      rfl
    · rw [if_neg h8]
      by_cases h0 : len = 0
      · rw [if_pos h0, h0]
        rfl
      · rw [if_neg h0, bindOk (mapAt_ok (by omega)), bindOk (movq_eq m i (by omega)), lowBytes_view _ _ _ (by omega) (by omega)]

theorem extractBytes_eq (m : Mem) (offset len : Nat) (h : offset + len ≤ 200) : extractBytes m offset len = .ok (Spec.extractBytes (view m) offset len) := by
  unfold extractBytes
  by_cases h0 : len = 0
  · rw [if_pos h0, h0]
    rfl
  rw [if_neg h0]
  by_cases h8 : offset % 8 = 0
  · rw [if_pos h8, extractLanes_eq _ _ _ _ (by omega) le_rfl, show 8 * (offset / 8) = offset by omega]
  · rw [if_neg h8]
    simp only
    generalize hn : (if 8 - offset % 8 ≥ len then len else 8 - offset % 8) = n
    have hp : n ≤ len ∧ offset % 8 + n ≤ 8 ∧ (n = len ∨ offset % 8 + n = 8) := by
      subst hn
      split <;> omega
    rw [bindOk (mapAt_ok (by omega)), bindOk (movBytes_eq m n (offset / 8) (offset % 8) (by omega) hp.2.1), bindOk (extractLanes_eq _ _ _ _ (by omega) (by omega)),
      show 8 * (offset / 8) + offset % 8 = offset by omega]
    congr 1
    rcases hp.2.2 with h1 | h1
    · subst h1
      rw [Nat.sub_self]
      simp [Spec.extractBytes]
    · rw [show 8 * (offset / 8 + 1) = offset + n by omega, extract_append]
      congr 1
      omega

theorem view_permute (m : Mem) : view (permute m) = keccakF (view m) := by
  rw [view, permute_eq, view, keccakF, toLanes_ofLanes]

theorem view_init : view init = Vector.replicate 200 0 := by
  refine Vector.ext fun i hi => ?_
  rw [view, view_get _ _ hi, lanesMem_get]
  simp [init, byteOf]

/-! ## Fast loop -/

/-- Word `i` of the data. -/
def word (data : Bytes) (i : Nat) : W64 := le64 ((data.drop (8 * i)).take 8)

theorem load_eq (data : Bytes) (i : Nat) (h : 8 * i + 8 ≤ data.length) : load data (i * 8) = .ok (word data i) := by
  rw [Nat.mul_comm, load, if_pos h, word]

theorem lanesAddLoop_eq (m : Mem) (data : Bytes) (i k : Nat) (h : i + k ≤ 25) (hd : 8 * (i + k) ≤ data.length) :
    ∃ m', lanesAddLoop m data i k = .ok m' ∧ view m' = Spec.addBytes (view m) ((data.drop (8 * i)).take (8 * k)) (8 * i) := by
  induction k generalizing m i with
  | zero =>
    refine ⟨m, rfl, ?_⟩
    rw [Nat.mul_zero, List.take_zero, addBytes_nil]
  | succ k ih =>
    have hlen : ((data.drop (8 * i)).take 8).length = 8 := by rw [List.length_take, List.length_drop]; omega
    obtain ⟨m1, e1, g1⟩ := xorq_eq m ((data.drop (8 * i)).take 8) (by omega) i (by omega)
    obtain ⟨m2, e2, g2⟩ := ih m1 (i + 1) (by omega) (by omega)
    refine ⟨m2, ?_, ?_⟩
    · rw [lanesAddLoop, Nat.mul_comm, bindOk (load_eq data i (by omega)), bindOk (mapAt_ok (by omega)), word, bindOk e1, e2]
    · have := addBytes_append (view m) ((data.drop (8 * i)).take 8) ((data.drop (8 * (i + 1))).take (8 * k)) (8 * i)
      rw [hlen] at this
      rw [g2, g1, show 8 * (i + 1) = 8 * i + 8 by omega] at *
      rw [this]
      congr 1
      rw [← List.drop_drop, show 8 * (k + 1) = 8 + 8 * k by omega, List.take_add]

theorem div_step (len n : Nat) (h0 : 0 < n) (h : 8 * n ≤ len) : len / (8 * n) = (len - 8 * n) / (8 * n) + 1 := Nat.div_eq_sub_div (by omega) h

theorem lanesLoop_eq (n fuel : Nat) (m : Mem) (data : Bytes) (h0 : 0 < n) (h25 : n ≤ 25) (hd : n ≤ data.length / 8) (hf : data.length / 8 ≤ fuel) :
    ∃ m', lanesLoop n fuel m data (data.length / 8) = .ok (m', data.drop (data.length / (8 * n) * (8 * n))) ∧ view m' = absorbFull keccakF (8 * n) (data.length / (8 * n)) (view m) data := by
  induction fuel generalizing m data with
  | zero => omega
  | succ fuel ih =>
    obtain ⟨m1, e1, g1⟩ := lanesAddLoop_eq m data 0 n (by omega) (by omega)
    simp only [Nat.mul_zero, List.drop_zero] at g1
    have hq := div_step data.length n h0 (by omega)
    rw [lanesLoop, if_neg (by omega), bindOk e1]
    simp only
    rw [Nat.mul_comm n 8]
    have hl : (data.drop (8 * n)).length = data.length - 8 * n := List.length_drop
    by_cases hc : data.length / 8 - n < n
    · rw [if_pos hc]
      have hz : (data.length - 8 * n) / (8 * n) = 0 := Nat.div_eq_of_lt (by omega)
      rw [hz] at hq
      refine ⟨_, by rw [hq, Nat.zero_add, Nat.one_mul], ?_⟩
      rw [hq, absorbFull, absorbFull, view_permute, g1]
    · rw [if_neg hc]
      obtain ⟨m2, e2, g2⟩ := ih (permute m1) (data.drop (8 * n)) (by omega) (by omega)
      rw [hl, show (data.length - 8 * n) / 8 = data.length / 8 - n by omega] at e2
      refine ⟨m2, ?_, ?_⟩
      · rw [e2, List.drop_drop, hq]
        congr 3
        ring
      · rw [g2, hl, hq, absorbFull, view_permute, g1]

/-! ### Blocks of 21 and 17 lanes -/

theorem loadY_eq (data : Bytes) (i : Nat) (h : 8 * i + 32 ≤ data.length) :
    loadY data (i * 8) = .ok (mk (word data i) (word data (i + 1)) (word data (i + 2)) (word data (i + 3))) := by
  rw [loadY, bindOk (load_eq data i (by omega)), show i * 8 + 8 = (i + 1) * 8 by ring, bindOk (load_eq data (i + 1) (by omega)), show i * 8 + 16 = (i + 2) * 8 by ring,
    bindOk (load_eq data (i + 2) (by omega)), show i * 8 + 24 = (i + 3) * 8 by ring, bindOk (load_eq data (i + 3) (by omega))]
  congr 1
  funext l
  fin_cases l <;> rfl

theorem gather_eq (data : Bytes) (mask : Y) (a b c d : Nat) (ma mb mc md : Bool) (ha : (mask 0).msb = ma) (hb : (mask 1).msb = mb) (hc : (mask 2).msb = mc) (hd : (mask 3).msb = md)
    (la : ma = true → 8 * a + 8 ≤ data.length) (lb : mb = true → 8 * b + 8 ≤ data.length) (lc : mc = true → 8 * c + 8 ≤ data.length) (ld : md = true → 8 * d + 8 ≤ data.length) :
    gather data mask #v[a * 8, b * 8, c * 8, d * 8] zero = .ok (mk (if ma then word data a else 0) (if mb then word data b else 0) (if mc then word data c else 0) (if md then word data d else 0)) := by
  have g : ∀ (w : W64) (m : Bool) (k : Nat), w.msb = m → (m = true → 8 * k + 8 ≤ data.length) → gather1 data w (k * 8) 0 = .ok (if m then word data k else 0) := by
    intro w m k h1 h2
    rw [gather1, h1]
    cases m
    · rfl
    · exact load_eq data k (h2 rfl)
  have e0 := g _ _ _ ha la
  have e1 := g _ _ _ hb lb
  have e2 := g _ _ _ hc lc
  have e3 := g _ _ _ hd ld
  unfold gather
  refine (bindOk e0 _).trans ((bindOk e1 _).trans ((bindOk e2 _).trans ((bindOk e3 _).trans (congrArg Except.ok (funext fun l => ?_)))))
  fin_cases l <;> rfl

theorem absorbBlock21_eq (s : Regs) (h0 : ∀ l, s[0] l = s[0] 0) (data : Bytes) (h : 8 * 21 ≤ data.length) :
    ∃ s', absorbBlock ones mask3_21 mask4_21 mask5_21 mask6_21 s data = .ok s' ∧ lanesOf s' = addRange (lanesOf s) data 0 21 ∧ ∀ l, s'[0] l = s'[0] 0 := by
  have e0 := load_eq data 0 (by omega)
  have e1 := loadY_eq data 1 (by omega)
  have e2 := gather_eq data ones 10 20 5 15 true true true true (by decide) (by decide) (by decide) (by decide)
    (fun _ => by omega) (fun _ => by omega) (fun _ => by omega) (fun _ => by omega)
  have e3 := gather_eq data mask3_21 16 7 23 14 true true false true (by decide) (by decide) (by decide) (by decide)
    (fun _ => by omega) (fun _ => by omega) (fun h => absurd h (by decide)) (fun _ => by omega)
  have e4 := gather_eq data mask4_21 11 22 8 19 true false true true (by decide) (by decide) (by decide) (by decide)
    (fun _ => by omega) (fun h => absurd h (by decide)) (fun _ => by omega) (fun _ => by omega)
  have e5 := gather_eq data mask5_21 21 17 13 9 false true true true (by decide) (by decide) (by decide) (by decide)
    (fun h => absurd h (by decide)) (fun _ => by omega) (fun _ => by omega) (fun _ => by omega)
  have e6 := gather_eq data mask6_21 6 12 18 24 true true true false (by decide) (by decide) (by decide) (by decide)
    (fun _ => by omega) (fun _ => by omega) (fun _ => by omega) (fun h => absurd h (by decide))
  unfold absorbBlock
  refine ⟨_, (bindOk e0 _).trans ((bindOk e1 _).trans ((bindOk e2 _).trans ((bindOk e3 _).trans ((bindOk e4 _).trans ((bindOk e5 _).trans (bindOk e6 _)))))), ?_, ?_⟩
  · refine Vector.ext fun i hi => ?_
    simp only [addRange, Vector.getElem_ofFn, Fin.getElem_fin]
    interval_cases i <;> first | rfl | exact BitVec.xor_zero
  · intro l
    show s[0] l ^^^ _ = s[0] 0 ^^^ _
    rw [h0 l]

theorem absorbBlock17_eq (s : Regs) (h0 : ∀ l, s[0] l = s[0] 0) (data : Bytes) (h : 8 * 17 ≤ data.length) :
    ∃ s', absorbBlock mask2_17 mask3_17 mask4_17 mask5_17 mask6_17 s data = .ok s' ∧ lanesOf s' = addRange (lanesOf s) data 0 17 ∧ ∀ l, s'[0] l = s'[0] 0 := by
  have e0 := load_eq data 0 (by omega)
  have e1 := loadY_eq data 1 (by omega)
  have e2 := gather_eq data mask2_17 10 20 5 15 true false true true (by decide) (by decide) (by decide) (by decide)
    (fun _ => by omega) (fun h => absurd h (by decide)) (fun _ => by omega) (fun _ => by omega)
  have e3 := gather_eq data mask3_17 16 7 23 14 true true false true (by decide) (by decide) (by decide) (by decide)
    (fun _ => by omega) (fun _ => by omega) (fun h => absurd h (by decide)) (fun _ => by omega)
  have e4 := gather_eq data mask4_17 11 22 8 19 true false true false (by decide) (by decide) (by decide) (by decide)
    (fun _ => by omega) (fun h => absurd h (by decide)) (fun _ => by omega) (fun h => absurd h (by decide))
  have e5 := gather_eq data mask5_17 21 17 13 9 false false true true (by decide) (by decide) (by decide) (by decide)
    (fun h => absurd h (by decide)) (fun h => absurd h (by decide)) (fun _ => by omega) (fun _ => by omega)
  have e6 := gather_eq data mask6_17 6 12 18 24 true true false false (by decide) (by decide) (by decide) (by decide)
    (fun _ => by omega) (fun _ => by omega) (fun h => absurd h (by decide)) (fun h => absurd h (by decide))
  unfold absorbBlock
  refine ⟨_, (bindOk e0 _).trans ((bindOk e1 _).trans ((bindOk e2 _).trans ((bindOk e3 _).trans ((bindOk e4 _).trans ((bindOk e5 _).trans (bindOk e6 _)))))), ?_, ?_⟩
  · refine Vector.ext fun i hi => ?_
    simp only [addRange, Vector.getElem_ofFn, Fin.getElem_fin]
    interval_cases i <;> first | rfl | exact BitVec.xor_zero
  · intro l
    show s[0] l ^^^ _ = s[0] 0 ^^^ _
    rw [h0 l]

theorem blockLoop_eq (add : Regs → Bytes → M Regs) (n : Nat) (h0 : 0 < n)
    (ha : ∀ (s : Regs) (data : Bytes), (∀ l, s[0] l = s[0] 0) → 8 * n ≤ data.length → ∃ s', add s data = .ok s' ∧ lanesOf s' = addRange (lanesOf s) data 0 n ∧ ∀ l, s'[0] l = s'[0] 0)
    (fuel : Nat) (s : Regs) (hs : ∀ l, s[0] l = s[0] 0) (data : Bytes) (hd : n ≤ data.length / 8) (hf : data.length / 8 - n ≤ fuel) :
    ∃ s', blockLoop add n fuel s data (data.length / 8 - n) = .ok (s', data.drop (data.length / (8 * n) * (8 * n))) ∧
      ofLanes (lanesOf s') = absorbFull keccakF (8 * n) (data.length / (8 * n)) (ofLanes (lanesOf s)) data := by
  induction fuel generalizing s data with
  | zero =>
    obtain ⟨s1, e1, g1, c1⟩ := ha s data hs (by omega)
    have hq := div_step data.length n h0 (by omega)
    rw [Nat.div_eq_of_lt (show data.length - 8 * n < 8 * n by omega)] at hq
    rw [blockLoop, bindOk e1]
    simp only
    rw [if_pos (by omega), hq]
    refine ⟨_, by rw [Nat.zero_add, Nat.one_mul, Nat.mul_comm n 8], ?_⟩
    rw [absorbFull, absorbFull, (keccakF1600_eq s1 c1).1, g1, keccakF, ← view_addRange, toLanes_ofLanes]
  | succ fuel ih =>
    obtain ⟨s1, e1, g1, c1⟩ := ha s data hs (by omega)
    have hk := keccakF1600_eq s1 c1
    have hq := div_step data.length n h0 (by omega)
    have hl : (data.drop (8 * n)).length = data.length - 8 * n := List.length_drop
    have hv : ofLanes (lanesOf (keccakF1600 s1)) = keccakF (Spec.addBytes (ofLanes (lanesOf s)) (data.take (8 * n)) 0) := by
      rw [hk.1, g1, keccakF, ← view_addRange, toLanes_ofLanes]
    rw [blockLoop, bindOk e1]
    simp only
    rw [Nat.mul_comm n 8]
    by_cases hc : data.length / 8 - n < n
    · rw [Nat.div_eq_of_lt (show data.length - 8 * n < 8 * n by omega)] at hq
      rw [if_pos hc, hq]
      refine ⟨_, by rw [Nat.zero_add, Nat.one_mul], ?_⟩
      rw [absorbFull, absorbFull, hv]
    · rw [if_neg hc]
      obtain ⟨s2, e2, g2⟩ := ih (keccakF1600 s1) hk.2 (data.drop (8 * n)) (by omega) (by omega)
      rw [hl, show (data.length - 8 * n) / 8 - n = data.length / 8 - n - n by omega] at e2
      refine ⟨s2, ?_, ?_⟩
      · rw [e2, List.drop_drop, hq]
        congr 3
        ring
      · rw [g2, hl, hq, absorbFull, hv]

theorem fastLoopAbsorb_eq (m : Mem) (n : Nat) (data : Bytes) (h0 : 0 < n) (h : n ≤ 25) :
    ∃ m', fastLoopAbsorb m n data = .ok (m', data.length / (8 * n) * (8 * n)) ∧ view m' = absorbFull keccakF (8 * n) (data.length / (8 * n)) (view m) data := by
  have hlen : data.length - (data.drop (data.length / (8 * n) * (8 * n))).length = data.length / (8 * n) * (8 * n) := by
    have := Nat.div_mul_le_self data.length (8 * n)
    rw [List.length_drop]
    omega
  unfold fastLoopAbsorb
  simp only
  by_cases hc : data.length / 8 < n
  · rw [if_pos hc, Nat.div_eq_of_lt (show data.length < 8 * n by omega), Nat.zero_mul]
    exact ⟨m, rfl, rfl⟩
  rw [if_neg hc]
  have blk : ∀ (add : Regs → Bytes → M Regs)
      (ha : ∀ (s : Regs) (data : Bytes), (∀ l, s[0] l = s[0] 0) → 8 * n ≤ data.length → ∃ s', add s data = .ok s' ∧ lanesOf s' = addRange (lanesOf s) data 0 n ∧ ∀ l, s'[0] l = s'[0] 0),
      ∃ m', (blockLoop add n (data.length / 8) (loadState m) data (data.length / 8 - n) >>= fun r => (.ok (storeState r.1, data.length - r.2.length) : M (Mem × Nat))) =
          .ok (m', data.length / (8 * n) * (8 * n)) ∧ view m' = absorbFull keccakF (8 * n) (data.length / (8 * n)) (view m) data := by
    intro add ha
    obtain ⟨s', e, g⟩ := blockLoop_eq add n h0 ha (data.length / 8) (loadState m) (fun l => rfl) data (by omega) (by omega)
    refine ⟨storeState s', ?_, ?_⟩
    · rw [bindOk e]
      simp only [hlen]
    · rw [view, lanesMem_store, g, lanesOf_load, view]
  by_cases h21 : n = 21
  · subst h21
    rw [if_pos rfl]
    exact blk _ fun s data hs hd => absorbBlock21_eq s hs data hd
  rw [if_neg h21]
  by_cases h17 : n = 17
  · subst h17
    rw [if_pos rfl]
    exact blk _ fun s data hs hd => absorbBlock17_eq s hs data hd
  rw [if_neg h17]
  obtain ⟨m', e, g⟩ := lanesLoop_eq n (data.length / 8) m data h0 h (by omega) le_rfl
  refine ⟨m', ?_, g⟩
  rw [bindOk e]
  simp only [hlen]

theorem snp_ok : Snp keccakF snp view where
  init := view_init
  addByte := addByte_eq
  addBytes := addBytes_eq
  extractBytes s offset len h := extractBytes_eq s offset len (by omega)
  permute := view_permute
  fastLoop s n data := fastLoopAbsorb_eq s n data

end Banquet.Avx2
