import Verif.Proofs.SpongeSim
import Verif.Proofs.KeccakBits

/-! The sponge functions for any rate below 1600 bits and any delimited suffix. -/

namespace Banquet

open Spec

variable {f : St → St} {S : SnP} {view : S.State → St}

theorem absorbBlocks_sim (hS : Snp f S view) {rate : Nat} (hr : rate ≤ 200) (n : Nat) (s : S.State) (data : Bytes) :
    ∃ s', absorbBlocks S rate n s data = .ok s' ∧ view s' = absorbFull f rate n (view s) data := by
  induction n generalizing s data with
  | zero => exact ⟨s, rfl, rfl⟩
  | succ n ih =>
    obtain ⟨s1, e1, e2⟩ := hS.addBytes s (data.take rate) 0 (by rw [List.length_take]; omega)
    obtain ⟨s', e3, e4⟩ := ih (S.permute s1) (data.drop rate)
    refine ⟨s', ?_, ?_⟩
    · unfold absorbBlocks
      rw [bindOk e1, e3]
    · rw [e4, hS.permute, e2]
      rfl

/-- The absorbing loop, for rates that are not whole lanes as well. -/
theorem absorbLoop_any (hS : Snp f S view) (fuel : Nat) (s : Sponge S) (data : Bytes) (hr : s.rate < 200)
    (hi : s.idx < s.rate) (hl : Fits s.rate s.idx data.length) (hf : data.length ≤ fuel) :
    ∃ s', absorbLoop S fuel s data = .ok s' ∧ s'.abs view = Ideal.absorbLoop f fuel (s.abs view) data := by
  by_cases h8 : s.rate % 8 = 0
  · exact absorbLoop_sim hS fuel s data h8 hr hi hl hf
  induction fuel generalizing s data with
  | zero =>
    have : data = [] := List.eq_nil_of_length_eq_zero (by omega)
    subst this
    exact ⟨s, rfl, rfl⟩
  | succ fuel ih =>
    unfold absorbLoop Ideal.absorbLoop
    by_cases h0 : data = []
    · rw [if_pos h0, if_pos h0]
      exact ⟨s, rfl, rfl⟩
    · have hpos : 0 < data.length := List.length_pos_iff.2 h0
      rw [if_neg h0, if_neg h0]
      by_cases hc : s.idx = 0 ∧ s.rate ≤ data.length
      · rw [if_pos hc, if_pos (show (s.abs view).idx = 0 ∧ (s.abs view).rate ≤ data.length from hc), if_neg h8]
        obtain ⟨st, e1, e2⟩ := absorbBlocks_sim hS hr.le (data.length / s.rate) s.state data
        simp only
        rw [bindOk e1]
        have hn : 0 < data.length / s.rate * s.rate := Nat.mul_pos (Nat.div_pos hc.2 (by omega)) (by omega)
        obtain ⟨s', e3, e4⟩ := ih { s with state := st } (data.drop (data.length / s.rate * s.rate)) hr hi (.inl hc.1) (by rw [List.length_drop]; omega) h8
        refine ⟨s', e3, ?_⟩
        rw [e4, Sponge.abs, e2]
        rfl
      · rw [if_neg hc, if_neg (show ¬ ((s.abs view).idx = 0 ∧ (s.abs view).rate ≤ data.length) from hc), partialBlock_fits hi hr (by
          rcases hl with h | h
          · exact .inl (by omega)
          · exact h)]
        have ee : (s.abs view).idx = s.idx ∧ (s.abs view).rate = s.rate ∧ (s.abs view).state = view s.state := ⟨rfl, rfl, rfl⟩
        simp only
        rw [ee.1, ee.2.1, ee.2.2]
        generalize hpart : (if data.length + s.idx > s.rate then s.rate - s.idx else data.length) = part
        have hp : part ≤ data.length ∧ 0 < part ∧ s.idx + part ≤ s.rate := by
          subst hpart
          split <;> omega
        obtain ⟨st, e1, e2⟩ := hS.addBytes s.state (data.take part) s.idx (by rw [List.length_take]; omega)
        rw [bindOk e1]
        by_cases hfull : s.idx + part = s.rate
        · rw [if_pos hfull, if_pos hfull]
          obtain ⟨s', e3, e4⟩ := ih { s with state := S.permute st, idx := 0 } (data.drop part) hr (by simp only; omega) (.inl rfl) (by rw [List.length_drop]; omega) h8
          refine ⟨s', e3, ?_⟩
          rw [e4, Sponge.abs, hS.permute, e2]
          rfl
        · rw [if_neg hfull, if_neg hfull]
          obtain ⟨s', e3, e4⟩ := ih { s with state := st, idx := s.idx + part } (data.drop part) hr (by simp only; omega) (.inr (.inl (by
            have : part = data.length := by
              subst hpart
              split at hfull <;> simp_all
              omega
            rw [List.length_drop]
            simp only
            omega))) (by rw [List.length_drop]; omega) h8
          refine ⟨s', e3, ?_⟩
          rw [e4, Sponge.abs, e2]
          rfl

/-- The context after absorbing `msg`, for any rate and suffix. -/
def ctxR (f : St → St) (rate : Nat) (d : Byte) (msg : Bytes) : Ideal.Sponge :=
  let r := Ideal.feed f rate (Vector.replicate 200 0, 0) msg
  ⟨r.1, rate, r.2, false, d⟩

theorem updateR (hS : Snp f S view) {rate : Nat} (h0 : 0 < rate) (hr : rate < 200) {d : Byte} {msg : Bytes} {s : Sponge S} (h : s.abs view = ctxR f rate d msg) (data : Bytes) (hl : data.length + rate ≤ 2 ^ 32) :
    ∃ s', hashUpdate S s data = .ok s' ∧ s'.abs view = ctxR f rate d (msg ++ data) := by
  have hrate : s.rate = rate := congrArg Ideal.Sponge.rate h
  have hi : s.idx = (ctxR f rate d msg).idx := congrArg Ideal.Sponge.idx h
  have hq : s.squeezing = false := congrArg Ideal.Sponge.squeezing h
  have hlt : s.idx < rate := by rw [hi]; exact Ideal.feed_idx_lt f h0 _ (by simpa using h0) _
  obtain ⟨s', e1, e2⟩ := absorbLoop_any hS data.length s data (by omega) (by omega) (by rw [hrate]; exact fits_of_small hlt hl) le_rfl
  refine ⟨s', ?_, ?_⟩
  · rw [hashUpdate, if_neg (by rw [hq]; simp), e1]
  · rw [e2, Ideal.absorbLoop_eq f _ _ _ (show s.idx < s.rate by omega) le_rfl, h]
    unfold ctxR
    simp only [Ideal.feed_append]

theorem addByte_padR (d : Byte) (st : St) (i z : Nat) (hz : 1 ≤ z) (hle : i + z ≤ 200) :
    Spec.addBytes st (if z = 1 then [d ^^^ 0x80] else [d] ++ List.replicate (z - 2) 0 ++ [0x80]) i = Spec.addByte (Spec.addByte st d i) 0x80 (i + z - 1) := by
  apply Vector.ext
  intro j hj
  simp only [Spec.addByte, Spec.addBytes, Vector.getElem_ofFn, Fin.getElem_fin]
  by_cases h1 : z = 1
  · subst h1
    simp only [if_true, Nat.add_sub_cancel]
    by_cases h2 : i ≤ j
    · simp only [h2, if_true]
      rcases Nat.eq_zero_or_pos (j - i) with h3 | h3
      · rw [h3]
        simp only [List.getD_cons_zero]
        rw [BitVec.xor_assoc]
      · obtain ⟨k, hk⟩ : ∃ k, j - i = k + 1 := ⟨j - i - 1, by omega⟩
        rw [hk]; simp
    · simp only [h2, if_false]
  · simp only [h1, if_false]
    by_cases h2 : i ≤ j
    · obtain ⟨k, rfl⟩ : ∃ k, j = i + k := ⟨j - i, by omega⟩
      simp only [h2, if_true, Nat.add_sub_cancel_left]
      by_cases h3 : k = z - 1
      · subst h3
        rw [show i + z - 1 = i + (z - 1) by omega, if_pos le_rfl, Nat.sub_self]
        obtain ⟨m, hm⟩ : ∃ m, z = m + 2 := ⟨z - 2, by omega⟩
        subst hm
        simp [List.getD_eq_getElem?_getD]
      · have : ¬ i + z - 1 ≤ i + k ∨ z - 1 < k := by
          rcases Nat.lt_or_ge k (z - 1) with h | h
          · left; omega
          · right; omega
        rcases this with h4 | h4
        · rw [if_neg h4]
          cases k with
          | zero => simp
          | succ k =>
            have : k < z - 2 := by omega
            simp [List.getD_eq_getElem?_getD, List.getElem?_append, this]
        · rw [if_pos (show i + z - 1 ≤ i + k by omega)]
          have e1 : i + k - (i + z - 1) ≠ 0 := by omega
          obtain ⟨m, hm⟩ : ∃ m, i + k - (i + z - 1) = m + 1 := ⟨_, (Nat.succ_pred_eq_of_ne_zero e1).symm⟩
          obtain ⟨k', rfl⟩ : ∃ k', k = k' + 1 := ⟨k - 1, by omega⟩
          rw [hm]
          have : ¬ k' < z - 2 := by omega
          have h5 : k' - (z - 2) ≠ 0 := by omega
          obtain ⟨q, hq⟩ : ∃ q, k' - (z - 2) = q + 1 := ⟨_, (Nat.succ_pred_eq_of_ne_zero h5).symm⟩
          simp [List.getD_eq_getElem?_getD, List.getElem?_append, this, hq]
    · rw [if_neg h2, if_neg (show ¬ i + z - 1 ≤ j by omega), if_neg h2]

/-- A block of zeros with the last bit of the padding. -/
theorem addByte_padZ (st : St) (rate : Nat) : Spec.addBytes st (List.replicate (rate - 1) 0 ++ [0x80]) 0 = Spec.addByte st 0x80 (rate - 1) := by
  apply Vector.ext
  intro j hj
  simp only [Spec.addByte, Spec.addBytes, Vector.getElem_ofFn, Fin.getElem_fin, Nat.zero_le, if_true, Nat.sub_zero]
  rcases Nat.lt_trichotomy j (rate - 1) with h | h | h
  · rw [if_neg (by omega)]
    simp [List.getD_eq_getElem?_getD, List.getElem?_append, h]
  · subst h
    simp [List.getD_eq_getElem?_getD]
  · rw [if_pos (by omega)]
    obtain ⟨m, hm⟩ : ∃ m, j - (rate - 1) = m + 1 := ⟨j - (rate - 1) - 1, by omega⟩
    rw [hm]
    simp [List.getD_eq_getElem?_getD, List.getElem?_append, show ¬ j < rate - 1 by omega, hm]

theorem padWith_length (d : Byte) {rate : Nat} (h0 : 0 < rate) (msg : Bytes) : ∃ n, (padWith d rate msg).length = n * rate := by
  have h1 := Nat.mod_lt msg.length h0
  have h2 := Nat.div_add_mod msg.length rate
  have e : (msg.length / rate + 1) * rate = rate * (msg.length / rate) + rate := by ring
  have e' : (msg.length / rate + 2) * rate = rate * (msg.length / rate) + rate + rate := by ring
  unfold padWith
  simp only
  split
  · split
    · exact ⟨msg.length / rate + 2, by rw [e']; simp only [List.length_append, List.length_singleton, List.length_replicate]; omega⟩
    · exact ⟨msg.length / rate + 1, by rw [e]; simp only [List.length_append, List.length_singleton]; omega⟩
  · exact ⟨msg.length / rate + 1, by rw [e]; simp only [List.length_append, List.length_singleton, List.length_replicate]; omega⟩

/-- The state after message and padding. -/
def padded (f : St → St) (rate : Nat) (d : Byte) (msg : Bytes) : St := absorb f rate (padWith d rate msg)

theorem padded_eq {rate : Nat} (h0 : 0 < rate) (hr : rate ≤ 200) (d : Byte) (msg : Bytes) (st : St) (i : Nat) (h : Ideal.feed f rate (Vector.replicate 200 0, 0) msg = (st, i)) :
    f (Spec.addByte (if d ≥ 0x80 ∧ i = rate - 1 then f (Spec.addByte st d i) else Spec.addByte st d i) 0x80 (rate - 1)) = padded f rate d msg := by
  have hi := Ideal.feed_idx f h0 msg (Vector.replicate 200 0)
  rw [h] at hi
  simp only at hi
  have hlt := Nat.mod_lt msg.length h0
  obtain ⟨n, hn⟩ := padWith_length d h0 msg
  have hb := congrArg Prod.fst (Ideal.feed_blocks f h0 n _ hn (Vector.replicate 200 0))
  simp only at hb
  rw [padded, absorb, ← hb]
  unfold padWith
  simp only
  rw [Ideal.feed_append, h, ← hi]
  by_cases hz : rate - i = 1
  · rw [if_pos hz]
    by_cases h80 : d ≥ 0x80
    · rw [if_pos h80, if_pos ⟨h80, by omega⟩, Ideal.feed_append, Ideal.feed_fill f st i [d] (by rw [List.length_singleton]; omega) (by simp),
        Ideal.feed_fill f _ 0 _ (by rw [List.length_append, List.length_singleton, List.length_replicate]; omega) (by simp), addByte_padZ]
      congr 3
    · rw [if_neg h80, if_neg (fun c => h80 c.1), Ideal.feed_fill f _ _ _ (by rw [List.length_singleton]; omega) (by simp)]
      have := addByte_padR d st i 1 le_rfl (by omega)
      rw [if_pos rfl] at this
      rw [this]
      congr 2
      omega
  · rw [if_neg hz, if_neg (by omega), Ideal.feed_fill f _ _ _ (by simp only [List.length_append, List.length_singleton, List.length_replicate]; omega) (by simp)]
    have := addByte_padR d st i (rate - i) (by omega) (by omega)
    rw [if_neg hz] at this
    rw [this]
    congr 2
    omega

theorem lastR (hS : Snp f S view) {rate : Nat} (h0 : 0 < rate) (hr : rate < 200) {d : Byte} {msg : Bytes} {s : Sponge S} (h : s.abs view = ctxR f rate d msg) (e : Byte) (he : e ≠ 0) :
    ∃ s', absorbLast S s e = .ok s' ∧ s'.suffix = d ∧ Ideal.SqInv f (padded f rate e msg) rate 0 (s'.abs view) := by
  have hrate : s.rate = rate := congrArg Ideal.Sponge.rate h
  have hi : s.idx = (ctxR f rate d msg).idx := congrArg Ideal.Sponge.idx h
  have hlt : s.idx < rate := by rw [hi]; exact Ideal.feed_idx_lt f h0 _ (by simpa using h0) _
  obtain ⟨s', e1, e2⟩ := absorbLast_sim hS s (by omega) (by omega) e
  rw [h] at e2
  have e3 : Ideal.absorbLast f (ctxR f rate d msg) e = ⟨padded f rate e msg, rate, 0, true, d⟩ := by
    unfold Ideal.absorbLast ctxR
    rw [if_neg (fun c => c.elim he (by simp))]
    simp only
    rw [← padded_eq (f := f) h0 hr.le e msg _ _ rfl]
    rfl
  rw [e3] at e2
  refine ⟨s', e1, congrArg Ideal.Sponge.suffix e2, ?_⟩
  rw [e2]
  exact ⟨rfl, rfl, Nat.zero_le _, 0, rfl, by simp⟩

theorem padded_stream {rate : Nat} (h0 : 0 < rate) (d : Byte) (hd : d ≠ 0) (msg : Bytes) : squeezeStream f rate (padded f rate d msg) = sponge f (8 * rate) (bitsOf msg ++ suffixBits d) := by
  unfold sponge padded
  rw [pack_pad d hd rate h0, Nat.mul_div_cancel_left _ (by omega)]

/-! ## The last bits -/

theorem delim_low (v : BitVec 16) : v &&& 0xFF00 = 0 ↔ v.toNat < 256 := by
  constructor
  · intro h
    apply Nat.lt_pow_two_of_testBit (n := 8)
    intro i hi
    by_cases h16 : i < 16
    · have := congrArg (fun w => BitVec.getLsbD w i) h
      simp only [BitVec.getLsbD_and] at this
      have k : (0xFF00 : BitVec 16).getLsbD i = true := by interval_cases i <;> decide
      rw [k, Bool.and_true] at this
      exact this.trans (by simp)
    · exact BitVec.getLsbD_of_ge v i (by omega)
  · intro h
    apply BitVec.eq_of_getLsbD_eq
    intro i hi
    rw [BitVec.getLsbD_and]
    by_cases h8 : i < 8
    · have k : (0xFF00 : BitVec 16).getLsbD i = false := by interval_cases i <;> decide
      rw [k, Bool.and_false]; simp
    · have : v.getLsbD i = false := Nat.testBit_lt_two_pow (lt_of_lt_of_le h (show 2 ^ 8 ≤ 2 ^ i from Nat.pow_le_pow_right (by omega) (by omega)))
      rw [this]; simp

theorem delim_log2 (l d : Byte) (hd : d ≠ 0) (n : Nat) (hn : n < 8) : Nat.log2 (delimitedLast l d n).toNat = n + Nat.log2 d.toNat ∧ (delimitedLast l d n).toNat ≠ 0 := by
  have hd0 : d.toNat ≠ 0 := fun c => hd (BitVec.eq_of_toNat_eq c)
  have hm : l.toNat % 2 ^ n < 2 ^ n := Nat.mod_lt _ (by positivity)
  have e : (delimitedLast l d n).toNat = l.toNat % 2 ^ n + 2 ^ n * d.toNat := by
    rw [delim_toNat l d n hn, Nat.or_comm, Nat.shiftLeft_eq, Nat.mul_comm d.toNat, ← Nat.two_pow_add_eq_or_of_lt hm, Nat.add_comm]
  have h1 := Nat.log2_self_le hd0
  have h2 := Nat.lt_log2_self (n := d.toNat)
  have hne : (delimitedLast l d n).toNat ≠ 0 := by
    rw [e]
    have : 0 < 2 ^ n * d.toNat := Nat.mul_pos (by positivity) (by omega)
    omega
  refine ⟨(Nat.log2_eq_iff hne).2 ⟨?_, ?_⟩, hne⟩
  · rw [e, Nat.pow_add]
    have := Nat.mul_le_mul_left (2 ^ n) h1
    omega
  · rw [e, Nat.add_assoc, Nat.pow_add]
    have := Nat.mul_le_mul_left (2 ^ n) (show d.toNat + 1 ≤ 2 ^ (Nat.log2 d.toNat + 1) from h2)
    rw [Nat.mul_add] at this
    omega

theorem delim_bits (l d : Byte) (n : Nat) (hn : n < 8) : lowBits l n ++ suffixBits d = (List.range (n + Nat.log2 d.toNat)).map fun i => (delimitedLast l d n).getLsbD i := by
  rw [List.range_add, List.map_append, List.map_map, lowBits, suffixBits, lowBits]
  congr 1
  · apply List.map_congr_left
    intro i hi
    rw [delim_bit l d n hn, if_pos (List.mem_range.1 hi)]
  · apply List.map_congr_left
    intro i hi
    simp only [Function.comp]
    rw [delim_bit l d n hn, if_neg (by omega), Nat.add_sub_cancel_left]

theorem delim_one (l d : Byte) (hd : d ≠ 0) (n : Nat) (hn : n < 8) (h : delimitedLast l d n &&& 0xFF00 = 0) :
    lowBits l n ++ suffixBits d = suffixBits ((delimitedLast l d n).setWidth 8) ∧ (delimitedLast l d n).setWidth 8 ≠ 0 := by
  have hv := (delim_low _).1 h
  obtain ⟨hlog, hne⟩ := delim_log2 l d hd n hn
  have e : ((delimitedLast l d n).setWidth 8).toNat = (delimitedLast l d n).toNat := by rw [BitVec.toNat_setWidth, Nat.mod_eq_of_lt hv]
  refine ⟨?_, fun c => hne (by rw [← e, c]; rfl)⟩
  rw [delim_bits l d n hn, suffixBits, lowBits, e, hlog]
  apply List.map_congr_left
  intro i hi
  have h8 : i < 8 := by
    have := log2_lt ((delimitedLast l d n).setWidth 8)
    rw [e, hlog] at this
    have := List.mem_range.1 hi
    omega
  rw [BitVec.getLsbD_setWidth]
  simp [h8]

theorem delim_two (l d : Byte) (hd : d ≠ 0) (n : Nat) (hn : n < 8) (h : ¬ delimitedLast l d n &&& 0xFF00 = 0) :
    lowBits l n ++ suffixBits d = bitsOf [(delimitedLast l d n).setWidth 8] ++ suffixBits ((delimitedLast l d n >>> 8).setWidth 8) ∧ (delimitedLast l d n >>> 8).setWidth 8 ≠ (0 : Byte) := by
  have hv : ¬ (delimitedLast l d n).toNat < 256 := fun c => h ((delim_low _).2 c)
  obtain ⟨hlog, hne⟩ := delim_log2 l d hd n hn
  have hlt := (delimitedLast l d n).isLt
  have e : ((delimitedLast l d n >>> 8).setWidth 8 : Byte).toNat = (delimitedLast l d n).toNat / 256 := by
    rw [BitVec.toNat_setWidth, BitVec.toNat_ushiftRight, Nat.shiftRight_eq_div_pow, Nat.mod_eq_of_lt (by omega)]
  have hge : 8 ≤ n + Nat.log2 d.toNat := by
    rw [← hlog]
    exact (Nat.le_log2 hne).2 (by omega)
  have hlog' : Nat.log2 ((delimitedLast l d n).toNat / 256) = n + Nat.log2 d.toNat - 8 := by
    obtain ⟨a, b⟩ := (Nat.log2_eq_iff hne).1 hlog
    obtain ⟨k, hk⟩ : ∃ k, n + Nat.log2 d.toNat = k + 8 := ⟨n + Nat.log2 d.toNat - 8, by omega⟩
    rw [hk] at a b ⊢
    rw [Nat.add_sub_cancel]
    refine (Nat.log2_eq_iff (by omega)).2 ⟨?_, ?_⟩
    · rw [Nat.pow_add] at a
      omega
    · rw [show k + 8 + 1 = k + 1 + 8 by omega, Nat.pow_add] at b
      omega
  refine ⟨?_, fun c => ?_⟩
  · rw [delim_bits l d n hn, suffixBits, lowBits, e, hlog']
    obtain ⟨k, hk⟩ : ∃ k, n + Nat.log2 d.toNat = 8 + k := ⟨n + Nat.log2 d.toNat - 8, by omega⟩
    have hk8 : k < 8 := by
      have := log2_lt d
      omega
    rw [hk, Nat.add_sub_cancel_left, List.range_add, List.map_append, List.map_map]
    congr 1
    · simp only [bitsOf, List.flatMap_cons, List.flatMap_nil, List.append_nil]
      apply List.map_congr_left
      intro i hi
      have := List.mem_range.1 hi
      rw [BitVec.getLsbD_setWidth]
      simp [this]
    · apply List.map_congr_left
      intro i hi
      have := List.mem_range.1 hi
      simp only [Function.comp]
      rw [BitVec.getLsbD_setWidth, BitVec.getLsbD_ushiftRight]
      simp [show i < 8 by omega]
  · have : (delimitedLast l d n).toNat / 256 = 0 := by rw [← e, c]; rfl
    omega

/-! ## The functions of KeccakHash.c -/

theorem updateBits (hS : Snp f S view) {rate : Nat} (h0 : 0 < rate) (hr : rate < 200) {d : Byte} (hd : d ≠ 0) {msg : Bytes} {h : HashInst S} (hc : h.sponge.abs view = ctxR f rate d msg) (data : Bytes) (n : Nat)
    (hn : n ≤ 8 * data.length) (hl : n / 8 + rate ≤ 2 ^ 32) :
    ∃ h' d' msg', hashUpdateBits S h data n = .ok (h', true) ∧ h'.fixedBits = h.fixedBits ∧ h'.sponge.abs view = ctxR f rate d' msg' ∧ d' ≠ 0 ∧
      bitsOf msg' ++ suffixBits d' = bitsOf msg ++ (bitsOf data).take n ++ suffixBits d ∧ (n % 8 = 0 → d' = d ∧ msg' = msg ++ data.take (n / 8)) := by
  have hq : h.sponge.squeezing = false := congrArg Ideal.Sponge.squeezing hc
  have hlen : (data.take (n / 8)).length = n / 8 := by rw [List.length_take]; omega
  obtain ⟨s1, e1, e2⟩ := updateR hS h0 hr hc (data.take (n / 8)) (by rw [hlen]; exact hl)
  have hs1 : s1.suffix = d := congrArg Ideal.Sponge.suffix e2
  have hbits : (bitsOf data).take n = bitsOf (data.take (n / 8)) ++ (bitsOf (data.drop (n / 8))).take (n % 8) := by
    conv_lhs => rw [← List.take_append_drop (n / 8) data, bitsOf_append]
    rw [List.take_append, bitsOf_length, hlen, List.take_of_length_le (by rw [bitsOf_length, hlen]; omega), show n - 8 * (n / 8) = n % 8 by omega]
  unfold hashUpdateBits
  rw [if_neg (by rw [hq]; simp), if_neg (by omega), bindOk e1]
  by_cases h8 : n % 8 = 0
  · rw [if_pos h8]
    refine ⟨{ h with sponge := s1 }, d, msg ++ data.take (n / 8), rfl, rfl, e2, hd, ?_, fun _ => ⟨rfl, rfl⟩⟩
    rw [hbits, h8, List.take_zero, List.append_nil, bitsOf_append]
  · have hi : n / 8 < data.length := by omega
    rw [if_neg h8, List.getElem?_eq_getElem hi]
    simp only
    have hlow : (bitsOf (data.drop (n / 8))).take (n % 8) = lowBits data[n / 8] (n % 8) := by
      have : ∀ (x : Byte) (l : Bytes), bitsOf (x :: l) = ((List.range 8).map fun i => x.getLsbD i) ++ bitsOf l := fun x l => by simp [bitsOf]
      rw [List.drop_eq_getElem_cons hi, this, List.take_append_of_le_length (by simp; omega), ← List.map_take, List.take_range, Nat.min_eq_left (by omega)]
      rfl
    rw [hs1]
    by_cases hv : delimitedLast data[n / 8] d (n % 8) &&& 0xFF00 = 0
    · rw [if_pos hv]
      obtain ⟨b1, b2⟩ := delim_one data[n / 8] d hd (n % 8) (by omega) hv
      refine ⟨_, (delimitedLast data[n / 8] d (n % 8)).setWidth 8, msg ++ data.take (n / 8), rfl, rfl, ?_, b2, ?_, fun c => absurd c h8⟩
      · have := congrArg (fun s : Ideal.Sponge => { s with suffix := (delimitedLast data[n / 8] d (n % 8)).setWidth 8 }) e2
        exact this
      · rw [← b1, hbits, hlow, bitsOf_append]
        simp only [List.append_assoc]
    · rw [if_neg hv]
      obtain ⟨b1, b2⟩ := delim_two data[n / 8] d hd (n % 8) (by omega) hv
      obtain ⟨s2, e3, e4⟩ := updateR hS h0 hr e2 [(delimitedLast data[n / 8] d (n % 8)).setWidth 8] (by simp; omega)
      rw [bindOk e3]
      refine ⟨_, (delimitedLast data[n / 8] d (n % 8) >>> 8).setWidth 8, msg ++ data.take (n / 8) ++ [(delimitedLast data[n / 8] d (n % 8)).setWidth 8], rfl, rfl, ?_, b2, ?_, fun c => absurd c h8⟩
      · have := congrArg (fun s : Ideal.Sponge => { s with suffix := (delimitedLast data[n / 8] d (n % 8) >>> 8).setWidth 8 }) e4
        exact this
      · rw [bitsOf_append, List.append_assoc, ← b1, hbits, hlow, bitsOf_append]
        simp only [List.append_assoc]

theorem finalR (hS : Snp f S view) {rate : Nat} (h0 : 0 < rate) (hr : rate < 200) {d : Byte} (hd : d ≠ 0) {msg : Bytes} {h : HashInst S} (hc : h.sponge.abs view = ctxR f rate d msg) (hl : h.fixedBits / 8 + rate ≤ 2 ^ 32) :
    ∃ h', hashFinalFixed S h = .ok (h', some ((sponge f (8 * rate) (bitsOf msg ++ suffixBits d)).squeeze 0 (h.fixedBits / 8))) ∧
      Ideal.SqInv f (padded f rate d msg) rate (h.fixedBits / 8) (h'.sponge.abs view) := by
  have hq : h.sponge.squeezing = false := congrArg Ideal.Sponge.squeezing hc
  have hs : h.sponge.suffix = d := congrArg Ideal.Sponge.suffix hc
  obtain ⟨s1, e1, -, e2⟩ := lastR hS h0 hr hc d hd
  obtain ⟨s2, e3, e4⟩ := hashSqueeze_sim hS _ s1 (h.fixedBits / 8) h0 hr e2 hl
  refine ⟨{ h with sponge := s2 }, ?_, by rw [Nat.zero_add] at e4; exact e4⟩
  unfold hashFinalFixed
  rw [hs, if_neg (fun c => c.elim hd (by rw [hq]; simp)), bindOk e1, bindOk e3, padded_stream h0 d hd]

/-! ## In one call -/

theorem spongeOut_eq (hS : Snp f S view) {rate : Nat} (h0 : 0 < rate) (hr : rate < 200) (T : St) (fuel k : Nat) (st : S.State) (hst : view st = f^[k] T) (len : Nat) (hf : len ≤ fuel) :
    spongeOut S rate fuel st len = .ok ((squeezeStream f rate T).squeeze (k * rate) len) := by
  have base : ∀ (k : Nat) (st : S.State), view st = f^[k] T → ∀ m ≤ rate, S.extractBytes st 0 m = .ok ((squeezeStream f rate T).squeeze (k * rate) m) := fun k st hst m hm => by
    rw [hS.extractBytes st 0 m (by omega), hst, Ideal.extract_eq f (rate := rate) T k 0 m (by omega), Nat.add_zero]
  induction fuel generalizing k st len with
  | zero =>
    unfold spongeOut
    rw [if_neg (by omega), Nat.mod_eq_of_lt (by omega)]
    exact base k st hst len (by omega)
  | succ fuel ih =>
    unfold spongeOut
    by_cases h : len > rate
    · rw [if_pos h, bindOk (base k st hst rate le_rfl), bindOk (ih (k + 1) (S.permute st) (by rw [hS.permute, hst, Function.iterate_succ_apply']) (len - rate) (by omega)), Nat.succ_mul, Ideal.squeeze_add,
        show rate + (len - rate) = len by omega]
    · rw [if_neg h, Nat.mod_eq_of_lt (by omega)]
      exact base k st hst len (by omega)

theorem absorbFull_drop {rate : Nat} (n m : Nat) (s : St) (data : Bytes) : absorbFull f rate m (absorbFull f rate n s data) (data.drop (n * rate)) = absorbFull f rate (n + m) s data := by
  induction n generalizing s data with
  | zero => simp [absorbFull]
  | succ n ih =>
    rw [show n + 1 + m = n + m + 1 by omega, absorbFull, absorbFull, ← ih, List.drop_drop, Nat.succ_mul, Nat.add_comm rate]

theorem oneCall (hS : Snp f S view) {R : Nat} (h0 : 0 < R) (hr : R < 200) {d : Byte} (hd : d ≠ 0) (capacity : Nat) (hcap : 8 * R + capacity = 1600) (input : Bytes) (len : Nat) :
    spongeOneCall S (8 * R) capacity input d len = .ok (some ((sponge f (8 * R) (bitsOf input ++ suffixBits d)).squeeze 0 len)) := by
  have hbad : badRate (8 * R) capacity = false := by
    unfold badRate
    simp
    omega
  unfold spongeOneCall
  rw [hbad, if_neg (by simp), if_neg hd, Nat.mul_div_cancel_left _ (by omega)]
  simp only
  -- the fast loop
  have hfast : ∃ st n, spongeFast S R input = .ok (st, n * R) ∧ n ≤ input.length / R ∧
      view st = absorbFull f R n (Vector.replicate 200 0) input := by
    unfold spongeFast
    by_cases hc : R % 8 = 0 ∧ R ≤ input.length
    · obtain ⟨st, e1, e2⟩ := hS.fastLoop S.init (R / 8) input (by omega) (by omega)
      rw [Nat.mul_div_cancel' (Nat.dvd_of_mod_eq_zero hc.1)] at e1 e2
      exact ⟨st, input.length / R, by rw [if_pos hc, e1], le_rfl, by rw [e2, hS.init]⟩
    · exact ⟨S.init, 0, by rw [if_neg hc, Nat.zero_mul], Nat.zero_le _, hS.init⟩
  obtain ⟨st, n, e1, hn, e2⟩ := hfast
  rw [bindOk e1]
  simp only
  have hdm := Nat.div_add_mod input.length R
  have hlt := Nat.mod_lt input.length h0
  have hdl : (input.drop (n * R)).length / R = input.length / R - n := by
    rw [List.length_drop, Nat.mul_comm n R, Nat.sub_mul_div]
  rw [hdl]
  obtain ⟨st1, e3, e4⟩ := absorbBlocks_sim hS hr.le (input.length / R - n) st (input.drop (n * R))
  rw [bindOk e3, List.drop_drop, ← Nat.add_mul, Nat.add_sub_cancel' hn]
  rw [e2, absorbFull_drop, Nat.add_sub_cancel' hn] at e4
  have hrest : (input.drop (input.length / R * R)).length = input.length % R := by
    rw [List.length_drop, Nat.mul_comm]
    omega
  rw [hrest, Nat.mod_eq_of_lt (show input.length % R < 2 ^ 32 by omega), List.take_of_length_le (by rw [hrest])]
  have hfeed : Ideal.feed f R (Vector.replicate 200 0, 0) input = (Spec.addBytes (view st1) (input.drop (input.length / R * R)) 0, input.length % R) := by
    conv_lhs => rw [← List.take_append_drop (input.length / R * R) input]
    rw [Ideal.feed_append, Ideal.absorbBlocks_eq f h0 _ _ _ (Nat.div_mul_le_self _ _), ← e4, Ideal.feed_short f _ _ _ (by rw [hrest]; omega), hrest, Nat.zero_add]
  obtain ⟨st2, e5, e6⟩ := hS.addBytes st1 (input.drop (input.length / R * R)) 0 (by rw [hrest]; omega)
  obtain ⟨st3, e7, e8⟩ := hS.addByte st2 d (input.length % R) (by omega)
  rw [bindOk e5, bindOk e7]
  generalize hs4 : (if d ≥ 0x80 ∧ input.length % R = R - 1 then S.permute st3 else st3) = st4
  obtain ⟨st5, e9, e10⟩ := hS.addByte st4 0x80 (R - 1) (by omega)
  rw [bindOk e9]
  have hv : view (S.permute st5) = padded f R d input := by
    rw [← padded_eq (f := f) h0 hr.le d input _ _ hfeed, hS.permute, e10, ← hs4]
    congr 2
    split
    · rw [hS.permute, e8, e6]
    · rw [e8, e6]
  rw [bindOk (spongeOut_eq hS h0 hr (padded f R d input) len 0 _ (by rw [hv]; rfl) len le_rfl), padded_stream h0 d hd, Nat.zero_mul]

end Banquet
