import Verif.Proofs.SpongeIdeal
import Mathlib.Tactic.Ring
import Mathlib.Tactic.Linarith
import Mathlib.Data.List.Induction

/-! The incremental sponge against the sponge construction; the 4-way sponge against the single one. -/

namespace Banquet.Ideal

open Spec

variable (f : KState → KState)

/-- Absorbing one byte at a time. -/
def feed1 (rate : Nat) (st : KState × Nat) (b : Byte) : KState × Nat :=
  if st.2 + 1 = rate then (f (addByte st.1 b st.2), 0) else (addByte st.1 b st.2, st.2 + 1)

def feed (rate : Nat) (st : KState × Nat) (data : Bytes) : KState × Nat := data.foldl (feed1 f rate) st

theorem feed_append (rate : Nat) (st : KState × Nat) (a b : Bytes) : feed f rate st (a ++ b) = feed f rate (feed f rate st a) b := List.foldl_append

theorem feed_idx_lt {rate : Nat} (hr : 0 < rate) (st : KState × Nat) (h : st.2 < rate) (data : Bytes) : (feed f rate st data).2 < rate := by
  induction data generalizing st with
  | nil => exact h
  | cons b bs ih =>
    apply ih
    unfold feed1
    split
    · exact hr
    · simp only; omega

theorem addBytes_nil (s : KState) (i : Nat) : addBytes s [] i = s := by
  apply Vector.ext
  intro j hj
  simp [addBytes]

theorem addBytes_cons (s : KState) (b : Byte) (bs : Bytes) (i : Nat) : addBytes (addByte s b i) bs (i + 1) = addBytes s (b :: bs) i := by
  apply Vector.ext
  intro j hj
  simp only [addBytes, addByte, Vector.getElem_ofFn, Fin.getElem_fin]
  by_cases h1 : i + 1 ≤ j
  · rw [if_pos h1, if_pos (by omega), if_pos (by omega)]
    obtain ⟨k, rfl⟩ : ∃ k, j = i + 1 + k := ⟨j - (i + 1), by omega⟩
    have e1 : i + 1 + k - i = k + 1 := by omega
    have e2 : i + 1 + k - (i + 1) = k := by omega
    simp only [e1, e2, List.getD_cons_succ, List.getD_nil]
    simp
  · rw [if_neg h1]
    by_cases h2 : i ≤ j
    · have : j = i := by omega
      subst this
      simp
    · rw [if_neg h2, if_neg h2]

/-- A piece that does not fill the block. -/
theorem feed_short {rate : Nat} (st : KState) (i : Nat) (data : Bytes) (h : i + data.length < rate) :
    feed f rate (st, i) data = (addBytes st data i, i + data.length) := by
  induction data generalizing st i with
  | nil => simp [feed, addBytes_nil]
  | cons b bs ih =>
    rw [List.length_cons] at h
    show feed f rate (feed1 f rate (st, i) b) bs = _
    rw [feed1, if_neg (by simp only; omega)]
    simp only
    rw [ih _ _ (by omega), addBytes_cons, List.length_cons]
    congr 1; omega

/-- A piece that fills the block exactly. -/
theorem feed_fill {rate : Nat} (st : KState) (i : Nat) (data : Bytes) (h : i + data.length = rate) (hne : data ≠ []) :
    feed f rate (st, i) data = (f (addBytes st data i), 0) := by
  induction data generalizing st i with
  | nil => exact absurd rfl hne
  | cons b bs ih =>
    rw [List.length_cons] at h
    show feed f rate (feed1 f rate (st, i) b) bs = _
    by_cases hb : bs = []
    · subst hb
      rw [feed1, if_pos (by simpa using h)]
      rfl
    · have : 0 < bs.length := List.length_pos_iff.2 hb
      rw [feed1, if_neg (by simp only; omega)]
      simp only
      rw [ih _ _ (by omega) hb, addBytes_cons]

theorem absorbBlocks_eq {rate : Nat} (hr : 0 < rate) (n : Nat) (st : KState) (data : Bytes) (h : n * rate ≤ data.length) :
    feed f rate (st, 0) (data.take (n * rate)) = (absorbFull f rate n st data, 0) := by
  induction n generalizing st data with
  | zero => simp [feed, absorbFull]
  | succ n ih =>
    have e : (n + 1) * rate = rate + n * rate := by ring
    rw [e] at h
    rw [e, List.take_add, feed_append, feed_fill f st 0 _ (by rw [List.length_take]; omega) (by
      intro hc
      have := congrArg List.length hc
      rw [List.length_take, List.length_nil] at this
      omega), ih _ _ (by rw [List.length_drop]; omega)]
    rfl

/-- The absorbing loop is byte-wise absorbing. -/
theorem absorbLoop_eq (fuel : Nat) (s : Sponge) (data : Bytes) (hi : s.idx < s.rate) (hf : data.length ≤ fuel) :
    absorbLoop f fuel s data = { s with state := (feed f s.rate (s.state, s.idx) data).1, idx := (feed f s.rate (s.state, s.idx) data).2 } := by
  induction fuel generalizing s data with
  | zero =>
    have : data = [] := List.length_eq_zero_iff.1 (by omega)
    subst this
    rfl
  | succ fuel ih =>
    unfold absorbLoop
    by_cases h0 : data = []
    · subst h0; rfl
    · rw [if_neg h0]
      have hlen : 0 < data.length := List.length_pos_iff.2 h0
      by_cases h1 : s.idx = 0 ∧ s.rate ≤ data.length
      · rw [if_pos h1]
        have hn : 0 < data.length / s.rate := Nat.div_pos h1.2 (by omega)
        have hle : data.length / s.rate * s.rate ≤ data.length := Nat.div_mul_le_self _ _
        have hpos : 0 < data.length / s.rate * s.rate := Nat.mul_pos hn (by omega)
        simp only
        rw [ih _ _ (by simpa using hi) (by rw [List.length_drop]; omega)]
        simp only
        have e := absorbBlocks_eq f (by omega : 0 < s.rate) (data.length / s.rate) s.state data hle
        have e2 : feed f s.rate (s.state, s.idx) data = feed f s.rate (absorbFull f s.rate (data.length / s.rate) s.state data, 0) (data.drop (data.length / s.rate * s.rate)) := by
          conv_lhs => rw [← List.take_append_drop (data.length / s.rate * s.rate) data]
          rw [feed_append, h1.1, e]
        rw [e2, h1.1]
      · rw [if_neg h1]
        simp only
        by_cases h2 : data.length + s.idx > s.rate
        · rw [if_pos h2, if_pos (by omega), ih _ _ (by simp only; omega) (by rw [List.length_drop]; omega)]
          simp only
          have e2 : feed f s.rate (s.state, s.idx) data = feed f s.rate (f (addBytes s.state (data.take (s.rate - s.idx)) s.idx), 0) (data.drop (s.rate - s.idx)) := by
            conv_lhs => rw [← List.take_append_drop (s.rate - s.idx) data]
            rw [feed_append, feed_fill f s.state s.idx (data.take (s.rate - s.idx)) (by rw [List.length_take]; omega) (by
              intro hc
              have := congrArg List.length hc
              rw [List.length_take, List.length_nil] at this
              omega)]
          rw [e2]
        · rw [if_neg h2]
          by_cases h3 : s.idx + data.length = s.rate
          · rw [if_pos h3, ih _ _ (by simp only; omega) (by rw [List.length_drop]; omega)]
            rw [List.take_length, List.drop_length, feed_fill f _ _ _ h3 h0]
            rfl
          · rw [if_neg h3, List.take_length, List.drop_length, ih _ _ (show s.idx + data.length < s.rate by omega) (by simp),
              feed_short f s.state s.idx data (by omega)]
            rfl

/-- The context after absorbing `msg`. -/
def ctx (k : ShakeKind) (msg : Bytes) : Sponge :=
  let r := feed f (kindRate k) (Vector.replicate 200 0, 0) msg
  ⟨r.1, kindRate k, r.2, false, 0x1F⟩

theorem kindRate_pos (k : ShakeKind) : 2 ≤ kindRate k ∧ kindRate k ≤ 200 := by cases k <;> decide

theorem hashUpdate_ctx (k : ShakeKind) (msg data : Bytes) : hashUpdate f (ctx f k msg) data = ctx f k (msg ++ data) := by
  have hr := kindRate_pos k
  rw [hashUpdate, if_neg (by simp [ctx]), absorbLoop_eq f _ _ _ (feed_idx_lt f (by omega) _ (by simp only; omega) _) le_rfl]
  unfold ctx
  simp only [feed_append]

theorem updates_ctx (k : ShakeKind) (chunks : List Bytes) (msg : Bytes) : chunks.foldl (hashUpdate f) (ctx f k msg) = ctx f k (msg ++ chunks.flatten) := by
  induction chunks generalizing msg with
  | nil => simp
  | cons c cs ih => rw [List.foldl_cons, hashUpdate_ctx, ih, List.flatten_cons, List.append_assoc]

/-! ## Padding -/

theorem feed_idx {rate : Nat} (hr : 0 < rate) (msg : Bytes) (st : KState) : (feed f rate (st, 0) msg).2 = msg.length % rate := by
  induction msg using List.reverseRecOn with
  | nil => simp [feed, Nat.mod_eq_of_lt hr]
  | append_singleton l b ih =>
    rw [feed_append]
    generalize hp : feed f rate (st, 0) l = p at ih
    show (feed1 f rate p b).2 = _
    rw [List.length_append, List.length_singleton]
    have hlt := Nat.mod_lt l.length hr
    unfold feed1
    split
    · rename_i h
      rw [ih] at h
      simp only
      have : l.length + 1 = rate * (l.length / rate + 1) := by
        have := Nat.div_add_mod l.length rate
        calc l.length + 1 = rate * (l.length / rate) + (l.length % rate + 1) := by omega
          _ = _ := by rw [h]; ring
      rw [this, Nat.mul_mod_right]
    · rename_i h
      rw [ih] at h
      simp only [ih]
      rw [← Nat.mod_add_mod, Nat.mod_eq_of_lt (by omega : l.length % rate + 1 < rate)]

theorem feed_blocks {rate : Nat} (hr : 0 < rate) (n : Nat) (bs : Bytes) (h : bs.length = n * rate) (st : KState) :
    feed f rate (st, 0) bs = ((blocks rate bs).foldl (fun s b => f (xorBlock s b)) st, 0) := by
  induction n generalizing bs st with
  | zero =>
    have : bs = [] := List.length_eq_zero_iff.1 (by omega)
    subst this
    simp [feed, blocks]
  | succ n ih =>
    have hlen : bs.length = rate + n * rate := by rw [h]; ring
    have e : blocks rate bs = bs.take rate :: blocks rate (bs.drop rate) := by
      unfold blocks
      have e1 : bs.length / rate = n + 1 := by rw [h]; exact Nat.mul_div_cancel _ hr
      have e2 : (bs.drop rate).length / rate = n := by rw [List.length_drop, hlen, Nat.add_sub_cancel_left]; exact Nat.mul_div_cancel _ hr
      rw [e1, e2, List.range_succ_eq_map, List.map_cons, List.map_map]
      simp only [Nat.zero_mul, List.drop_zero]
      congr 1
      apply List.map_congr_left
      intro i _
      simp only [Function.comp, List.drop_drop]
      congr 2
      rw [Nat.succ_mul]; omega
    rw [e, List.foldl_cons]
    conv_lhs => rw [← List.take_append_drop rate bs]
    rw [feed_append, feed_fill f st 0 _ (by rw [List.length_take]; omega) (by
      intro hc
      have := congrArg List.length hc
      rw [List.length_take, List.length_nil] at this
      omega), ih _ (by rw [List.length_drop, hlen]; omega)]
    have ex : addBytes st (bs.take rate) 0 = xorBlock st (bs.take rate) := by
      apply Vector.ext
      intro j hj
      simp [addBytes, xorBlock]
    rw [ex]

theorem addByte_pad (st : KState) (i z : Nat) (hz : 1 ≤ z) (hle : i + z ≤ 200) :
    addBytes st (if z = 1 then [0x9F] else [0x1F] ++ List.replicate (z - 2) 0 ++ [0x80]) i = addByte (addByte st 0x1F i) 0x80 (i + z - 1) := by
  apply Vector.ext
  intro j hj
  simp only [addByte, addBytes, Vector.getElem_ofFn, Fin.getElem_fin]
  by_cases h1 : z = 1
  · subst h1
    simp only [if_true, Nat.add_sub_cancel]
    by_cases h2 : i ≤ j
    · simp only [h2, if_true]
      rcases Nat.eq_zero_or_pos (j - i) with h3 | h3
      · rw [h3]
        simp only [List.getD_cons_zero]
        rw [BitVec.xor_assoc]; rfl
      · obtain ⟨k, hk⟩ : ∃ k, j - i = k + 1 := ⟨j - i - 1, by omega⟩
        rw [hk]; simp
    · simp only [h2, if_false]
  · simp only [h1, if_false]
    by_cases h2 : i ≤ j
    · obtain ⟨k, rfl⟩ : ∃ k, j = i + k := ⟨j - i, by omega⟩
      simp only [h2, if_true, Nat.add_sub_cancel_left]
      by_cases h3 : k = z - 1
      · subst h3
        rw [show i + z - 1 = i + (z - 1) by omega, if_pos le_rfl, Nat.sub_self]
        obtain ⟨m, hm⟩ : ∃ m, z = m + 2 := ⟨z - 2, by omega⟩
        subst hm
        simp [List.getD_eq_getElem?_getD]
      · have : ¬ i + z - 1 ≤ i + k ∨ z - 1 < k := by
          rcases Nat.lt_or_ge k (z - 1) with h | h
          · left; omega
          · right; omega
        rcases this with h4 | h4
        · rw [if_neg h4]
          cases k with
          | zero => simp
          | succ k =>
            have : k < z - 2 := by omega
            simp [List.getD_eq_getElem?_getD, List.getElem?_append, this]
        · rw [if_pos (show i + z - 1 ≤ i + k by omega)]
          have e1 : i + k - (i + z - 1) ≠ 0 := by omega
          obtain ⟨m, hm⟩ : ∃ m, i + k - (i + z - 1) = m + 1 := ⟨_, (Nat.succ_pred_eq_of_ne_zero e1).symm⟩
          obtain ⟨k', rfl⟩ : ∃ k', k = k' + 1 := ⟨k - 1, by omega⟩
          rw [hm]
          have : ¬ k' < z - 2 := by omega
          have h5 : k' - (z - 2) ≠ 0 := by omega
          obtain ⟨q, hq⟩ : ∃ q, k' - (z - 2) = q + 1 := ⟨_, (Nat.succ_pred_eq_of_ne_zero h5).symm⟩
          simp [List.getD_eq_getElem?_getD, List.getElem?_append, this, hq]
    · rw [if_neg h2, if_neg (show ¬ i + z - 1 ≤ j by omega), if_neg h2]

theorem kindRate_eq (k : ShakeKind) : kindRate k = shakeRate k := by cases k <;> rfl

theorem length_padShake {rate : Nat} (hr : 0 < rate) (msg : Bytes) : (padShake rate msg).length = (msg.length / rate + 1) * rate := by
  have h1 := Nat.mod_lt msg.length hr
  have h2 := Nat.div_add_mod msg.length rate
  have e : (msg.length / rate + 1) * rate = rate * (msg.length / rate) + rate := by ring
  unfold padShake
  simp only
  split
  · rename_i hz
    rw [List.length_append, List.length_singleton, e]; omega
  · rw [List.length_append, List.length_append, List.length_append, List.length_replicate, List.length_singleton, List.length_singleton, e]; omega

theorem hashFinal_ctx (k : ShakeKind) (msg : Bytes) :
    hashFinal f (ctx f k msg) = ⟨absorb f (shakeRate k) (padShake (shakeRate k) msg), shakeRate k, 0, true, 0x1F⟩ := by
  have hr := kindRate_pos k
  rw [← kindRate_eq]
  have hi := feed_idx f (by omega : 0 < kindRate k) msg (Vector.replicate 200 0)
  have hlt := Nat.mod_lt msg.length (by omega : 0 < kindRate k)
  have h1 : hashFinal f (ctx f k msg) = ⟨f (addByte (addByte (feed f (kindRate k) (Vector.replicate 200 0, 0) msg).1 0x1F (feed f (kindRate k) (Vector.replicate 200 0, 0) msg).2)
      0x80 (kindRate k - 1)), kindRate k, 0, true, 0x1F⟩ := by
    unfold hashFinal absorbLast ctx
    rw [if_neg (by simp)]
    rfl
  rw [h1]
  congr 1
  have hb := feed_blocks f (by omega : 0 < kindRate k) _ _ (length_padShake (by omega : 0 < kindRate k) msg) (Vector.replicate 200 0)
  rw [absorb]
  have hb1 := congrArg Prod.fst hb
  simp only at hb1
  rw [← hb1]
  unfold padShake
  simp only
  rw [feed_append]
  generalize feed f (kindRate k) (Vector.replicate 200 0, 0) msg = p at hi
  obtain ⟨st, i⟩ := p
  simp only at hi
  subst hi
  rw [feed_fill]
  · rw [addByte_pad _ _ _ (by omega) (by omega)]
    congr 3; omega
  · split
    · rw [List.length_singleton]; omega
    · rw [List.length_append, List.length_append, List.length_replicate, List.length_singleton, List.length_singleton]; omega
  · split <;> simp

/-! ## Squeezing -/

/-- The state after `p` bytes of output: `k` further permutations, `idx` bytes read from the current block. -/
def SqInv (S : KState) (rate p : Nat) (s : Sponge) : Prop :=
  s.rate = rate ∧ s.squeezing = true ∧ s.idx ≤ rate ∧ ∃ k, s.state = f^[k] S ∧ p = k * rate + s.idx

theorem stream_get {rate : Nat} (S : KState) (k i : Nat) (hi : i < rate) : (squeezeStream f rate S).get (k * rate + i) = (f^[k] S).getD i 0 := by
  have h0 : 0 < rate := by omega
  simp only [squeezeStream]
  rw [Nat.mul_comm, Nat.mul_add_div h0, Nat.mul_add_mod, Nat.div_eq_of_lt hi, Nat.mod_eq_of_lt hi, Nat.add_zero]

theorem extract_eq {rate : Nat} (S : KState) (k idx part : Nat) (h : idx + part ≤ rate) :
    extractBytes (f^[k] S) idx part = (squeezeStream f rate S).squeeze (k * rate + idx) part := by
  unfold extractBytes Stream.squeeze
  apply List.map_congr_left
  intro i hi
  have := List.mem_range.1 hi
  rw [Nat.add_assoc, stream_get f S k (idx + i) (by omega)]

theorem squeeze_add (s : Stream) (off a b : Nat) : s.squeeze off a ++ s.squeeze (off + a) b = s.squeeze off (a + b) := by
  unfold Stream.squeeze
  rw [List.range_add, List.map_append, List.map_map]
  congr 1
  apply List.map_congr_left
  intro i _
  simp only [Function.comp, Nat.add_assoc]

theorem squeezeBlocks_eq {rate : Nat} (S : KState) (n k : Nat) :
    squeezeBlocks f rate n (f^[k] S) = (f^[k + n] S, (squeezeStream f rate S).squeeze ((k + 1) * rate) (n * rate)) := by
  induction n generalizing k with
  | zero => simp [squeezeBlocks, Stream.squeeze]
  | succ n ih =>
    have hs : f (f^[k] S) = f^[k + 1] S := (Function.iterate_succ_apply' f k S).symm
    show (let r := squeezeBlocks f rate n (f (f^[k] S)); (r.1, extractBytes (f (f^[k] S)) 0 rate ++ r.2)) = _
    rw [hs, ih (k + 1)]
    simp only
    rw [extract_eq f (rate := rate) S (k + 1) 0 rate (by omega)]
    have e2 : (k + 1 + 1) * rate = (k + 1) * rate + rate := by ring
    rw [e2, show (k + 1) * rate + 0 = (k + 1) * rate from rfl, squeeze_add]
    congr 2 <;> ring

theorem squeezeLoop_eq (S : KState) {rate : Nat} (hr : 0 < rate) (fuel : Nat) (s : Sponge) (p len : Nat) (h : SqInv f S rate p s) (hf : len ≤ fuel) :
    (squeezeLoop f fuel s len).2 = (squeezeStream f rate S).squeeze p len ∧ SqInv f S rate (p + len) (squeezeLoop f fuel s len).1 := by
  induction fuel generalizing s p len with
  | zero =>
    have : len = 0 := by omega
    subst this
    exact ⟨by simp [squeezeLoop, Stream.squeeze], h⟩
  | succ fuel ih =>
    obtain ⟨h1, h2, h3, k, h4, h5⟩ := h
    unfold squeezeLoop
    by_cases h0 : len = 0
    · subst h0
      rw [if_pos rfl]
      exact ⟨by simp [Stream.squeeze], h1, h2, h3, k, h4, h5⟩
    · rw [if_neg h0]
      by_cases hc : s.idx = s.rate ∧ s.rate ≤ len
      · rw [if_pos hc]
        simp only
        rw [h1] at hc
        have hn : 0 < len / rate := Nat.div_pos hc.2 hr
        have hle : len / rate * rate ≤ len := Nat.div_mul_le_self _ _
        have hpos : 0 < len / rate * rate := Nat.mul_pos hn hr
        have hsb := squeezeBlocks_eq f (rate := rate) S (len / rate) k
        rw [h1, h4, hsb]
        simp only
        have hinv : SqInv f S rate (p + len / rate * rate) ⟨f^[k + len / rate] S, rate, s.idx, s.squeezing, s.suffix⟩ := by
          refine ⟨rfl, h2, h3, k + len / rate, rfl, ?_⟩
          simp only
          rw [h5]; ring
        obtain ⟨e1, e2⟩ := ih _ _ (len - len / rate * rate) hinv (by omega)
        refine ⟨?_, ?_⟩
        · rw [e1]
          have : (k + 1) * rate = p := by rw [h5, hc.1]; ring
          rw [this, squeeze_add]
          congr 1; omega
        · rw [show p + len = p + len / rate * rate + (len - len / rate * rate) by omega]; exact e2
      · rw [if_neg hc]
        simp only
        generalize hs' : (if s.idx = s.rate then { s with state := f s.state, idx := 0 } else s) = s'
        have hinv : SqInv f S rate p s' ∧ s'.idx < rate := by
          subst hs'
          split
          · rename_i hi
            refine ⟨⟨h1, h2, by simp only; omega, k + 1, ?_, ?_⟩, by simp only; omega⟩
            · simp only [h4]; exact (Function.iterate_succ_apply' f k S).symm
            · simp only; rw [h5, hi, h1]; ring
          · rename_i hi
            exact ⟨⟨h1, h2, h3, k, h4, h5⟩, by rw [h1] at hi; omega⟩
        obtain ⟨⟨g1, g2, g3, k', g4, g5⟩, g6⟩ := hinv
        generalize hpart : (if len + s'.idx > s'.rate then s'.rate - s'.idx else len) = part
        have hp : part ≤ len ∧ 0 < part ∧ s'.idx + part ≤ rate := by
          subst hpart
          rw [g1]
          split <;> omega
        have hinv2 : SqInv f S rate (p + part) { s' with idx := s'.idx + part } := ⟨g1, g2, hp.2.2, k', g4, by simp only; omega⟩
        obtain ⟨e1, e2⟩ := ih _ _ (len - part) hinv2 (by omega)
        refine ⟨?_, ?_⟩
        · rw [e1, g4, extract_eq f S k' _ _ hp.2.2, ← g5, squeeze_add]
          congr 1; omega
        · rw [show p + len = p + part + (len - part) by omega]; exact e2

/-- Squeezing in pieces. -/
theorem squeezes_eq (S : KState) {rate : Nat} (hr : 0 < rate) (lens : List Nat) (s : Sponge) (p : Nat) (h : SqInv f S rate p s) (acc : Bytes) :
    (lens.foldl (fun (st : Sponge × Bytes) n => ((hashSqueeze f st.1 n).1, st.2 ++ (hashSqueeze f st.1 n).2)) (s, acc)).2
      = acc ++ (squeezeStream f rate S).squeeze p lens.sum := by
  induction lens generalizing s p acc with
  | nil => simp [Stream.squeeze]
  | cons n ns ih =>
    have hq : hashSqueeze f s n = squeezeLoop f n s n := by
      unfold hashSqueeze
      rw [h.2.1]; rfl
    rw [List.foldl_cons, hq]
    obtain ⟨e1, e2⟩ := squeezeLoop_eq f S hr n s p n h le_rfl
    rw [ih _ _ e2, e1, List.append_assoc, squeeze_add, List.sum_cons]

/-! ## 4-way -/

/-- Lane `l` of a 4-way context. -/
def Sponge4.lane (s : Sponge4) (l : Fin 4) : Sponge := ⟨s.state l, s.rate, s.idx, s.squeezing, s.suffix⟩

theorem absorbBlocks4_lane (rate n : Nat) (s : Fin 4 → KState) (data : Fin 4 → Bytes) (l : Fin 4) :
    absorbBlocks4 f rate n s data l = absorbFull f rate n (s l) (data l) := by
  induction n generalizing s data with
  | zero => rfl
  | succ n ih => rw [absorbBlocks4, ih]; rfl

theorem absorbLoop4_lane (fuel : Nat) (s : Sponge4) (data : Fin 4 → Bytes) (len : Nat) (h : ∀ l, (data l).length = len) (l : Fin 4) :
    (absorbLoop4 f fuel s data len).lane l = absorbLoop f fuel (s.lane l) (data l) := by
  induction fuel generalizing s data len with
  | zero => rfl
  | succ fuel ih =>
    unfold absorbLoop4 absorbLoop
    have hl := h l
    have hnil : data l = [] ↔ len = 0 := by rw [← hl, List.length_eq_zero_iff]
    by_cases h0 : len = 0
    · rw [if_pos h0, if_pos (hnil.2 h0)]
    · rw [if_neg h0, if_neg (fun hc => h0 (hnil.1 hc))]
      have e1 : (s.lane l).idx = s.idx := rfl
      have e2 : (s.lane l).rate = s.rate := rfl
      have e3 : (s.lane l).state = s.state l := rfl
      rw [e1, e2, e3, hl]
      by_cases h1 : s.idx = 0 ∧ s.rate ≤ len
      · rw [if_pos h1, if_pos h1]
        simp only
        rw [ih _ _ _ (fun l => by rw [List.length_drop, h l])]
        simp only [Sponge4.lane, absorbBlocks4_lane]
      · rw [if_neg h1, if_neg h1]
        simp only
        split <;> rename_i h2 <;> split <;> rename_i h3 <;>
          rw [ih _ _ _ (fun l => by rw [List.length_drop, h l])] <;> rfl

theorem hashUpdate4_lane (s : Sponge4) (data : Fin 4 → Bytes) (len : Nat) (h : ∀ l, (data l).length = len) (l : Fin 4) :
    (hashUpdate4 f s data len).lane l = hashUpdate f (s.lane l) (data l) := by
  unfold hashUpdate4 hashUpdate
  have : (s.lane l).squeezing = s.squeezing := rfl
  rw [this]
  cases s.squeezing with
  | true => rfl
  | false =>
    simp only [Bool.false_eq_true, if_false]
    rw [absorbLoop4_lane f len s data len h l, h l]

theorem absorbLast4_lane (s : Sponge4) (d : Byte) (l : Fin 4) : (absorbLast4 f s d).lane l = absorbLast f (s.lane l) d := by
  unfold absorbLast4 absorbLast
  have e : (s.lane l).squeezing = s.squeezing := rfl
  rw [e]
  by_cases h : d = 0 ∨ s.squeezing = true
  · rw [if_pos h, if_pos h]
  · rw [if_neg h, if_neg h]
    have e1 : (s.lane l).idx = s.idx := rfl
    have e2 : (s.lane l).rate = s.rate := rfl
    rw [e1, e2]
    by_cases h2 : d ≥ 0x80 ∧ s.idx = s.rate - 1
    · simp only [h2, Sponge4.lane, and_self, if_true]
    · simp only [h2, Sponge4.lane, if_false]

theorem squeezeBlocks4_lane (rate n : Nat) (s : Fin 4 → KState) (l : Fin 4) :
    ((squeezeBlocks4 f rate n s).1 l, (squeezeBlocks4 f rate n s).2 l) = squeezeBlocks f rate n (s l) := by
  induction n generalizing s with
  | zero => rfl
  | succ n ih =>
    have := ih (fun l => f (s l))
    have h1 := congrArg Prod.fst this
    have h2 := congrArg Prod.snd this
    simp only at h1 h2
    simp only [squeezeBlocks4, squeezeBlocks]
    rw [h1, h2]

theorem squeezeLoop4_lane (fuel : Nat) (s : Sponge4) (len : Nat) (l : Fin 4) :
    ((squeezeLoop4 f fuel s len).1.lane l, (squeezeLoop4 f fuel s len).2 l) = squeezeLoop f fuel (s.lane l) len := by
  induction fuel generalizing s len with
  | zero => rfl
  | succ fuel ih =>
    unfold squeezeLoop4 squeezeLoop
    by_cases h0 : len = 0
    · rw [if_pos h0, if_pos h0]
    · rw [if_neg h0, if_neg h0]
      have e1 : (s.lane l).idx = s.idx := rfl
      have e2 : (s.lane l).rate = s.rate := rfl
      have e3 : (s.lane l).state = s.state l := rfl
      rw [e1, e2, e3]
      by_cases h1 : s.idx = s.rate ∧ s.rate ≤ len
      · rw [if_pos h1, if_pos h1]
        simp only
        rw [← squeezeBlocks4_lane]
        simp only
        have := ih { s with state := (squeezeBlocks4 f s.rate (len / s.rate) s.state).1 } (len - len / s.rate * s.rate)
        have g1 := congrArg Prod.fst this
        have g2 := congrArg Prod.snd this
        simp only at g1 g2
        rw [g1, g2]
        rfl
      · rw [if_neg h1, if_neg h1]
        simp only
        by_cases h2 : s.idx = s.rate
        · simp only [h2, if_true]
          have := ih { s with state := fun l => f (s.state l), idx := 0 + (if len + 0 > s.rate then s.rate - 0 else len) } (len - (if len + 0 > s.rate then s.rate - 0 else len))
          have g1 := congrArg Prod.fst this
          have g2 := congrArg Prod.snd this
          simp only at g1 g2
          rw [g1, g2]
          rfl
        · simp only [h2, if_false]
          have := ih { s with idx := s.idx + (if len + s.idx > s.rate then s.rate - s.idx else len) } (len - (if len + s.idx > s.rate then s.rate - s.idx else len))
          have g1 := congrArg Prod.fst this
          have g2 := congrArg Prod.snd this
          simp only at g1 g2
          rw [g1, g2]
          rfl

theorem hashSqueeze4_lane (s : Sponge4) (len : Nat) (l : Fin 4) :
    ((hashSqueeze4 f s len).1.lane l, (hashSqueeze4 f s len).2 l) = hashSqueeze f (s.lane l) len := by
  unfold hashSqueeze4 hashSqueeze
  have e : (s.lane l).squeezing = s.squeezing := rfl
  rw [e]
  simp only
  cases s.squeezing with
  | true => simp only [if_true]; exact squeezeLoop4_lane f len s len l
  | false => simp only [Bool.false_eq_true, if_false]; rw [squeezeLoop4_lane, absorbLast4_lane]

end Banquet.Ideal
