import Mathlib.Tactic.FinCases
import Mathlib.Data.Fintype.Basic
import Verif.Proofs.Sponge
import Verif.Spec.Fits

/-! The sponge functions of the model behave like those with unbounded arithmetic as long as the lengths are small enough. -/

namespace Banquet

open Spec

variable {f : St → St} {S : SnP} {view : S.State → St}

/-- The ideal context a context of the model stands for. -/
def Sponge.abs (view : S.State → St) (s : Sponge S) : Ideal.Sponge :=
  { state := view s.state, rate := s.rate, idx := s.idx, squeezing := s.squeezing, suffix := s.suffix }

theorem partialBlock_eq {left idx rate : Nat} (h : left + idx < 2 ^ 32) : partialBlock left idx rate = if left + idx > rate then rate - idx else left := by
  unfold partialBlock
  simp only
  rw [Nat.mod_eq_of_lt (show left < 2 ^ 32 by omega), Nat.mod_eq_of_lt h]

theorem partialBlock_fits {left idx rate : Nat} (hi : idx < rate) (hr : rate < 200) (h : NoWrap rate idx left) : partialBlock left idx rate = if left + idx > rate then rate - idx else left := by
  rcases h with h | ⟨h1, h2, h3⟩
  · exact partialBlock_eq h
  · unfold partialBlock
    simp only
    rw [Nat.mod_eq_of_lt h3, if_pos (show left + idx > rate by omega)]
    split <;> omega

theorem fits_of_small {rate idx len : Nat} (hi : idx < rate) (h : len + rate ≤ 2 ^ 32) : Fits rate idx len := .inr (.inl (by omega))

theorem fitsOut_of_small {rate idx len : Nat} (hi : idx ≤ rate) (h : len + rate ≤ 2 ^ 32) : FitsOut rate idx len := by
  by_cases h1 : idx = rate
  · exact .inl h1
  · exact .inr (.inl (by omega))

theorem bindOk {α β : Type} {x : M α} {a : α} (h : x = .ok a) (g : α → M β) : (x >>= g) = g a := by rw [h]; rfl

theorem absorbLoop_sim (hS : Snp f S view) (fuel : Nat) (s : Sponge S) (data : Bytes) (h8 : s.rate % 8 = 0) (hr : s.rate < 200)
    (hi : s.idx < s.rate) (hl : Fits s.rate s.idx data.length) (hf : data.length ≤ fuel) :
    ∃ s', absorbLoop S fuel s data = .ok s' ∧ s'.abs view = Ideal.absorbLoop f fuel (s.abs view) data := by
  induction fuel generalizing s data with
  | zero =>
    have : data = [] := List.eq_nil_of_length_eq_zero (by omega)
    subst this
    exact ⟨s, rfl, rfl⟩
  | succ fuel ih =>
    unfold absorbLoop Ideal.absorbLoop
    by_cases h0 : data = []
    · rw [if_pos h0, if_pos h0]
      exact ⟨s, rfl, rfl⟩
    · have hpos : 0 < data.length := List.length_pos_iff.2 h0
      rw [if_neg h0, if_neg h0]
      by_cases hc : s.idx = 0 ∧ s.rate ≤ data.length
      · rw [if_pos hc, if_pos (show (s.abs view).idx = 0 ∧ (s.abs view).rate ≤ data.length from hc), if_pos h8]
        obtain ⟨st, e1, e2⟩ := hS.fastLoop s.state (s.rate / 8) data (by omega) (by omega)
        rw [Nat.mul_div_cancel' (Nat.dvd_of_mod_eq_zero h8)] at e1 e2
        rw [bindOk e1]
        have hn : 0 < data.length / s.rate * s.rate := Nat.mul_pos (Nat.div_pos hc.2 (by omega)) (by omega)
        obtain ⟨s', e3, e4⟩ := ih { s with state := st } (data.drop (data.length / s.rate * s.rate)) h8 hr hi (.inl hc.1) (by rw [List.length_drop]; omega)
        refine ⟨s', e3, ?_⟩
        rw [e4, Sponge.abs, e2]
        rfl
      · rw [if_neg hc, if_neg (show ¬ ((s.abs view).idx = 0 ∧ (s.abs view).rate ≤ data.length) from hc), partialBlock_fits hi hr (by
          rcases hl with h | h
          · exact .inl (by omega)
          · exact h)]
        have ee : (s.abs view).idx = s.idx ∧ (s.abs view).rate = s.rate ∧ (s.abs view).state = view s.state := ⟨rfl, rfl, rfl⟩
        simp only
        rw [ee.1, ee.2.1, ee.2.2]
        generalize hpart : (if data.length + s.idx > s.rate then s.rate - s.idx else data.length) = part
        have hp : part ≤ data.length ∧ 0 < part ∧ s.idx + part ≤ s.rate := by
          subst hpart
          split <;> omega
        obtain ⟨st, e1, e2⟩ := hS.addBytes s.state (data.take part) s.idx (by rw [List.length_take]; omega)
        rw [bindOk e1]
        by_cases hfull : s.idx + part = s.rate
        · rw [if_pos hfull, if_pos hfull]
          obtain ⟨s', e3, e4⟩ := ih { s with state := S.permute st, idx := 0 } (data.drop part) h8 hr (by simp only; omega) (.inl rfl) (by rw [List.length_drop]; omega)
          refine ⟨s', e3, ?_⟩
          rw [e4, Sponge.abs, hS.permute, e2]
          rfl
        · rw [if_neg hfull, if_neg hfull]
          obtain ⟨s', e3, e4⟩ := ih { s with state := st, idx := s.idx + part } (data.drop part) h8 hr (by simp only; omega) (.inr (.inl (by
            have : part = data.length := by
              subst hpart
              split at hfull <;> simp_all
              omega
            rw [List.length_drop]
            simp only
            omega))) (by rw [List.length_drop]; omega)
          refine ⟨s', e3, ?_⟩
          rw [e4, Sponge.abs, e2]
          rfl

theorem ctx_idx (k : ShakeKind) (msg : Bytes) : (Ideal.ctx f k msg).idx < kindRate k :=
  Ideal.feed_idx_lt f (by cases k <;> decide) _ (by cases k <;> decide) _

theorem kind_facts (k : ShakeKind) : kindRate k % 8 = 0 ∧ kindRate k < 200 ∧ 0 < kindRate k := by cases k <;> decide

theorem ctx_idx_eq (k : ShakeKind) (msg : Bytes) : (Ideal.ctx f k msg).idx = msg.length % kindRate k :=
  Ideal.feed_idx f (kind_facts k).2.2 msg (Vector.replicate 200 0)

theorem hashUpdate_fits (hS : Snp f S view) {k : ShakeKind} {msg : Bytes} {s : Sponge S} (h : s.abs view = Ideal.ctx f k msg) (data : Bytes) (hl : Fits (kindRate k) (msg.length % kindRate k) data.length) :
    ∃ s', hashUpdate S s data = .ok s' ∧ s'.abs view = Ideal.ctx f k (msg ++ data) := by
  have hr : s.rate = kindRate k := congrArg Ideal.Sponge.rate h
  have hi : s.idx = (Ideal.ctx f k msg).idx := congrArg Ideal.Sponge.idx h
  have hq : s.squeezing = false := congrArg Ideal.Sponge.squeezing h
  obtain ⟨s', e1, e2⟩ := absorbLoop_sim hS data.length s data (by rw [hr]; exact (kind_facts k).1) (by rw [hr]; exact (kind_facts k).2.1) (by rw [hr, hi]; exact ctx_idx k msg) (by rw [hr, hi, ctx_idx_eq]; exact hl) le_rfl
  rw [← Ideal.hashUpdate_ctx, hashUpdate, Ideal.hashUpdate, ← h, hq]
  refine ⟨s', e1, ?_⟩
  rw [e2]
  simp [Sponge.abs, hq]

theorem hashUpdate_sim (hS : Snp f S view) {k : ShakeKind} {msg : Bytes} {s : Sponge S} (h : s.abs view = Ideal.ctx f k msg) (data : Bytes) (hl : data.length + kindRate k ≤ 2 ^ 32) :
    ∃ s', hashUpdate S s data = .ok s' ∧ s'.abs view = Ideal.ctx f k (msg ++ data) :=
  hashUpdate_fits hS h data (fits_of_small (Nat.mod_lt _ (kind_facts k).2.2) hl)

theorem absorbLast_sim (hS : Snp f S view) (s : Sponge S) (hr : s.rate ≤ 200) (hi : s.idx < s.rate) (d : Byte) :
    ∃ s', absorbLast S s d = .ok s' ∧ s'.abs view = Ideal.absorbLast f (s.abs view) d := by
  unfold absorbLast Ideal.absorbLast
  by_cases hc : d = 0 ∨ s.squeezing = true
  · rw [if_pos hc, if_pos (show d = 0 ∨ (s.abs view).squeezing = true from hc)]
    exact ⟨s, rfl, rfl⟩
  · rw [if_neg hc, if_neg (show ¬ (d = 0 ∨ (s.abs view).squeezing = true) from hc)]
    obtain ⟨s1, e1, e2⟩ := hS.addByte s.state d s.idx (by omega)
    rw [bindOk e1]
    simp only
    generalize hs2 : (if d ≥ 0x80 ∧ s.idx = s.rate - 1 then S.permute s1 else s1) = s2
    have hv : view s2 = if d ≥ 0x80 ∧ s.idx = s.rate - 1 then f (Spec.addByte (view s.state) d s.idx) else Spec.addByte (view s.state) d s.idx := by
      subst hs2
      split
      · rw [hS.permute, e2]
      · rw [e2]
    obtain ⟨s3, e3, e4⟩ := hS.addByte s2 0x80 (s.rate - 1) (by omega)
    rw [bindOk e3]
    refine ⟨_, rfl, ?_⟩
    simp only [Sponge.abs, hS.permute, e4, hv]
    rfl

theorem hashFinal_sim (hS : Snp f S view) {k : ShakeKind} {msg : Bytes} {s : Sponge S} (h : s.abs view = Ideal.ctx f k msg) :
    ∃ s', hashFinal S s = .ok s' ∧ s'.abs view = Ideal.hashFinal f (Ideal.ctx f k msg) := by
  have hr : s.rate = kindRate k := congrArg Ideal.Sponge.rate h
  have hi : s.idx = (Ideal.ctx f k msg).idx := congrArg Ideal.Sponge.idx h
  obtain ⟨s', e1, e2⟩ := absorbLast_sim hS s (by rw [hr]; exact (kind_facts k).2.1.le) (by rw [hr, hi]; exact ctx_idx k msg) s.suffix
  refine ⟨s', e1, ?_⟩
  rw [← h, e2]
  rfl

theorem squeezeBlocks_sim (hS : Snp f S view) {rate : Nat} (hr : rate < 200) (n : Nat) (s : S.State) :
    ∃ s', squeezeBlocks S rate n s = .ok (s', (Ideal.squeezeBlocks f rate n (view s)).2) ∧ view s' = (Ideal.squeezeBlocks f rate n (view s)).1 := by
  induction n generalizing s with
  | zero => exact ⟨s, rfl, rfl⟩
  | succ n ih =>
    obtain ⟨s', e1, e2⟩ := ih (S.permute s)
    unfold squeezeBlocks
    simp only
    rw [bindOk (hS.extractBytes _ 0 rate (by omega)), bindOk e1]
    refine ⟨s', ?_, ?_⟩
    · simp only [hS.permute]; rfl
    · rw [e2, hS.permute]; rfl

theorem squeezeLoop_sim (hS : Snp f S view) (fuel : Nat) (s : Sponge S) (len : Nat) (h0 : 0 < s.rate) (hr : s.rate < 200)
    (hi : s.idx ≤ s.rate) (hl : FitsOut s.rate s.idx len) (hf : len ≤ fuel) :
    ∃ s', squeezeLoop S fuel s len = .ok (s', (Ideal.squeezeLoop f fuel (s.abs view) len).2) ∧ s'.abs view = (Ideal.squeezeLoop f fuel (s.abs view) len).1 := by
  induction fuel generalizing s len with
  | zero =>
    have : len = 0 := by omega
    subst this
    exact ⟨s, rfl, rfl⟩
  | succ fuel ih =>
    unfold squeezeLoop Ideal.squeezeLoop
    by_cases hn : len = 0
    · rw [if_pos hn, if_pos hn]
      exact ⟨s, rfl, rfl⟩
    · rw [if_neg hn, if_neg hn]
      by_cases hc : s.idx = s.rate ∧ s.rate ≤ len
      · rw [if_pos hc, if_pos (show (s.abs view).idx = (s.abs view).rate ∧ (s.abs view).rate ≤ len from hc)]
        obtain ⟨st, e1, e2⟩ := squeezeBlocks_sim hS hr (len / s.rate) s.state
        have hpos : 0 < len / s.rate * s.rate := Nat.mul_pos (Nat.div_pos hc.2 h0) h0
        simp only
        rw [bindOk e1]
        obtain ⟨s', e3, e4⟩ := ih { s with state := st } (len - len / s.rate * s.rate) h0 hr hi (.inl hc.1) (by omega)
        rw [bindOk e3]
        refine ⟨s', ?_, ?_⟩
        · simp only [Sponge.abs, e2]
        · rw [e4]
          simp only [Sponge.abs, e2]
      · rw [if_neg hc, if_neg (show ¬ ((s.abs view).idx = (s.abs view).rate ∧ (s.abs view).rate ≤ len) from hc)]
        obtain ⟨s1, hs1, ht1, hi1, hr1⟩ : ∃ s1 : Sponge S, (if s.idx = s.rate then { s with state := S.permute s.state, idx := 0 } else s) = s1 ∧
            (if (s.abs view).idx = (s.abs view).rate then { s.abs view with state := f (s.abs view).state, idx := 0 } else s.abs view) = s1.abs view ∧ s1.idx < s1.rate ∧ s1.rate = s.rate := by
          refine ⟨_, rfl, ?_, ?_, ?_⟩
          · by_cases he : s.idx = s.rate
            · rw [if_pos he, if_pos (show (s.abs view).idx = (s.abs view).rate from he)]
              simp only [Sponge.abs, hS.permute]
            · rw [if_neg he, if_neg (show ¬ (s.abs view).idx = (s.abs view).rate from he)]
          · split
            · exact h0
            · omega
          · split <;> rfl
        simp only [hs1, ht1]
        rw [partialBlock_fits hi1 (by omega) (by
          rcases hl with h | h
          · exact .inl (by omega)
          · subst hs1
            split
            · exact .inl (by simp only; omega)
            · exact h)]
        have ee : (s1.abs view).idx = s1.idx ∧ (s1.abs view).rate = s1.rate ∧ (s1.abs view).state = view s1.state := ⟨rfl, rfl, rfl⟩
        rw [ee.1, ee.2.1, ee.2.2]
        generalize hpart : (if len + s1.idx > s1.rate then s1.rate - s1.idx else len) = part
        have hp : part ≤ len ∧ 0 < part ∧ s1.idx + part ≤ s1.rate := by
          subst hpart
          split <;> omega
        rw [bindOk (hS.extractBytes s1.state s1.idx part (by omega))]
        obtain ⟨s', e3, e4⟩ := ih { s1 with idx := s1.idx + part } (len - part) (by simp only; omega) (by simp only; omega) hp.2.2 (by
          by_cases hfull : s1.idx + part = s1.rate
          · exact .inl hfull
          · have : part = len := by
              subst hpart
              split at hfull <;> simp_all
              omega
            exact .inr (.inl (by simp only; omega))) (by omega)
        rw [bindOk e3]
        exact ⟨s', rfl, e4⟩

/-- Position after `p` bytes of output. -/
theorem sq_idx {T : St} {rate p : Nat} {s : Ideal.Sponge} (h : Ideal.SqInv f T rate p s) (hp : p = 0 ∨ 0 < s.idx) : s.idx = outPos rate p := by
  obtain ⟨-, -, h3, k, -, h5⟩ := h
  unfold outPos
  split
  · rename_i h
    have : k * rate = 0 := by omega
    omega
  · have hi : 0 < s.idx := by omega
    rw [show p - 1 = (s.idx - 1) + k * rate by omega, Nat.add_mul_mod_self_right, Nat.mod_eq_of_lt (by omega)]
    omega

theorem Ideal.squeezeLoop_idx (fuel : Nat) (s : Ideal.Sponge) (len : Nat) (h0 : 0 < s.rate) (hi : s.idx ≤ s.rate) (hn : 0 < len ∨ 0 < s.idx) (hf : len ≤ fuel) : 0 < (Ideal.squeezeLoop f fuel s len).1.idx := by
  induction fuel generalizing s len with
  | zero => exact hn.resolve_left (by omega)
  | succ fuel ih =>
    unfold Ideal.squeezeLoop
    by_cases hz : len = 0
    · rw [if_pos hz]
      exact hn.resolve_left (by omega)
    · rw [if_neg hz]
      by_cases hc : s.idx = s.rate ∧ s.rate ≤ len
      · rw [if_pos hc]
        have hpos : 0 < len / s.rate * s.rate := Nat.mul_pos (Nat.div_pos hc.2 h0) h0
        exact ih _ _ h0 hi (.inr (by simp only; omega)) (by omega)
      · rw [if_neg hc]
        simp only
        generalize hs1 : (if s.idx = s.rate then { s with state := f s.state, idx := 0 } else s) = s1
        have h1 : s1.idx < s1.rate := by
          subst hs1
          split
          · exact h0
          · omega
        generalize hpart : (if len + s1.idx > s1.rate then s1.rate - s1.idx else len) = part
        have hp : 0 < part ∧ s1.idx + part ≤ s1.rate ∧ part ≤ len := by
          subst hpart
          split <;> omega
        exact ih _ _ (by simp only; omega) hp.2.1 (.inr (by simp only; omega)) (by omega)

/-- Squeezing from a context that has delivered `p` bytes. -/
theorem hashSqueeze_fits (hS : Snp f S view) (T : St) {rate p : Nat} (s : Sponge S) (n : Nat) (h0 : 0 < rate) (hr : rate < 200) (h : Ideal.SqInv f T rate p (s.abs view)) (hl : FitsOut rate s.idx n) :
    ∃ s', hashSqueeze S s n = .ok (s', (squeezeStream f rate T).squeeze p n) ∧ Ideal.SqInv f T rate (p + n) (s'.abs view) ∧ (0 < n ∨ 0 < s.idx → 0 < s'.idx) := by
  obtain ⟨e1, e2⟩ := Ideal.squeezeLoop_eq f T h0 n (s.abs view) p n h le_rfl
  have hrate : s.rate = rate := h.1
  have hq : s.squeezing = true := h.2.1
  have hi : s.idx ≤ rate := h.2.2.1
  obtain ⟨s', e3, e4⟩ := squeezeLoop_sim hS n s n (by omega) (by omega) (by omega) (by rw [hrate]; exact hl) le_rfl
  refine ⟨s', ?_, ?_, ?_⟩
  · unfold hashSqueeze
    rw [hq, if_pos rfl, bindOk rfl]
    simp only
    rw [e3, e1]
  · rw [e4]
    exact e2
  · intro hn
    have := Ideal.squeezeLoop_idx (f := f) n (s.abs view) n (show 0 < s.rate by omega) (show s.idx ≤ s.rate by omega) hn le_rfl
    rw [← e4] at this
    exact this

theorem hashSqueeze_sim (hS : Snp f S view) (T : St) {rate p : Nat} (s : Sponge S) (n : Nat) (h0 : 0 < rate) (hr : rate < 200) (h : Ideal.SqInv f T rate p (s.abs view)) (hl : n + rate ≤ 2 ^ 32) :
    ∃ s', hashSqueeze S s n = .ok (s', (squeezeStream f rate T).squeeze p n) ∧ Ideal.SqInv f T rate (p + n) (s'.abs view) := by
  obtain ⟨s', e, g, -⟩ := hashSqueeze_fits hS T s n h0 hr h (fitsOut_of_small h.2.2.1 hl)
  exact ⟨s', e, g⟩

/-- The sum of the partial block and the index is an `unsigned int`: if it is 2^32, the whole rest is added to the state at once. -/
theorem partialBlock_overflow {left idx rate : Nat} (h : left + idx = 2 ^ 32) (h0 : 0 < idx) : partialBlock left idx rate = left := by
  unfold partialBlock
  simp only
  rw [Nat.mod_eq_of_lt (show left < 2 ^ 32 by omega), h, Nat.mod_self, if_neg (by omega)]

theorem partialBlock_zero {idx rate : Nat} (h : idx < rate) (hr : rate < 2 ^ 32) : partialBlock (2 ^ 32) idx rate = 0 := by
  unfold partialBlock
  simp only [Nat.mod_self, Nat.zero_add]
  rw [Nat.mod_eq_of_lt (by omega), if_neg (by omega)]

theorem absorb_overrun (s : Sponge S) (data : Bytes) (hq : s.squeezing = false) (h0 : 0 < s.idx) (hd : 0 < data.length) (hlen : data.length + s.idx = 2 ^ 32)
    (hb : S.addBytes s.state data s.idx = .error .ub) : hashUpdate S s data = .error .ub := by
  unfold hashUpdate
  rw [hq, if_neg (by decide)]
  obtain ⟨n, hn⟩ : ∃ n, data.length = n + 1 := ⟨data.length - 1, by omega⟩
  rw [hn, absorbLoop, if_neg (List.length_pos_iff.1 hd), if_neg (by omega)]
  simp only
  rw [partialBlock_overflow hlen h0, List.take_length, hb]
  rfl

theorem absorb_hang (s : Sponge S) (data : Bytes) (h0 : 0 < s.idx) (hi : s.idx < s.rate) (hr : s.rate < 2 ^ 32) (hlen : data.length = 2 ^ 32) (hb : S.addBytes s.state [] s.idx = .ok s.state)
    (fuel : Nat) : absorbLoop S fuel s data = .error .fuel := by
  have hd : data ≠ [] := List.length_pos_iff.1 (by omega)
  induction fuel with
  | zero => rw [absorbLoop, if_neg hd]
  | succ fuel ih =>
    rw [absorbLoop, if_neg hd, if_neg (by omega)]
    simp only
    rw [hlen, partialBlock_zero hi hr, List.take_zero, List.drop_zero, bindOk hb, if_neg (by omega), Nat.add_zero]
    exact ih

theorem squeeze_overrun (s : Sponge S) (n : Nat) (hq : s.squeezing = true) (h0 : 0 < s.idx) (hi : s.idx < s.rate) (hn : 0 < n) (hlen : n + s.idx = 2 ^ 32)
    (hb : S.extractBytes s.state s.idx n = .error .ub) : hashSqueeze S s n = .error .ub := by
  unfold hashSqueeze
  rw [hq, if_pos rfl, bindOk rfl]
  simp only
  obtain ⟨m, rfl⟩ : ∃ m, n = m + 1 := ⟨n - 1, by omega⟩
  rw [squeezeLoop, if_neg (by omega), if_neg (by omega)]
  simp only
  rw [if_neg (by omega), partialBlock_overflow hlen h0, hb]
  rfl

/-! ## 4-way -/

section four

variable {f : St → St} {S : PlSnP} {view : S.State → Fin 4 → St}

/-- The ideal context a 4-way context of the model stands for. -/
def Sponge4.abs (view : S.State → Fin 4 → St) (s : Sponge4 S) : Ideal.Sponge4 :=
  { state := view s.state, rate := s.rate, idx := s.idx, squeezing := s.squeezing, suffix := s.suffix }

theorem addBytes4_sim (hS : PlSnp f S view) (s : S.State) (data : Fin 4 → Bytes) (offset : Nat) (h : ∀ l, offset + (data l).length ≤ 200) :
    ∃ s', addBytes4 S s data offset = .ok s' ∧ view s' = fun l => Spec.addBytes (view s l) (data l) offset := by
  obtain ⟨s0, e0, g0⟩ := hS.addBytes s 0 (data 0) offset (h 0)
  obtain ⟨s1, e1, g1⟩ := hS.addBytes s0 1 (data 1) offset (h 1)
  obtain ⟨s2, e2, g2⟩ := hS.addBytes s1 2 (data 2) offset (h 2)
  obtain ⟨s3, e3, g3⟩ := hS.addBytes s2 3 (data 3) offset (h 3)
  refine ⟨s3, ?_, ?_⟩
  · unfold addBytes4
    rw [bindOk e0, bindOk e1, bindOk e2, e3]
  · funext l
    fin_cases l <;> simp [g0, g1, g2, g3]

theorem addByte4_sim (hS : PlSnp f S view) (s : S.State) (b : Byte) (offset : Nat) (h : offset < 200) :
    ∃ s', addByte4 S s b offset = .ok s' ∧ view s' = fun l => Spec.addByte (view s l) b offset := by
  obtain ⟨s0, e0, g0⟩ := hS.addByte s 0 b offset h
  obtain ⟨s1, e1, g1⟩ := hS.addByte s0 1 b offset h
  obtain ⟨s2, e2, g2⟩ := hS.addByte s1 2 b offset h
  obtain ⟨s3, e3, g3⟩ := hS.addByte s2 3 b offset h
  refine ⟨s3, ?_, ?_⟩
  · unfold addByte4
    rw [bindOk e0, bindOk e1, bindOk e2, e3]
  · funext l
    fin_cases l <;> simp [g0, g1, g2, g3]

theorem extractBytes4_sim (hS : PlSnp f S view) (s : S.State) (offset len : Nat) (h : offset + len < 200) :
    extractBytes4 S s offset len = .ok fun l => Spec.extractBytes (view s l) offset len := by
  unfold extractBytes4
  rw [bindOk (hS.extractBytes s 0 offset len h), bindOk (hS.extractBytes s 1 offset len h), bindOk (hS.extractBytes s 2 offset len h), bindOk (hS.extractBytes s 3 offset len h)]
  congr 1
  funext l
  fin_cases l <;> rfl

theorem permute4 (hS : PlSnp f S view) (s : S.State) : view (S.permute s) = fun l => f (view s l) := funext (hS.permute s)

theorem absorbBlocks4_sim (hS : PlSnp f S view) {rate : Nat} (hr : rate ≤ 200) (n : Nat) (s : S.State) (data : Fin 4 → Bytes) :
    ∃ s', absorbBlocks4 S rate n s data = .ok s' ∧ view s' = Ideal.absorbBlocks4 f rate n (view s) data := by
  induction n generalizing s data with
  | zero => exact ⟨s, rfl, rfl⟩
  | succ n ih =>
    obtain ⟨s1, e1, e2⟩ := addBytes4_sim hS s (fun l => (data l).take rate) 0 (fun l => by rw [List.length_take]; omega)
    obtain ⟨s2, e3, e4⟩ := ih (S.permute s1) fun l => (data l).drop rate
    unfold absorbBlocks4
    rw [bindOk e1]
    refine ⟨s2, e3, ?_⟩
    rw [e4, permute4 hS, e2]
    rfl

theorem absorbLoop4_sim (hS : PlSnp f S view) (fuel : Nat) (s : Sponge4 S) (data : Fin 4 → Bytes) (len : Nat) (hr : s.rate < 200)
    (hi : s.idx < s.rate) (hl : Fits s.rate s.idx len) (hf : len ≤ fuel) :
    ∃ s', absorbLoop4 S fuel s data len = .ok s' ∧ s'.abs view = Ideal.absorbLoop4 f fuel (s.abs view) data len := by
  induction fuel generalizing s data len with
  | zero =>
    have : len = 0 := by omega
    subst this
    exact ⟨s, rfl, rfl⟩
  | succ fuel ih =>
    unfold absorbLoop4 Ideal.absorbLoop4
    by_cases h0 : len = 0
    · rw [if_pos h0, if_pos h0]
      exact ⟨s, rfl, rfl⟩
    · rw [if_neg h0, if_neg h0]
      by_cases hc : s.idx = 0 ∧ s.rate ≤ len
      · rw [if_pos hc, if_pos (show (s.abs view).idx = 0 ∧ (s.abs view).rate ≤ len from hc)]
        obtain ⟨st, e1, e2⟩ := absorbBlocks4_sim hS hr.le (len / s.rate) s.state data
        simp only
        rw [bindOk e1]
        have hn : 0 < len / s.rate * s.rate := Nat.mul_pos (Nat.div_pos hc.2 (by omega)) (by omega)
        obtain ⟨s', e3, e4⟩ := ih { s with state := st } (fun l => (data l).drop (len / s.rate * s.rate)) (len - len / s.rate * s.rate) hr hi (.inl hc.1) (by omega)
        refine ⟨s', e3, ?_⟩
        rw [e4, Sponge4.abs, e2]
        rfl
      · rw [if_neg hc, if_neg (show ¬ ((s.abs view).idx = 0 ∧ (s.abs view).rate ≤ len) from hc), partialBlock_fits hi hr (by
          rcases hl with h | h
          · exact .inl (by omega)
          · exact h)]
        have ee : (s.abs view).idx = s.idx ∧ (s.abs view).rate = s.rate ∧ (s.abs view).state = view s.state := ⟨rfl, rfl, rfl⟩
        simp only
        rw [ee.1, ee.2.1, ee.2.2]
        generalize hpart : (if len + s.idx > s.rate then s.rate - s.idx else len) = part
        have hp : part ≤ len ∧ 0 < part ∧ s.idx + part ≤ s.rate := by
          subst hpart
          split <;> omega
        obtain ⟨st, e1, e2⟩ := addBytes4_sim hS s.state (fun l => (data l).take part) s.idx (fun l => by rw [List.length_take]; omega)
        rw [bindOk e1]
        by_cases hfull : s.idx + part = s.rate
        · rw [if_pos hfull, if_pos hfull]
          obtain ⟨s', e3, e4⟩ := ih { s with state := S.permute st, idx := 0 } (fun l => (data l).drop part) (len - part) hr (by simp only; omega) (.inl rfl) (by omega)
          refine ⟨s', e3, ?_⟩
          rw [e4, Sponge4.abs, permute4 hS, e2]
          rfl
        · rw [if_neg hfull, if_neg hfull]
          obtain ⟨s', e3, e4⟩ := ih { s with state := st, idx := s.idx + part } (fun l => (data l).drop part) (len - part) hr (by simp only; omega) (.inr (.inl (by
            have : part = len := by
              subst hpart
              split at hfull <;> simp_all
              omega
            simp only
            omega))) (by omega)
          refine ⟨s', e3, ?_⟩
          rw [e4, Sponge4.abs, e2]
          rfl

theorem absorbLast4_sim (hS : PlSnp f S view) (s : Sponge4 S) (hr : s.rate ≤ 200) (hi : s.idx < s.rate) (d : Byte) :
    ∃ s', absorbLast4 S s d = .ok s' ∧ s'.abs view = Ideal.absorbLast4 f (s.abs view) d := by
  unfold absorbLast4 Ideal.absorbLast4
  by_cases hc : d = 0 ∨ s.squeezing = true
  · rw [if_pos hc, if_pos (show d = 0 ∨ (s.abs view).squeezing = true from hc)]
    exact ⟨s, rfl, rfl⟩
  · rw [if_neg hc, if_neg (show ¬ (d = 0 ∨ (s.abs view).squeezing = true) from hc)]
    obtain ⟨s1, e1, e2⟩ := addByte4_sim hS s.state d s.idx (by omega)
    rw [bindOk e1]
    simp only
    generalize hs2 : (if d ≥ 0x80 ∧ s.idx = s.rate - 1 then S.permute s1 else s1) = s2
    have hv : view s2 = if d ≥ 0x80 ∧ s.idx = s.rate - 1 then (fun l => f (Spec.addByte (view s.state l) d s.idx)) else fun l => Spec.addByte (view s.state l) d s.idx := by
      subst hs2
      split
      · rw [permute4 hS, e2]
      · rw [e2]
    obtain ⟨s3, e3, e4⟩ := addByte4_sim hS s2 0x80 (s.rate - 1) (by omega)
    rw [bindOk e3]
    refine ⟨_, rfl, ?_⟩
    simp only [Sponge4.abs, permute4 hS, e4, hv]
    rfl

theorem squeezeBlocks4_sim (hS : PlSnp f S view) {rate : Nat} (hr : rate < 200) (n : Nat) (s : S.State) :
    ∃ s', squeezeBlocks4 S rate n s = .ok (s', (Ideal.squeezeBlocks4 f rate n (view s)).2) ∧ view s' = (Ideal.squeezeBlocks4 f rate n (view s)).1 := by
  induction n generalizing s with
  | zero => exact ⟨s, rfl, rfl⟩
  | succ n ih =>
    obtain ⟨s', e1, e2⟩ := ih (S.permute s)
    unfold squeezeBlocks4
    simp only
    rw [bindOk (extractBytes4_sim hS _ 0 rate (by omega)), bindOk e1]
    refine ⟨s', ?_, ?_⟩
    · simp only [permute4 hS]; rfl
    · rw [e2, permute4 hS]; rfl

theorem squeezeLoop4_sim (hS : PlSnp f S view) (fuel : Nat) (s : Sponge4 S) (len : Nat) (h0 : 0 < s.rate) (hr : s.rate < 200)
    (hi : s.idx ≤ s.rate) (hl : FitsOut s.rate s.idx len) (hf : len ≤ fuel) :
    ∃ s', squeezeLoop4 S fuel s len = .ok (s', (Ideal.squeezeLoop4 f fuel (s.abs view) len).2) ∧ s'.abs view = (Ideal.squeezeLoop4 f fuel (s.abs view) len).1 := by
  induction fuel generalizing s len with
  | zero =>
    have : len = 0 := by omega
    subst this
    exact ⟨s, rfl, rfl⟩
  | succ fuel ih =>
    unfold squeezeLoop4 Ideal.squeezeLoop4
    by_cases hn : len = 0
    · rw [if_pos hn, if_pos hn]
      exact ⟨s, rfl, rfl⟩
    · rw [if_neg hn, if_neg hn]
      by_cases hc : s.idx = s.rate ∧ s.rate ≤ len
      · rw [if_pos hc, if_pos (show (s.abs view).idx = (s.abs view).rate ∧ (s.abs view).rate ≤ len from hc)]
        obtain ⟨st, e1, e2⟩ := squeezeBlocks4_sim hS hr (len / s.rate) s.state
        have hpos : 0 < len / s.rate * s.rate := Nat.mul_pos (Nat.div_pos hc.2 h0) h0
        simp only
        rw [bindOk e1]
        obtain ⟨s', e3, e4⟩ := ih { s with state := st } (len - len / s.rate * s.rate) h0 hr hi (.inl hc.1) (by omega)
        rw [bindOk e3]
        refine ⟨s', ?_, ?_⟩
        · simp only [Sponge4.abs, e2]
        · rw [e4]
          simp only [Sponge4.abs, e2]
      · rw [if_neg hc, if_neg (show ¬ ((s.abs view).idx = (s.abs view).rate ∧ (s.abs view).rate ≤ len) from hc)]
        obtain ⟨s1, hs1, ht1, hi1, hr1⟩ : ∃ s1 : Sponge4 S, (if s.idx = s.rate then { s with state := S.permute s.state, idx := 0 } else s) = s1 ∧
            (if (s.abs view).idx = (s.abs view).rate then { s.abs view with state := fun l => f ((s.abs view).state l), idx := 0 } else s.abs view) = s1.abs view ∧
            s1.idx < s1.rate ∧ s1.rate = s.rate := by
          refine ⟨_, rfl, ?_, ?_, ?_⟩
          · by_cases he : s.idx = s.rate
            · rw [if_pos he, if_pos (show (s.abs view).idx = (s.abs view).rate from he)]
              simp only [Sponge4.abs, permute4 hS]
            · rw [if_neg he, if_neg (show ¬ (s.abs view).idx = (s.abs view).rate from he)]
          · split
            · exact h0
            · omega
          · split <;> rfl
        simp only [hs1, ht1]
        rw [partialBlock_fits hi1 (by omega) (by
          rcases hl with h | h
          · exact .inl (by omega)
          · subst hs1
            split
            · exact .inl (by simp only; omega)
            · exact h)]
        have ee : (s1.abs view).idx = s1.idx ∧ (s1.abs view).rate = s1.rate ∧ (s1.abs view).state = view s1.state := ⟨rfl, rfl, rfl⟩
        rw [ee.1, ee.2.1, ee.2.2]
        generalize hpart : (if len + s1.idx > s1.rate then s1.rate - s1.idx else len) = part
        have hp : part ≤ len ∧ 0 < part ∧ s1.idx + part ≤ s1.rate := by
          subst hpart
          split <;> omega
        rw [bindOk (extractBytes4_sim hS s1.state s1.idx part (by omega))]
        obtain ⟨s', e3, e4⟩ := ih { s1 with idx := s1.idx + part } (len - part) (by simp only; omega) (by simp only; omega) hp.2.2 (by
          by_cases hfull : s1.idx + part = s1.rate
          · exact .inl hfull
          · have : part = len := by
              subst hpart
              split at hfull <;> simp_all
              omega
            exact .inr (.inl (by simp only; omega))) (by omega)
        rw [bindOk e3]
        exact ⟨s', rfl, e4⟩

theorem hashSqueeze4_fits (hS : PlSnp f S view) (T : Fin 4 → St) {rate p : Nat} (s : Sponge4 S) (n : Nat) (h0 : 0 < rate) (hr : rate < 200) (h : ∀ l, Ideal.SqInv f (T l) rate p ((s.abs view).lane l))
    (hl : FitsOut rate s.idx n) :
    ∃ s', hashSqueeze4 S s n = .ok (s', fun l => (squeezeStream f rate (T l)).squeeze p n) ∧ (∀ l, Ideal.SqInv f (T l) rate (p + n) ((s'.abs view).lane l)) ∧ (0 < n ∨ 0 < s.idx → 0 < s'.idx) := by
  have hrate : s.rate = rate := (h 0).1
  have hq : s.squeezing = true := (h 0).2.1
  have hi : s.idx ≤ rate := (h 0).2.2.1
  obtain ⟨s', e3, e4⟩ := squeezeLoop4_sim hS n s n (by omega) (by omega) (by omega) (by rw [hrate]; exact hl) le_rfl
  refine ⟨s', ?_, ?_, ?_⟩
  · unfold hashSqueeze4
    rw [hq, if_pos rfl, bindOk rfl]
    simp only
    rw [e3]
    congr 2
    funext l
    rw [← (Ideal.squeezeLoop_eq f (T l) h0 n ((s.abs view).lane l) p n (h l) le_rfl).1]
    exact congrArg Prod.snd (Ideal.squeezeLoop4_lane f n (s.abs view) n l)
  · intro l
    have := (Ideal.squeezeLoop_eq f (T l) h0 n ((s.abs view).lane l) p n (h l) le_rfl).2
    have e5 : (Ideal.squeezeLoop4 f n (s.abs view) n).1.lane l = (Ideal.squeezeLoop f n ((s.abs view).lane l) n).1 := congrArg Prod.fst (Ideal.squeezeLoop4_lane f n (s.abs view) n l)
    rw [e4, e5]
    exact this
  · intro hn
    have := Ideal.squeezeLoop_idx (f := f) n ((s.abs view).lane 0) n (show 0 < s.rate by omega) (show s.idx ≤ s.rate by omega) hn le_rfl
    have e5 : (Ideal.squeezeLoop4 f n (s.abs view) n).1.lane 0 = (Ideal.squeezeLoop f n ((s.abs view).lane 0) n).1 := congrArg Prod.fst (Ideal.squeezeLoop4_lane f n (s.abs view) n 0)
    rw [← e5, ← e4] at this
    exact this

theorem hashSqueeze4_sim (hS : PlSnp f S view) (T : Fin 4 → St) {rate p : Nat} (s : Sponge4 S) (n : Nat) (h0 : 0 < rate) (hr : rate < 200) (h : ∀ l, Ideal.SqInv f (T l) rate p ((s.abs view).lane l))
    (hl : n + rate ≤ 2 ^ 32) :
    ∃ s', hashSqueeze4 S s n = .ok (s', fun l => (squeezeStream f rate (T l)).squeeze p n) ∧ ∀ l, Ideal.SqInv f (T l) rate (p + n) ((s'.abs view).lane l) := by
  obtain ⟨s', e, g, -⟩ := hashSqueeze4_fits hS T s n h0 hr h (fitsOut_of_small (h 0).2.2.1 hl)
  exact ⟨s', e, g⟩

theorem hashUpdate4_fits (hS : PlSnp f S view) {k : ShakeKind} {msg : Fin 4 → Bytes} {s : Sponge4 S} (h : ∀ l, (s.abs view).lane l = Ideal.ctx f k (msg l)) (data : Fin 4 → Bytes) (len : Nat)
    (hd : ∀ l, (data l).length = len) (hl : Fits (kindRate k) ((msg 0).length % kindRate k) len) :
    ∃ s', hashUpdate4 S s data len = .ok s' ∧ ∀ l, (s'.abs view).lane l = Ideal.ctx f k (msg l ++ data l) := by
  have hr : s.rate = kindRate k := congrArg Ideal.Sponge.rate (h 0)
  have hi : s.idx = (Ideal.ctx f k (msg 0)).idx := congrArg Ideal.Sponge.idx (h 0)
  have hq : s.squeezing = false := congrArg Ideal.Sponge.squeezing (h 0)
  obtain ⟨s', e1, e2⟩ := absorbLoop4_sim hS len s data len (by rw [hr]; exact (kind_facts k).2.1) (by rw [hr, hi]; exact ctx_idx k (msg 0)) (by rw [hr, hi, ctx_idx_eq]; exact hl) le_rfl
  refine ⟨s', ?_, fun l => ?_⟩
  · rw [hashUpdate4, hq, if_neg (by decide), e1]
  · rw [← Ideal.hashUpdate_ctx, ← h l, ← Ideal.hashUpdate4_lane f (s.abs view) data len hd l, e2, Ideal.hashUpdate4]
    simp [Sponge4.abs, hq]

theorem hashUpdate4_sim (hS : PlSnp f S view) {k : ShakeKind} {msg : Fin 4 → Bytes} {s : Sponge4 S} (h : ∀ l, (s.abs view).lane l = Ideal.ctx f k (msg l)) (data : Fin 4 → Bytes) (len : Nat)
    (hd : ∀ l, (data l).length = len) (hl : len + kindRate k ≤ 2 ^ 32) :
    ∃ s', hashUpdate4 S s data len = .ok s' ∧ ∀ l, (s'.abs view).lane l = Ideal.ctx f k (msg l ++ data l) :=
  hashUpdate4_fits hS h data len hd (fits_of_small (Nat.mod_lt _ (kind_facts k).2.2) hl)

theorem hashFinal4_sim (hS : PlSnp f S view) {k : ShakeKind} {msg : Fin 4 → Bytes} {s : Sponge4 S} (h : ∀ l, (s.abs view).lane l = Ideal.ctx f k (msg l)) :
    ∃ s', hashFinal4 S s = .ok s' ∧ ∀ l, (s'.abs view).lane l = Ideal.hashFinal f (Ideal.ctx f k (msg l)) := by
  have hr : s.rate = kindRate k := congrArg Ideal.Sponge.rate (h 0)
  have hi : s.idx = (Ideal.ctx f k (msg 0)).idx := congrArg Ideal.Sponge.idx (h 0)
  obtain ⟨s', e1, e2⟩ := absorbLast4_sim hS s (by rw [hr]; exact (kind_facts k).2.1.le) (by rw [hr, hi]; exact ctx_idx k (msg 0)) s.suffix
  refine ⟨s', e1, fun l => ?_⟩
  rw [e2, Ideal.absorbLast4_lane, h l, Ideal.hashFinal]
  have : s.suffix = (Ideal.ctx f k (msg l)).suffix := congrArg Ideal.Sponge.suffix (h l)
  rw [this]

theorem absorb_overrun4 (s : Sponge4 S) (data : Fin 4 → Bytes) (len : Nat) (hq : s.squeezing = false) (h0 : 0 < s.idx) (hd : 0 < len) (hlen : len + s.idx = 2 ^ 32)
    (hb : S.addBytes s.state 0 ((data 0).take len) s.idx = .error .ub) : hashUpdate4 S s data len = .error .ub := by
  unfold hashUpdate4
  rw [hq, if_neg (by decide)]
  obtain ⟨n, rfl⟩ : ∃ n, len = n + 1 := ⟨len - 1, by omega⟩
  rw [absorbLoop4, if_neg (by omega), if_neg (by omega)]
  simp only
  rw [partialBlock_overflow hlen h0, addBytes4, hb]
  rfl

end four

end Banquet
