import Verif.Proofs.SpongeSim

/-! What the sponge code does with pieces that do not fit. -/

namespace Banquet

open Spec

theorem partialBlock_misfit {left idx rate : Nat} (hi : idx < rate) (hr : rate < 200) (h : ¬NoWrap rate idx left) : partialBlock left idx rate = left % 2 ^ 32 := by
  unfold NoWrap at h
  unfold partialBlock
  simp only
  rw [if_neg]
  omega

theorem partialBlock_multiple {left idx rate : Nat} (hi : idx < rate) (hr : rate < 200) (h : left % 2 ^ 32 = 0) : partialBlock left idx rate = 0 := by
  unfold partialBlock
  simp only
  rw [h, if_neg]
  omega

section one

variable {f : St → St} {S : SnP} {view : S.State → St}

/-- In the middle of a block, a multiple of 4 GiB is never finished. -/
theorem absorbLoop_hang (hS : Snp f S view) (fuel : Nat) (s : Sponge S) (data : Bytes) (h0 : 0 < s.idx) (hi : s.idx < s.rate) (hr : s.rate < 200) (hd : 0 < data.length) (hl : data.length % 2 ^ 32 = 0) :
    absorbLoop S fuel s data = .error .fuel := by
  have hne : data ≠ [] := List.length_pos_iff.1 hd
  induction fuel generalizing s with
  | zero => rw [absorbLoop, if_neg hne]
  | succ fuel ih =>
    rw [absorbLoop, if_neg hne, if_neg (by omega)]
    simp only
    obtain ⟨st, e, -⟩ := hS.addBytes s.state [] s.idx (by simp; omega)
    rw [partialBlock_multiple hi hr hl, List.take_zero, List.drop_zero, bindOk e, if_neg (by omega), Nat.add_zero]
    exact ih { s with state := st } h0 hi hr

/-- A piece that does not fit: the loop leaves the state, or does not end. -/
theorem absorbLoop_misfit (hS : Snp f S view) (hB : ∀ st data offset, 0 < offset → offset < 200 → 200 < offset + data.length → S.addBytes st data offset = .error .ub) (fuel : Nat) (hf : 0 < fuel)
    (s : Sponge S) (data : Bytes) (hi : s.idx < s.rate) (hr : s.rate < 200) (hl : ¬Fits s.rate s.idx data.length) : absorbLoop S fuel s data = .error (misfit s.idx data.length) := by
  unfold Fits at hl
  have hl' : ¬(NoWrap s.rate s.idx data.length) := fun h => hl (.inr h)
  have h0 : 0 < s.idx := Nat.pos_of_ne_zero fun h => hl (.inl h)
  obtain ⟨fuel, rfl⟩ : ∃ n, fuel = n + 1 := ⟨fuel - 1, by omega⟩
  have hne : data ≠ [] := by
    rintro rfl
    exact hl' (.inl (by simp; omega))
  rw [absorbLoop, if_neg hne, if_neg (by omega)]
  simp only
  rw [partialBlock_misfit hi hr hl']
  unfold NoWrap at hl'
  unfold misfit
  have hm : data.length % 2 ^ 32 ≤ data.length := Nat.mod_le _ _
  by_cases hw : 2 ^ 32 ≤ data.length % 2 ^ 32 + s.idx
  · rw [if_pos hw, hB _ _ _ h0 (by omega) (by rw [List.length_take]; omega)]
    rfl
  · rw [if_neg hw]
    obtain ⟨st, e, -⟩ := hS.addBytes s.state (data.take (data.length % 2 ^ 32)) s.idx (by rw [List.length_take]; omega)
    rw [bindOk e, if_neg (by omega)]
    exact absorbLoop_hang hS fuel _ _ (by simp only; omega) (by simp only; omega) hr (by rw [List.length_drop]; omega) (by rw [List.length_drop]; omega)

/-- The loop of a piece that hangs never ends. -/
theorem absorbLoop_never (hS : Snp f S view) (fuel : Nat) (s : Sponge S) (data : Bytes) (hi : s.idx < s.rate) (hr : s.rate < 200) (hl : ¬Fits s.rate s.idx data.length) (hw : data.length % 2 ^ 32 + s.idx < 2 ^ 32) :
    absorbLoop S fuel s data = .error .fuel := by
  have hl' : ¬(NoWrap s.rate s.idx data.length) := fun h => hl (.inr h)
  have h0 : 0 < s.idx := Nat.pos_of_ne_zero fun h => hl (.inl h)
  have hne : data ≠ [] := by
    rintro rfl
    exact hl' (.inl (by simp; omega))
  cases fuel with
  | zero => rw [absorbLoop, if_neg hne]
  | succ fuel =>
    rw [absorbLoop, if_neg hne, if_neg (by omega)]
    simp only
    rw [partialBlock_misfit hi hr hl']
    unfold NoWrap at hl'
    have hm : data.length % 2 ^ 32 ≤ data.length := Nat.mod_le _ _
    obtain ⟨st, e, -⟩ := hS.addBytes s.state (data.take (data.length % 2 ^ 32)) s.idx (by rw [List.length_take]; omega)
    rw [bindOk e, if_neg (by omega)]
    exact absorbLoop_hang hS fuel _ _ (by simp only; omega) (by simp only; omega) hr (by rw [List.length_drop]; omega) (by rw [List.length_drop]; omega)

theorem hashUpdate_misfit (hS : Snp f S view) (hB : ∀ st data offset, 0 < offset → offset < 200 → 200 < offset + data.length → S.addBytes st data offset = .error .ub) {k : ShakeKind} {msg : Bytes} {s : Sponge S}
    (h : s.abs view = Ideal.ctx f k msg) (data : Bytes) (hl : ¬Fits (kindRate k) (msg.length % kindRate k) data.length) : hashUpdate S s data = .error (misfit (msg.length % kindRate k) data.length) := by
  have hr : s.rate = kindRate k := congrArg Ideal.Sponge.rate h
  have hi : s.idx = msg.length % kindRate k := (congrArg Ideal.Sponge.idx h).trans (ctx_idx_eq k msg)
  have hq : s.squeezing = false := congrArg Ideal.Sponge.squeezing h
  have hk := kind_facts k
  have hm := Nat.mod_lt msg.length hk.2.2
  unfold hashUpdate
  rw [hq, if_neg (by decide), ← hi]
  rw [← hi, ← hr] at hl
  refine absorbLoop_misfit hS hB _ ?_ s data (by omega) (by omega) hl
  refine Nat.pos_of_ne_zero fun h => hl (.inr (.inl ?_))
  omega

/-- Within a block, a multiple of 4 GiB of output is never finished. -/
theorem squeezeLoop_hang (hS : Snp f S view) (fuel : Nat) (s : Sponge S) (len : Nat) (hi : s.idx < s.rate) (hr : s.rate < 200) (hd : 0 < len) (hl : len % 2 ^ 32 = 0) : squeezeLoop S fuel s len = .error .fuel := by
  induction fuel with
  | zero => rw [squeezeLoop, if_neg (by omega)]
  | succ fuel ih =>
    rw [squeezeLoop, if_neg (by omega), if_neg (by omega)]
    simp only
    rw [if_neg (by omega), partialBlock_multiple hi hr hl, bindOk (hS.extractBytes s.state s.idx 0 (by omega)), Nat.add_zero, Nat.sub_zero, ih]
    rfl

theorem squeezeLoop_never (hS : Snp f S view) (fuel : Nat) (s : Sponge S) (len : Nat) (hi : s.idx < s.rate) (hr : s.rate < 200) (hl : ¬NoWrap s.rate s.idx len) (hw : len % 2 ^ 32 + s.idx < 2 ^ 32) :
    squeezeLoop S fuel s len = .error .fuel := by
  have hm : len % 2 ^ 32 ≤ len := Nat.mod_le _ _
  have hne : len ≠ 0 := by
    rintro rfl
    exact hl (.inl (by omega))
  cases fuel with
  | zero => rw [squeezeLoop, if_neg hne]
  | succ fuel =>
    rw [squeezeLoop, if_neg hne, if_neg (by omega)]
    simp only
    rw [if_neg (by omega), partialBlock_misfit hi hr hl]
    unfold NoWrap at hl
    rw [bindOk (hS.extractBytes s.state s.idx _ (by omega)), squeezeLoop_hang hS fuel { s with idx := s.idx + len % 2 ^ 32 } (len - len % 2 ^ 32) (by simp only; omega) hr (by omega) (by omega)]
    rfl

theorem hashSqueeze_misfit (hS : Snp f S view) (hB : ∀ st offset len, 0 < offset → offset < 200 → 200 < offset + len → S.extractBytes st offset len = .error .ub) {T : St} {rate p : Nat} {s : Sponge S} (n : Nat) (hr : rate < 200)
    (h : Ideal.SqInv f T rate p (s.abs view)) (hl : ¬FitsOut rate s.idx n) : hashSqueeze S s n = .error (misfit s.idx n) := by
  have hrate : s.rate = rate := h.1
  have hq : s.squeezing = true := h.2.1
  have hi : s.idx ≤ rate := h.2.2.1
  subst hrate
  have h1 : s.idx < s.rate := by
    have : s.idx ≠ s.rate := fun h => hl (.inl h)
    omega
  have hl' : ¬NoWrap s.rate s.idx n := fun h => hl (.inr h)
  unfold hashSqueeze
  rw [hq, if_pos rfl, bindOk rfl]
  simp only
  unfold misfit
  by_cases hw : 2 ^ 32 ≤ n % 2 ^ 32 + s.idx
  · rw [if_pos hw]
    have hm : n % 2 ^ 32 ≤ n := Nat.mod_le _ _
    obtain ⟨m, rfl⟩ : ∃ m, n = m + 1 := ⟨n - 1, by omega⟩
    rw [squeezeLoop, if_neg (by omega), if_neg (by omega)]
    simp only
    rw [if_neg (by omega), partialBlock_misfit h1 hr hl', hB _ _ _ (by omega) (by omega) (by omega)]
    rfl
  · rw [if_neg hw]
    exact squeezeLoop_never hS n s n h1 hr hl' (by omega)

end one

section four

variable {f : St → St} {S : PlSnP} {view : S.State → Fin 4 → St}

theorem absorbLoop4_hang (hS : PlSnp f S view) (fuel : Nat) (s : Sponge4 S) (data : Fin 4 → Bytes) (len : Nat) (h0 : 0 < s.idx) (hi : s.idx < s.rate) (hr : s.rate < 200) (hd : 0 < len) (hl : len % 2 ^ 32 = 0) :
    absorbLoop4 S fuel s data len = .error .fuel := by
  induction fuel generalizing s data with
  | zero => rw [absorbLoop4, if_neg (by omega)]
  | succ fuel ih =>
    rw [absorbLoop4, if_neg (by omega), if_neg (by omega)]
    simp only
    obtain ⟨st, e, -⟩ := addBytes4_sim hS s.state (fun l => (data l).take 0) s.idx (fun l => by rw [List.length_take]; omega)
    rw [partialBlock_multiple hi hr hl, bindOk e, if_neg (by omega), Nat.add_zero, Nat.sub_zero]
    exact ih { s with state := st } _ h0 hi hr

theorem absorbLoop4_misfit (hS : PlSnp f S view) (hB : PlBounded S) (fuel : Nat) (hf : 0 < fuel) (s : Sponge4 S) (data : Fin 4 → Bytes) (len : Nat) (hlen : ∀ l, (data l).length = len) (hi : s.idx < s.rate) (hr : s.rate < 200)
    (hl : ¬Fits s.rate s.idx len) : absorbLoop4 S fuel s data len = .error (misfit s.idx len) := by
  have hl' : ¬(NoWrap s.rate s.idx len) := fun h => hl (.inr h)
  have h0 : 0 < s.idx := Nat.pos_of_ne_zero fun h => hl (.inl h)
  obtain ⟨fuel, rfl⟩ : ∃ n, fuel = n + 1 := ⟨fuel - 1, by omega⟩
  have hne : len ≠ 0 := by
    rintro rfl
    exact hl' (.inl (by omega))
  rw [absorbLoop4, if_neg hne, if_neg (by omega)]
  simp only
  rw [partialBlock_misfit hi hr hl']
  unfold NoWrap at hl'
  unfold misfit
  have hm : len % 2 ^ 32 ≤ len := Nat.mod_le _ _
  by_cases hw : 2 ^ 32 ≤ len % 2 ^ 32 + s.idx
  · rw [if_pos hw]
    unfold addBytes4
    rw [hB.write _ 0 _ _ h0 (by omega) (by rw [List.length_take, hlen]; omega)]
    rfl
  · rw [if_neg hw]
    obtain ⟨st, e, -⟩ := addBytes4_sim hS s.state (fun l => (data l).take (len % 2 ^ 32)) s.idx (fun l => by rw [List.length_take]; omega)
    rw [bindOk e, if_neg (by omega)]
    exact absorbLoop4_hang hS fuel _ _ _ (by simp only; omega) (by simp only; omega) hr (by omega) (by omega)

theorem hashUpdate4_misfit (hS : PlSnp f S view) (hB : PlBounded S) {k : ShakeKind} {msg : Fin 4 → Bytes} {s : Sponge4 S} (h : ∀ l, (s.abs view).lane l = Ideal.ctx f k (msg l)) (data : Fin 4 → Bytes) (len : Nat)
    (hlen : ∀ l, (data l).length = len) (hl : ¬Fits (kindRate k) ((msg 0).length % kindRate k) len) : hashUpdate4 S s data len = .error (misfit ((msg 0).length % kindRate k) len) := by
  have hr : s.rate = kindRate k := congrArg Ideal.Sponge.rate (h 0)
  have hi : s.idx = (msg 0).length % kindRate k := (congrArg Ideal.Sponge.idx (h 0)).trans (ctx_idx_eq k (msg 0))
  have hq : s.squeezing = false := congrArg Ideal.Sponge.squeezing (h 0)
  have hk := kind_facts k
  have hm := Nat.mod_lt (msg 0).length hk.2.2
  unfold hashUpdate4
  rw [hq, if_neg (by decide), ← hi]
  rw [← hi, ← hr] at hl
  refine absorbLoop4_misfit hS hB _ ?_ s data len hlen (by omega) (by omega) hl
  refine Nat.pos_of_ne_zero fun h => hl (.inr (.inl ?_))
  omega

theorem squeezeLoop4_hang (hS : PlSnp f S view) (fuel : Nat) (s : Sponge4 S) (len : Nat) (hi : s.idx < s.rate) (hr : s.rate < 200) (hd : 0 < len) (hl : len % 2 ^ 32 = 0) : squeezeLoop4 S fuel s len = .error .fuel := by
  induction fuel with
  | zero => rw [squeezeLoop4, if_neg (by omega)]
  | succ fuel ih =>
    rw [squeezeLoop4, if_neg (by omega), if_neg (by omega)]
    simp only
    rw [if_neg (by omega), partialBlock_multiple hi hr hl, bindOk (extractBytes4_sim hS s.state s.idx 0 (by omega)), Nat.add_zero, Nat.sub_zero, ih]
    rfl

theorem hashSqueeze4_misfit (hS : PlSnp f S view) (hB : PlBounded S) {T : Fin 4 → St} {rate p : Nat} {s : Sponge4 S} (n : Nat) (hr : rate < 200) (h : ∀ l, Ideal.SqInv f (T l) rate p ((s.abs view).lane l))
    (hl : ¬FitsOut rate s.idx n) : hashSqueeze4 S s n = .error (misfit s.idx n) := by
  have hrate : s.rate = rate := (h 0).1
  have hq : s.squeezing = true := (h 0).2.1
  have hi : s.idx ≤ rate := (h 0).2.2.1
  subst hrate
  have h1 : s.idx < s.rate := by
    have : s.idx ≠ s.rate := fun h => hl (.inl h)
    omega
  have hl' : ¬NoWrap s.rate s.idx n := fun h => hl (.inr h)
  have hne : n ≠ 0 := by
    rintro rfl
    exact hl' (.inl (by omega))
  unfold hashSqueeze4
  rw [hq, if_pos rfl, bindOk rfl]
  simp only
  unfold misfit
  have hm : n % 2 ^ 32 ≤ n := Nat.mod_le _ _
  obtain ⟨m, rfl⟩ : ∃ m, n = m + 1 := ⟨n - 1, by omega⟩
  rw [squeezeLoop4, if_neg (by omega), if_neg (by omega)]
  simp only
  rw [if_neg (show ¬s.idx = s.rate by omega), partialBlock_misfit h1 hr hl']
  unfold NoWrap at hl'
  by_cases hw : 2 ^ 32 ≤ (m + 1) % 2 ^ 32 + s.idx
  · rw [if_pos hw]
    unfold extractBytes4
    rw [hB.read _ 0 _ _ (by omega) (by omega) (by omega)]
    rfl
  · rw [if_neg hw, bindOk (extractBytes4_sim hS s.state s.idx _ (by omega)), squeezeLoop4_hang hS m { s with idx := s.idx + (m + 1) % 2 ^ 32 } (m + 1 - (m + 1) % 2 ^ 32) (by simp only; omega) hr (by omega) (by omega)]
    rfl

end four

end Banquet
