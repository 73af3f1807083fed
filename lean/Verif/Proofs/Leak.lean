import Verif.Model.Lookups
import Verif.Spec.Leak
import Verif.Proofs.LoopsSignAll
import Mathlib.Data.List.GetD

/-! The table lookups of sign. -/

namespace Banquet

open Spec.Aes Spec.Leak

/-! ## The key from the S-box inputs -/

theorem length_wIns (nk : Nat) (key : Bytes) (i : Nat) : (wIns nk key i).length = if nk ≤ i ∧ (i % nk = 0 ∨ 6 < nk ∧ i % nk = 4) then 4 else 0 := by
  unfold wIns
  by_cases h1 : i < nk
  · rw [if_pos h1, if_neg (by omega)]
    rfl
  rw [if_neg h1]
  by_cases h2 : i % nk = 0
  · rw [if_pos h2, if_pos ⟨by omega, .inl h2⟩]
    simp
  rw [if_neg h2]
  by_cases h3 : 6 < nk ∧ i % nk = 4
  · rw [if_pos h3, if_pos ⟨by omega, .inr h3⟩]
    simp
  · rw [if_neg h3, if_neg (by omega)]
    rfl

theorem length_keyInputs (nk : Nat) (hn : 0 < nk) (key : Bytes) : (keyInputs nk key (4 * (nk + 7))).length = scheduled nk := by
  rw [keyInputs_eq nk hn, scheduled]
  generalize 4 * (nk + 7) = n
  induction n with
  | zero => rfl
  | succ n ih =>
    rw [List.range_succ, List.flatMap_append, List.length_append, ih, List.filter_append, List.length_append]
    simp only [List.flatMap_cons, List.flatMap_nil, List.append_nil, length_wIns, List.filter_cons, List.filter_nil, decide_eq_true_eq]
    split_ifs <;> (simp; try omega)

theorem getD_blocks (f : Nat → Bytes) (n k : Nat) (h : ∀ i < n, (f i).length = k) {i j : Nat} (hi : i < n) (hj : j < k) (r : Bytes) : ((List.range n).flatMap f ++ r).getD (k * i + j) 0 = (f i).getD j 0 := by
  induction n generalizing r with
  | zero => omega
  | succ n ih =>
    rw [List.range_succ, List.flatMap_append, List.append_assoc, List.flatMap_cons, List.flatMap_nil, List.append_nil]
    rcases Nat.lt_or_ge i n with hin | hin
    · exact ih (fun i hi => h i (by omega)) hin _
    · have : i = n := by omega
      subst this
      have hl := length_flatMap_range f i k fun i hi => h i (by omega)
      rw [List.getD_eq_getElem?_getD, List.getElem?_append_right (by rw [hl, Nat.mul_comm]; omega), hl, show k * i + j - i * k = j by rw [Nat.mul_comm]; omega,
        List.getElem?_append_left (by rw [h i hi]; exact hj), List.getD_eq_getElem?_getD]

theorem stateOf_code (keySize : Nat) (hk : keySize = 16 ∨ keySize = 24 ∨ keySize = 32) (key pt : Bytes) (i : Nat) (hi : i < keySize / 4 + 6) :
    stateOf (keySize / 4) (fun n => (codeInputs (keySize / 4) (nBlocks keySize) key pt).getD n 0) i =
      roundState (keyExpansion (keySize / 4) key (4 * (keySize / 4 + 7))) (toState (slice pt 0 16)) i := by
  have hb : 0 < nBlocks keySize := by unfold nBlocks; split <;> omega
  have hn : 0 < keySize / 4 := by omega
  generalize keySize / 4 = nk at *
  unfold stateOf codeInputs
  apply Vector.ext
  intro c hc
  apply Vector.ext
  intro r hr
  simp only [Vector.getElem_ofFn]
  rw [List.getD_eq_getElem?_getD, List.getElem?_append_right (by rw [length_keyInputs nk hn]; omega), length_keyInputs nk hn, ← List.getD_eq_getElem?_getD,
    show scheduled nk + 16 * i + 4 * r + c - scheduled nk = 16 * i + (4 * r + c) by omega]
  obtain ⟨b, hb'⟩ : ∃ b, nBlocks keySize = b + 1 := ⟨nBlocks keySize - 1, by omega⟩
  rw [hb', List.range_succ_eq_map, List.flatMap_cons, Nat.mul_zero]
  unfold roundIns
  rw [getD_blocks _ _ 16 (fun _ _ => by simp) hi (by omega)]
  rw [getD_of_lt (by simp; omega), Vector.getElem_toList]
  unfold Blk.rowOrder
  simp only [Vector.getElem_ofFn]
  rw [getElem_ofState]
  have h1 : ((4 * r + c) % 4 * 4 + (4 * r + c) / 4) / 4 = c := by omega
  have h2 : ((4 * r + c) % 4 * 4 + (4 * r + c) / 4) % 4 = r := by omega
  simp only [h1, h2]

theorem getD_bytes (s : State) (j : Nat) (hj : j < 16) : s.bytes.getD j 0 = (s[j / 4]'(by omega))[j % 4] := by
  rw [← ofState_toList, getD_of_lt (by simp; omega), Vector.getElem_toList, getElem_ofState]

theorem getD_bytes_fn (f : Nat → Word) (j : Nat) (hj : j < 16) : (State.bytes (Vector.ofFn fun c => f c.val)).getD j 0 = (f (j / 4))[j % 4] := by
  rw [getD_bytes _ _ hj]
  exact congrArg (fun w : Word => w[j % 4]) (Vector.getElem_ofFn _)

theorem getElem_keyWord (key : Bytes) (i r : Nat) (hr : r < 4) : (keyWord key i)[r] = key.getD (4 * i + r) 0 := Vector.getElem_ofFn _

theorem length_bytes (s : State) : s.bytes.length = 16 := by rw [← ofState_toList]; simp

theorem word_cancel (a b : Word) : (a.xor b).xor a = b := by
  apply Vector.ext
  intro r hr
  unfold Word.xor
  rw [Vector.getElem_ofFn]
  have : ∀ x y : Byte, (x ^^^ y) ^^^ x = y := fun x y => by rw [BitVec.xor_comm x y, BitVec.xor_assoc, BitVec.xor_self, BitVec.xor_zero]
  refine Eq.trans ?_ (this a[r] b[r])
  congr 1
  exact Vector.getElem_ofFn _

theorem diff_add (s : State) (w : List Word) (i : Nat) : diff (s.addRoundKey w i) s = Vector.ofFn fun c => w.getD (4 * i + c.val) (Vector.replicate 4 0) := by
  apply Vector.ext
  intro c hc
  unfold diff
  rw [Vector.getElem_ofFn, Vector.getElem_ofFn]
  refine Eq.trans ?_ (word_cancel s[c] _)
  congr 1
  exact Vector.getElem_ofFn _

/-- The S-box inputs determine the key. -/
theorem keyOf_code (keySize : Nat) (hk : keySize = 16 ∨ keySize = 24 ∨ keySize = 32) (key pt : Bytes) (hl : key.length = keySize) :
    keyOf (keySize / 4) (slice pt 0 16) (fun n => (codeInputs (keySize / 4) (nBlocks keySize) key pt).getD n 0) = key := by
  unfold keyOf
  rw [stateOf_code keySize hk key pt 0 (by omega), stateOf_code keySize hk key pt 1 (by omega)]
  rw [roundState, roundState, roundState, diff_add, diff_add]
  have h4 : 4 * (keySize / 4) = keySize := by omega
  have hw : ∀ i < keySize / 4, (keyExpansion (keySize / 4) key (4 * (keySize / 4 + 7))).getD i (Vector.replicate 4 0) = keyWord key i := by
    intro i hi
    rw [getD_keyExpansion _ _ _ _ (by omega), W_succ, if_pos hi]
  apply List.ext_getElem
  · rw [List.length_take, List.length_append, length_bytes, length_bytes]
    omega
  · intro j h1 h2
    rw [List.getElem_take, ← getD_of_lt (d := 0)]
    have hj : j < keySize := by omega
    rcases Nat.lt_or_ge j 16 with h | h
    · rw [List.getD_append _ _ _ _ (by rw [length_bytes]; exact h), getD_bytes_fn (fun c => (keyExpansion (keySize / 4) key (4 * (keySize / 4 + 7))).getD (4 * 0 + c) (Vector.replicate 4 0)) _ h]
      rw [hw _ (by omega), getElem_keyWord, show 4 * (4 * 0 + j / 4) + j % 4 = j by omega, getD_of_lt h2]
    · rw [List.getD_append_right _ _ _ _ (by rw [length_bytes]; exact h), length_bytes,
        getD_bytes_fn (fun c => (keyExpansion (keySize / 4) key (4 * (keySize / 4 + 7))).getD (4 * (0 + 1) + c) (Vector.replicate 4 0)) _ (by omega)]
      rw [hw _ (by omega), getElem_keyWord, show 4 * (4 * (0 + 1) + (j - 16) / 4) + (j - 16) % 4 = j by omega, getD_of_lt h2]

theorem stateOf_congr (nk : Nat) {s s' : Nat → Byte} (i : Nat) (h : ∀ n < scheduled nk + 16 * (i + 1), s n = s' n) : stateOf nk s i = stateOf nk s' i := by
  apply Vector.ext
  intro c hc
  apply Vector.ext
  intro r hr
  unfold stateOf
  simp only [Vector.getElem_ofFn]
  exact h _ (by omega)

theorem keyOf_congr (nk : Nat) (pt : Bytes) {s s' : Nat → Byte} (h : ∀ n < scheduled nk + 32, s n = s' n) : keyOf nk pt s = keyOf nk pt s' := by
  unfold keyOf
  rw [stateOf_congr nk 0 fun n hn => h n (by omega), stateOf_congr nk 1 fun n hn => h n (by omega)]

/-- The first 16 bytes of the key from one byte each. -/
theorem keyOf_first (nk : Nat) (hn : 4 ≤ nk) (pt : Bytes) (s : Nat → Byte) (j : Nat) (hj : j < 16) : (keyOf nk pt s).getD j 0 = s (scheduled nk + 4 * (j % 4) + j / 4) ^^^ pt.getD j 0 := by
  unfold keyOf
  rw [getD_of_lt (by rw [List.length_take, List.length_append, length_bytes, length_bytes]; omega), List.getElem_take, ← getD_of_lt (d := 0),
    List.getD_append _ _ _ _ (by rw [length_bytes]; exact hj), getD_bytes _ _ hj]
  have e : (diff (stateOf nk s 0) (toState pt))[j / 4]'(by omega) = ((stateOf nk s 0)[j / 4]'(by omega)).xor ((toState pt)[j / 4]'(by omega)) := Vector.getElem_ofFn _
  rw [e]
  have e2 : ∀ (a b : Word) (r : Nat) (h : r < 4), (a.xor b)[r] = a[r] ^^^ b[r] := fun a b r h => Vector.getElem_ofFn _
  rw [e2]
  unfold stateOf toState
  simp only [Vector.getElem_ofFn]
  rw [show 4 * (j / 4) + j % 4 = j by omega, Nat.mul_zero, Nat.add_zero]

theorem scheduled_lt {I : Instance} (hI : Spec.Consistent I) : scheduled (I.aes.keySize / 4) + 32 ≤ I.m1 * I.m2 := by
  rw [hI.sboxes]
  rcases hI.aes with h | h | h <;> (simp only [Prod.mk.injEq] at h; obtain ⟨h1, h2, h3, h4⟩ := h; rw [h1, h4]; decide +kernel)

/-! ## The loops -/

theorem forTo_flat {α : Type} (n : Nat) (body : Nat → List α → M (List α)) (g : Nat → List α) (l : List α) (h : ∀ i < n, ∀ l, body i l = .ok (l ++ g i)) : Loops.forTo n body l = .ok (l ++ (List.range n).flatMap g) :=
  Loops.forTo_state _ _ _ (fun i => l ++ (List.range i).flatMap g) (by simp) fun i hi => by
    rw [h i hi, List.range_succ, List.flatMap_append, List.append_assoc]
    simp

theorem productLookups_ok {I : Instance} (hI : Spec.Consistent I) (saved : Saved) (h1 : saved.1.length = I.aes.numSboxes) (h2 : saved.2.length = I.aes.numSboxes) (l : Bytes) :
    Loops.productLookups I saved l = .ok (l ++ (List.range I.m1).flatMap fun j => (List.range I.m2).flatMap fun k => [saved.1.getD (j + I.m1 * k) 0, saved.2.getD (j + I.m1 * k) 0]) := by
  unfold Loops.productLookups
  refine forTo_flat _ _ _ _ fun j hj l => forTo_flat _ _ _ _ fun k hk l => ?_
  have hc : j + I.m1 * k < I.aes.numSboxes := by rw [← hI.sboxes]; exact col_lt hj hk
  rw [Loops.rd_getD 0 (by omega), ok_bind, Loops.rd_getD 0 (by omega), ok_bind]

theorem shareLookups_ok (I : Instance) (s t : Nat → Nat → Bytes) (hs : ∀ e < I.numRounds, ∀ p < I.numParties, (s e p).length = I.aes.numSboxes) (ht : ∀ e < I.numRounds, ∀ p < I.numParties, (t e p).length = I.aes.numSboxes) (l : Bytes) :
    Loops.shareLookups I (Loops.of I.numRounds I.numParties I.aes.numSboxes 0 s) (Loops.of I.numRounds I.numParties I.aes.numSboxes 0 t) l =
      .ok (l ++ (List.range I.numRounds).flatMap fun e => (List.range I.numParties).flatMap fun p => (List.range I.aes.numSboxes).flatMap fun i => [(s e p).getD i 0, (t e p).getD i 0]) := by
  unfold Loops.shareLookups
  refine forTo_flat _ _ _ _ fun e he l => forTo_flat _ _ _ _ fun p hp l => forTo_flat _ _ _ _ fun i hi l => ?_
  rw [Loops.spanRd_of he hp hi (hs e he p hp), ok_bind, Loops.spanRd_of he hp hi (ht e he p hp), ok_bind]

/-- The lookups of the products give back the S-box inputs, whatever follows them. -/
theorem observed_products (m1 m2 : Nat) (x y : Nat → Byte) (r : Bytes) {i : Nat} (hi : i < m1 * m2) :
    observed m1 m2 (((List.range m1).flatMap fun j => (List.range m2).flatMap fun k => [x (j + m1 * k), y (j + m1 * k)]) ++ r) i = x i := by
  have h1 : 0 < m1 := Nat.pos_of_ne_zero fun h => by rw [h] at hi; omega
  have hj : i % m1 < m1 := Nat.mod_lt _ h1
  have hk : i / m1 < m2 := Nat.div_lt_of_lt_mul hi
  have hin : ∀ j, ((List.range m2).flatMap fun k => [x (j + m1 * k), y (j + m1 * k)]).length = 2 * m2 := fun j => by rw [length_flatMap_range _ _ 2 fun _ _ => rfl, Nat.mul_comm]
  unfold observed
  rw [show 2 * (m2 * (i % m1) + i / m1) = 2 * m2 * (i % m1) + 2 * (i / m1) by rw [Nat.mul_add, Nat.mul_assoc], getD_blocks _ _ (2 * m2) (fun j _ => hin j) hj (by omega)]
  have := getD_blocks (fun k => [x (i % m1 + m1 * k), y (i % m1 + m1 * k)]) m2 2 (fun _ _ => rfl) hk (show 0 < 2 by omega) []
  rw [List.append_nil, Nat.add_zero] at this
  rw [this, List.getD_cons_zero, Nat.mod_add_div]

/-- The lookups of sign: first the S-box pairs of AES under the key. -/
theorem signLookups_ok {I : Instance} (hI : Spec.Consistent I) (X : Xof) (sk pk msg : Bytes) (hsk : sk.length = I.aes.keySize) (hpk : 2 * I.ctSize ≤ pk.length)
    (h0 : 0 ∉ sboxInputs (I.aes.keySize / 4) I.aes.numBlocks sk (slice pk 0 I.ctSize)) :
    ∃ r, r.length = 2 * (I.numRounds * (I.numParties * I.aes.numSboxes)) ∧ Loops.signLookups X I sk pk msg = .ok (((List.range I.m1).flatMap fun j => (List.range I.m2).flatMap fun k =>
      [(codeInputs (I.aes.keySize / 4) (nBlocks I.aes.keySize) sk (slice pk 0 I.ctSize)).getD (j + I.m1 * k) 0, (aesSave I.aes.keySize sk (slice pk 0 I.ctSize)).2.2.getD (j + I.m1 * k) 0]) ++ r) := by
  have hN : 0 < I.numParties := by have := (parties_bounds hI).1; omega
  obtain ⟨saved, es, hsl, hparty, hmul⟩ := saved_facts hI sk (slice pk 0 I.ctSize) h0
  have hsl1 := Loops.saved_lengths hI sk (slice pk 0 I.ctSize) h0
  rw [es] at hsl1
  have hb : nBlocks I.aes.keySize = I.aes.numBlocks := by
    rcases hI.aes with h | h | h <;> (simp only [Prod.mk.injEq] at h; obtain ⟨h1, h2, h3, h4⟩ := h; rw [h1, h3]; rfl)
  have hci : codeInputs (I.aes.keySize / 4) (nBlocks I.aes.keySize) sk (slice pk 0 I.ctSize) = saved.1 := by
    rw [← es, aesSave_fips _ (keySize_cases hI) sk _ (by rwa [hb])]
  rw [hci, es]
  generalize hsalt : genSalt X I sk pk msg = salt
  have hptl : (slice pk 0 I.ctSize).length = I.ctSize := slice_length (by omega)
  generalize hpt : slice pk 0 I.ctSize = pt at *
  have hroot : ∀ e, (genSeed X I sk pk msg e).length = I.seedSize := fun e => squeeze_len _ _ _
  choose tree htree hleaf using fun e => Banquet.signTree hI X salt (genSeed X I sk pk msg e) e (hroot e)
  let C : Nat → Ctx := fun e => (signRun X I sk saved.2 salt (genSeed X I sk pk msg e) e []).ctx X I salt e
  have hCt : ∀ e p, ((C e).tape p).length = I.tapeSize := fun e p => squeeze_len _ _ _
  have hkd : ∀ e, (List.range I.numParties).foldl (fun d p => xorBytes (tapeBytes ((C e).tape p) 0 I.aes.keySize) d) sk = (C e).skDelta := by
    intro e
    change _ = signDelta X I salt (genSeed X I sk pk msg e) e 0 I.aes.keySize sk
    unfold signDelta
    rw [List.foldl_map]
    rfl
  have htd : ∀ e, (List.range I.numParties).foldl (fun d p => xorBytes (tapeBytes ((C e).tape p) I.aes.keySize I.aes.numSboxes) d) saved.2 = (C e).tDelta := by
    intro e
    change _ = signDelta X I salt (genSeed X I sk pk msg e) e I.aes.keySize I.aes.numSboxes saved.2
    unfold signDelta
    rw [List.foldl_map]
    rfl
  have t2' : I.aes.keySize + I.aes.numSboxes ≤ I.tapeSize := by unfold Instance.tapeSize; omega
  have htl : ∀ e, ∀ p < I.numParties, ((C e).t I p).length = I.aes.numSboxes := by
    intro e p hp
    have h1 := Loops.tapeBytes_len (hCt e p) t2'
    unfold Ctx.t
    split
    · rw [length_xorBytes, h1, ← htd e, Loops.foldl_xor_length _ (fun q hq => Loops.tapeBytes_len (hCt e q) t2') _ hsl, Nat.min_self]
    · exact h1
  unfold Loops.signLookups
  rw [decide_eq_true hpk, require_true, ok_bind]
  dsimp only
  rw [checkAes_ok hI, ok_bind, decide_eq_true hsk.ge, require_true, ok_bind, List.take_of_length_le hsk.le, hpt, es, hsalt,
    Loops.signTrees_ok X I salt (genSeed X I sk pk msg) tree (fun e => partySeed X I salt (genSeed X I sk pk msg e) e) (fun e _ => htree e) (fun e _ => hleaf e) (fun e _ p _ => by unfold partySeed; rw [seedAt_length, hroot]), ok_bind]
  dsimp only
  rw [show (Loops.of I.numRounds I.numParties I.tapeSize 0 fun e p => genTape X I.tapeSize (partySeed X I salt (genSeed X I sk pk msg e) e p) salt e p) =
      Loops.of I.numRounds I.numParties I.tapeSize 0 fun e p => (C e).tape p from rfl,
    Loops.signSharesAll_ok hI sk pt saved.2 hptl.ge hsk hsl C (fun e _ p _ => hCt e p) (fun e _ => hkd e) (fun e _ => htd e), ok_bind]
  dsimp only
  rw [productLookups_ok hI saved hsl1 hsl, ok_bind, shareLookups_ok I _ _ (fun e _ p _ => (out_length hI (C e) pt p).1) (fun e _ => htl e)]
  refine ⟨_, ?_, rfl⟩
  rw [length_flatMap_range _ _ (2 * (I.numParties * I.aes.numSboxes)) fun e _ => by
    rw [length_flatMap_range _ _ (2 * I.aes.numSboxes) fun p _ => by rw [length_flatMap_range _ _ 2 fun _ _ => rfl, Nat.mul_comm]]
    exact Nat.mul_left_comm _ _ _]
  exact Nat.mul_left_comm _ _ _

end Banquet
