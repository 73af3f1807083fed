import Verif.Proofs.Keccak64State
import Verif.Model.KeccakRest
import Verif.Spec.KeccakRest

/-! The functions of `Model/KeccakRest`. -/

namespace Banquet.Opt64

open Spec

theorem okThen {α β : Type} (a : α) (f : α → M β) : (Except.ok a : M α) >>= f = f a := rfl

/-! ## Rounds -/

theorem consts_get (i : Nat) (h : i < 24) : Spec.roundConstants[i]? = some roundConstants[i] := by
  revert i
  decide

theorem roundAt_eq (A : Spec.Lanes) (i : BitVec 32) (h : i.toNat < 24) : roundAt (A, parity A) i = .ok (keccakRound A roundConstants[i.toNat], parity (keccakRound A roundConstants[i.toNat])) := by
  rw [roundAt, dif_pos h, roundPrepare_eq]

theorem drop_consts (i : Nat) (h : i < 24) : Spec.roundConstants.drop i = roundConstants[i] :: Spec.roundConstants.drop (i + 1) := by
  have := consts_get i h
  obtain ⟨h1, h2⟩ := List.getElem?_eq_some_iff.1 this
  rw [List.drop_eq_getElem_cons h1, h2]

theorem roundsLoop_eq (fuel : Nat) (A : Spec.Lanes) (i : BitVec 32) (hi : i.toNat ≤ 24) (he : i.toNat % 2 = 0) (hf : 24 ≤ i.toNat + 2 * fuel) :
    ∃ C, roundsLoop fuel (A, parity A) i = .ok ((Spec.roundConstants.drop i.toNat).foldl keccakRound A, C) := by
  induction fuel generalizing A i with
  | zero =>
    have : i.toNat = 24 := by omega
    have hn : ¬i < 24 := by rw [BitVec.lt_def]; simp; omega
    rw [roundsLoop, if_neg hn, this]
    exact ⟨_, rfl⟩
  | succ fuel ih =>
    by_cases h : i.toNat = 24
    · have hn : ¬i < 24 := by rw [BitVec.lt_def]; simp; omega
      rw [roundsLoop, if_neg hn, h]
      exact ⟨_, rfl⟩
    · have hlt : i < 24 := by rw [BitVec.lt_def]; simp; omega
      have e1 : (i + 1).toNat = i.toNat + 1 := by rw [BitVec.toNat_add]; simp; omega
      have e2 : (i + 2).toNat = i.toNat + 2 := by rw [BitVec.toNat_add]; simp; omega
      rw [roundsLoop, if_pos hlt, roundAt_eq A i (by omega), okThen, roundAt_eq _ (i + 1) (by omega), okThen]
      obtain ⟨C, hC⟩ := ih (keccakRound (keccakRound A roundConstants[i.toNat]) roundConstants[(i + 1).toNat]) (i + 2) (by omega) (by omega) (by omega)
      refine ⟨C, hC.trans ?_⟩
      rw [drop_consts i.toNat (by omega), drop_consts (i.toNat + 1) (by omega), e2, List.foldl_cons, List.foldl_cons]
      simp only [e1]

theorem odd_iff (i : BitVec 32) : i &&& 1 ≠ 0 ↔ i.toNat % 2 = 1 := by
  rw [← BitVec.toNat_inj.ne]
  simp [Nat.and_one_is_mod]

theorem permuteN_eq (A : Spec.Lanes) (nr : BitVec 32) (h : nr.toNat ≤ 24) : permuteN A nr = .ok (keccakRounds nr.toNat A) := by
  have hi : (24 - nr).toNat = 24 - nr.toNat := by
    rw [BitVec.toNat_sub]
    simp
    omega
  unfold permuteN roundsN keccakRounds
  simp only [prepareTheta_eq]
  by_cases ho : (24 - nr) &&& 1 ≠ 0
  · have := (odd_iff _).1 ho
    have e1 : (24 - nr + 1).toNat = 24 - nr.toNat + 1 := by rw [BitVec.toNat_add, hi]; simp; omega
    rw [if_pos ho, roundAt_eq _ _ (by omega), okThen]
    obtain ⟨C, hC⟩ := roundsLoop_eq 12 (keccakRound A roundConstants[(24 - nr).toNat]) (24 - nr + 1) (by omega) (by omega) (by omega)
    rw [hC, okThen, e1, drop_consts (24 - nr.toNat) (by omega), List.foldl_cons]
    simp only [hi]
  · have : ¬(24 - nr).toNat % 2 = 1 := fun e => ho ((odd_iff _).2 e)
    rw [if_neg ho]
    obtain ⟨C, hC⟩ := roundsLoop_eq 12 A (24 - nr) (by omega) (by omega) (by omega)
    rw [hC, okThen, hi]

theorem permuteN_large (A : Spec.Lanes) (nr : BitVec 32) (h : 24 < nr.toNat) : permuteN A nr = if nr.toNat % 2 = 0 then .ok A else .error .ub := by
  have hi : (24 - nr).toNat = 2 ^ 32 + 24 - nr.toNat := by
    rw [BitVec.toNat_sub]
    simp
    omega
  have := nr.isLt
  unfold permuteN roundsN
  by_cases ho : (24 - nr) &&& 1 ≠ 0
  · have := (odd_iff _).1 ho
    rw [if_pos ho, if_neg (by omega), roundAt, dif_neg (by omega)]
    rfl
  · have : ¬(24 - nr).toNat % 2 = 1 := fun e => ho ((odd_iff _).2 e)
    have hn : ¬24 - nr < 24 := by rw [BitVec.lt_def]; simp only [hi]; simp; omega
    rw [if_neg ho, if_pos (by omega), roundsLoop, if_neg hn]
    rfl

theorem consts12 : ((List.finRange 11).map fun i => roundConstants[12 + i.val]) ++ [roundConstants[23]] = Spec.roundConstants.drop 12 := by decide

theorem rounds12_eq (A : Spec.Lanes) : rounds12 A = keccakRounds 12 A := by
  have h : (List.finRange 11).foldl (fun (s : Lanes × Vector W64 5) i => roundPrepare roundConstants[12 + i.val] s.1 s.2) (A, prepareTheta A)
      = ((List.finRange 11).map fun i => roundConstants[12 + i.val]).foldl (fun (s : Lanes × Vector W64 5) rc => roundPrepare rc s.1 s.2) (A, parity A) := by
    rw [List.foldl_map, prepareTheta_eq]
  rw [rounds12, h, rounds_eq, keccakRounds, ← consts12, List.foldl_append]
  exact roundLast_eq _ _

theorem view_rounds12 (A : Spec.Lanes) : ofLanes (rounds12 A) = ofLanes (keccakRounds 12 (toLanes (ofLanes A))) := by
  rw [toLanes_ofLanes, rounds12_eq]

theorem fastLoop12_eq (n fuel : Nat) (A : Spec.Lanes) (data : Bytes) (h0 : 0 < n) (h : n ≤ 25) (hf : data.length ≤ fuel) :
    ∃ s', fastLoop12 n fuel A data = .ok (s', data.drop (data.length / (8 * n) * (8 * n))) ∧
      ofLanes s' = absorbFull (fun s => ofLanes (keccakRounds 12 (toLanes s))) (8 * n) (data.length / (8 * n)) (ofLanes A) data := by
  induction fuel generalizing A data with
  | zero =>
    have : data = [] := List.eq_nil_of_length_eq_zero (by omega)
    subst this
    refine ⟨A, ?_, ?_⟩
    · rw [fastLoop12, if_neg (by simp; omega)]
      simp
    · simp [absorbFull]
  | succ fuel ih =>
    rw [fastLoop12, Nat.mul_comm n 8]
    by_cases hc : data.length ≥ 8 * n
    · rw [if_pos hc]
      obtain ⟨s', e, g⟩ := ih (rounds12 (addInput A data n)) (data.drop (8 * n)) (by rw [List.length_drop]; omega)
      have hq : data.length / (8 * n) = (data.length - 8 * n) / (8 * n) + 1 := by
        rw [Nat.div_eq_sub_div (by omega) hc]
      refine ⟨s', ?_, ?_⟩
      · rw [e, List.length_drop, List.drop_drop, hq]
        congr 3
        ring
      · rw [g, List.length_drop, hq, absorbFull, view_rounds12, addInput_eq _ _ _ h0 h, view_addRange]
    · rw [if_neg hc]
      have : data.length / (8 * n) = 0 := Nat.div_eq_of_lt (by omega)
      exact ⟨A, by simp [this], by simp [this, absorbFull]⟩

theorem fastLoopAbsorb12_eq (s : Spec.Lanes) (n : Nat) (data : Bytes) (h0 : 0 < n) (h : n ≤ 25) :
    ∃ s', fastLoopAbsorb12 s n data = .ok (s', data.length / (8 * n) * (8 * n)) ∧
      ofLanes s' = absorbFull (fun s => ofLanes (keccakRounds 12 (toLanes s))) (8 * n) (data.length / (8 * n)) (ofLanes s) data := by
  obtain ⟨s', e, g⟩ := fastLoop12_eq n data.length s data h0 h le_rfl
  refine ⟨s', ?_, g⟩
  unfold fastLoopAbsorb12
  rw [bindOk e]
  simp only [List.length_drop]
  have := Nat.div_mul_le_self data.length (8 * n)
  congr 2
  omega

/-! ## Overwriting -/

theorem overwrite_get (s : St) (data : Bytes) (o i : Nat) (hi : i < 200) : (replaceBytes s data o)[i] = if o ≤ i ∧ i < o + data.length then data.getD (i - o) 0 else s[i] := by
  rw [replaceBytes, Vector.getElem_ofFn]
  rfl

theorem overwrite_nil (s : St) (o : Nat) : replaceBytes s [] o = s := by
  refine Vector.ext fun i hi => ?_
  rw [overwrite_get _ _ _ _ hi, if_neg (by simp)]

theorem overwrite_append (s : St) (a b : Bytes) (o : Nat) : replaceBytes (replaceBytes s a o) b (o + a.length) = replaceBytes s (a ++ b) o := by
  refine Vector.ext fun i hi => ?_
  simp only [overwrite_get _ _ _ _ hi, List.length_append]
  by_cases h1 : o + a.length ≤ i ∧ i < o + a.length + b.length
  · rw [if_pos h1, if_pos (by omega), List.getD_eq_getElem?_getD, List.getD_eq_getElem?_getD, List.getElem?_append_right (by omega), Nat.sub_sub]
  · rw [if_neg h1]
    by_cases h2 : o ≤ i ∧ i < o + a.length
    · rw [if_pos h2, if_pos (by omega), List.getD_eq_getElem?_getD, List.getD_eq_getElem?_getD, List.getElem?_append_left (by omega)]
    · rw [if_neg h2, if_neg (by omega)]

theorem byteOf_write (w : W64) (b : Byte) (j k : Nat) (hj : j < 8) (hk : k < 8) : byteOf ((w &&& ~~~(0xFF#64 <<< (8 * j))) ||| (b.setWidth 64 <<< (8 * j))) k = if k = j then b else byteOf w k := by
  apply BitVec.eq_of_getLsbD_eq
  intro i hi
  have h1 : (0xFF#64).getLsbD (8 * k + i - 8 * j) = decide (8 * k + i - 8 * j < 8) := by
    rw [show (0xFF#64) = (BitVec.allOnes 8).setWidth 64 from rfl, BitVec.getLsbD_setWidth, BitVec.getLsbD_allOnes]
    simp
    omega
  rw [byteOf_bit _ _ _ hi, BitVec.getLsbD_or, BitVec.getLsbD_and, BitVec.getLsbD_not, BitVec.getLsbD_shiftLeft, BitVec.getLsbD_shiftLeft, h1, BitVec.getLsbD_setWidth]
  have a1 : 8 * k + i < 64 := by omega
  by_cases h : k = j
  · subst h
    simp [a1, hi, show 8 * k + i - 8 * k = i by omega, show i < 64 by omega]
  · rw [if_neg h, byteOf_bit _ _ _ hi]
    by_cases hlt : 8 * k + i < 8 * j
    · simp [a1, hlt]
    · have h8 : ¬8 * k + i - 8 * j < 8 := by omega
      have hb : b.getLsbD (8 * k + i - 8 * j) = false := BitVec.getLsbD_of_ge _ _ (by omega)
      simp [a1, hlt, h8, hb]

theorem writeByte_eq (s : Spec.Lanes) (k : Nat) (b : Byte) (hk : k < 200) : ∃ s', writeByte s k b = .ok s' ∧ ofLanes s' = replaceBytes (ofLanes s) [b] k := by
  refine ⟨_, dif_pos (show k / 8 < 25 by omega), ?_⟩
  refine Vector.ext fun i hi => ?_
  rw [view_get _ _ hi, overwrite_get _ _ _ _ hi, view_get _ _ hi]
  by_cases h : i / 8 = k / 8
  · have e : i % 8 = k % 8 ↔ k ≤ i ∧ i < k + [b].length := by simp; omega
    simp only [h, Vector.getElem_set_self]
    rw [byteOf_write _ _ _ _ (by omega) (by omega), if_congr e rfl rfl]
    split
    · next h2 => rw [show i - k = 0 by simp at h2; omega]; rfl
    · rfl
  · rw [Vector.getElem_set_ne _ _ (fun e => h e.symm), if_neg (by simp; omega)]

theorem writeBytes_eq (s : Spec.Lanes) (k : Nat) (data : Bytes) (h : k + data.length ≤ 200) : ∃ s', writeBytes s k data = .ok s' ∧ ofLanes s' = replaceBytes (ofLanes s) data k := by
  induction data generalizing s k with
  | nil => exact ⟨s, rfl, (overwrite_nil _ _).symm⟩
  | cons b data ih =>
    rw [List.length_cons] at h
    obtain ⟨s1, e1, g1⟩ := writeByte_eq s k b (by omega)
    obtain ⟨s2, e2, g2⟩ := ih s1 (k + 1) (by omega)
    refine ⟨s2, ?_, ?_⟩
    · rw [writeBytes, bindOk e1, e2]
    · rw [g2, g1]
      exact overwrite_append _ [b] data k

theorem writeBytes_ub (s : Spec.Lanes) (k : Nat) (data : Bytes) (h : 200 < k + data.length) (h0 : 0 < data.length) : writeBytes s k data = .error .ub := by
  induction data generalizing s k with
  | nil => exact absurd h0 (by simp)
  | cons b data ih =>
    rw [List.length_cons] at h
    rw [writeBytes]
    by_cases hk : k < 200
    · obtain ⟨s1, e1, _⟩ := writeByte_eq s k b hk
      rw [bindOk e1]
      exact ih s1 (k + 1) (by omega) (by omega)
    · rw [writeByte, dif_neg (by omega)]
      rfl

theorem overwriteLoop_eq (fuel : Nat) (s : Spec.Lanes) (data : Bytes) (pos off : Nat) (ho : off < 8) (hf : data.length ≤ fuel) :
    overwriteLoop fuel s data pos off = writeBytes s (pos * 8 + off) data := by
  induction fuel generalizing s data pos off with
  | zero =>
    have : data = [] := List.eq_nil_of_length_eq_zero (by omega)
    subst this
    rfl
  | succ fuel ih =>
    rw [overwriteLoop]
    by_cases h0 : data.length = 0
    · rw [if_pos h0, List.eq_nil_of_length_eq_zero h0]
      rfl
    · rw [if_neg h0]
      have app : ∀ (a b : Bytes) (s : Spec.Lanes) (k : Nat), (writeBytes s k a >>= fun s => writeBytes s (k + a.length) b) = writeBytes s k (a ++ b) := by
        intro a
        induction a with
        | nil => intro b s k; rfl
        | cons x a iha =>
          intro b s k
          rw [List.cons_append, writeBytes, writeBytes]
          cases hx : writeByte s k x with
          | error e => rfl
          | ok s1 =>
            rw [okThen, okThen, ← iha b s1 (k + 1), List.length_cons, show k + (a.length + 1) = k + 1 + a.length by omega]
      simp only [overwriteBytesInLane]
      set n := if 8 - off > data.length then data.length else 8 - off with hn
      have hn1 : n ≤ data.length := by rw [hn]; split <;> omega
      have hn2 : 0 < n := by rw [hn]; split <;> omega
      have hlt : (data.take n).length = n := by rw [List.length_take]; omega
      have := app (data.take n) (data.drop n) s (pos * 8 + off)
      rw [List.take_append_drop] at this
      rw [← this]
      refine congrArg (Bind.bind _) (funext fun s1 => ?_)
      rw [ih s1 (data.drop n) (pos + 1) 0 (by omega) (by rw [List.length_drop]; omega), hlt]
      by_cases hd : n = data.length
      · rw [hd, List.drop_length]
        rfl
      · congr 1
        have : n = 8 - off := by rw [hn] at hd ⊢; split at hd <;> simp_all
        omega

theorem overwriteBytes_write (s : Spec.Lanes) (data : Bytes) (offset : Nat) (h : offset + data.length ≤ 200) :
    ∃ s', overwriteBytes s data offset = .ok s' ∧ ofLanes s' = replaceBytes (ofLanes s) data offset := by
  unfold overwriteBytes
  by_cases h0 : offset = 0
  · subst h0
    rw [if_pos rfl]
    have hlt : (data.take (data.length / 8 * 8)).length = data.length / 8 * 8 := by rw [List.length_take]; omega
    obtain ⟨s1, e1, g1⟩ := writeBytes_eq s 0 (data.take (data.length / 8 * 8)) (by omega)
    obtain ⟨s2, e2, g2⟩ := writeBytes_eq s1 (data.length / 8 * 8 + 0) (data.drop (data.length / 8 * 8)) (by rw [List.length_drop]; omega)
    refine ⟨s2, ?_, ?_⟩
    · rw [overwriteLanes, bindOk e1]
      exact e2
    · rw [g2, g1]
      have := overwrite_append (ofLanes s) (data.take (data.length / 8 * 8)) (data.drop (data.length / 8 * 8)) 0
      rw [hlt, List.take_append_drop] at this
      rw [← this]
      congr 1
      omega
  · rw [if_neg h0, overwriteLoop_eq _ _ _ _ _ (by omega) le_rfl, show offset / 8 * 8 + offset % 8 = offset by omega]
    exact writeBytes_eq s offset data h

theorem overwriteBytes_ub (s : Spec.Lanes) (data : Bytes) (offset : Nat) (h : 200 < offset + data.length) (h0 : 0 < data.length) : overwriteBytes s data offset = .error .ub := by
  unfold overwriteBytes
  by_cases ho : offset = 0
  · subst ho
    rw [if_pos rfl, overwriteLanes]
    have hlt : (data.take (data.length / 8 * 8)).length = data.length / 8 * 8 := by rw [List.length_take]; omega
    by_cases hc : data.length / 8 * 8 ≤ 200
    · obtain ⟨s1, e1, _⟩ := writeBytes_eq s 0 (data.take (data.length / 8 * 8)) (by omega)
      rw [bindOk e1]
      exact writeBytes_ub _ _ _ (by rw [List.length_drop]; omega) (by rw [List.length_drop]; omega)
    · rw [writeBytes_ub _ _ _ (by omega) (by omega)]
      rfl
  · rw [if_neg ho, overwriteLoop_eq _ _ _ _ _ (by omega) le_rfl]
    exact writeBytes_ub _ _ _ (by omega) h0

/-! ## Reading with XOR -/

theorem andAdd_inLane (s : Spec.Lanes) (pos off : Nat) (input : Bytes) (hp : pos < 25) (h : off + input.length ≤ 8) :
    extractAndAddBytesInLane s pos input off = .ok (List.zipWith (· ^^^ ·) input (Spec.extractBytes (ofLanes s) (8 * pos + off) input.length)) := by
  have e := extractBytesInLane_eq s pos off input.length hp h
  rw [extractBytesInLane, dif_pos hp] at e
  rw [extractAndAddBytesInLane, dif_pos hp, ← Except.ok.inj e]
  refine congrArg Except.ok (List.ext_getElem (by simp) fun i h1 h2 => ?_)
  simp at h1
  simp [h1]

theorem zip_append (a b x y : Bytes) (h : a.length = x.length) : List.zipWith (· ^^^ ·) a x ++ List.zipWith (· ^^^ ·) b y = List.zipWith (· ^^^ ·) (a ++ b) (x ++ y) := (List.zipWith_append h).symm

theorem extract_length (s : St) (o n : Nat) : (Spec.extractBytes s o n).length = n := by simp [Spec.extractBytes]

theorem andAdd_loop (fuel : Nat) (s : Spec.Lanes) (input : Bytes) (pos off : Nat) (ho : off < 8) (h : 8 * pos + off + input.length ≤ 200) (hf : input.length ≤ fuel) :
    extractAndAddLoop fuel s input pos off = .ok (List.zipWith (· ^^^ ·) input (Spec.extractBytes (ofLanes s) (8 * pos + off) input.length)) := by
  induction fuel generalizing input pos off with
  | zero =>
    have : input = [] := List.eq_nil_of_length_eq_zero (by omega)
    subst this
    rfl
  | succ fuel ih =>
    rw [extractAndAddLoop]
    by_cases h0 : input.length = 0
    · rw [if_pos h0, List.eq_nil_of_length_eq_zero h0]
      rfl
    · rw [if_neg h0]
      set n := if 8 - off > input.length then input.length else 8 - off with hn
      have hn1 : n ≤ input.length := by rw [hn]; split <;> omega
      have hn2 : off + n ≤ 8 := by rw [hn]; split <;> omega
      have hn3 : 0 < n := by rw [hn]; split <;> omega
      have hlt : (input.take n).length = n := by rw [List.length_take]; omega
      have hld : (input.drop n).length = input.length - n := List.length_drop
      have hp : n < input.length → n = 8 - off := fun hd => by rw [hn] at hd ⊢; split at hd <;> simp_all
      have hrest : extractAndAddLoop fuel s (input.drop n) (pos + 1) 0 = .ok (List.zipWith (· ^^^ ·) (input.drop n) (Spec.extractBytes (ofLanes s) (8 * pos + off + n) (input.length - n))) := by
        by_cases hd : n < input.length
        · have := hp hd
          rw [ih (input.drop n) (pos + 1) 0 (by omega) (by omega) (by omega), hld, show 8 * (pos + 1) + 0 = 8 * pos + off + n by omega]
        · have : input.drop n = [] := List.eq_nil_of_length_eq_zero (by omega)
          rw [this]
          cases fuel <;> rfl
      simp only
      rw [andAdd_inLane s pos off (input.take n) (by omega) (by omega), okThen, hrest, okThen, hlt, zip_append _ _ _ _ (by rw [hlt, extract_length]), List.take_append_drop, extract_append,
        show n + (input.length - n) = input.length by omega]

theorem andAdd_lanes (s : Spec.Lanes) (input : Bytes) (i n : Nat) (h : i + n ≤ 25) (hd : (i + n) * 8 ≤ input.length) :
    extractAndAddLanes s input i n = .ok (List.zipWith (· ^^^ ·) ((input.drop (i * 8)).take (n * 8)) (Spec.extractBytes (ofLanes s) (i * 8) (n * 8))) := by
  induction n generalizing i with
  | zero => simp [extractAndAddLanes]
  | succ n ih =>
    have hi : i < 25 := by omega
    have hl : ((input.drop (i * 8)).take 8).length = 8 := by rw [List.length_take, List.length_drop]; omega
    rw [extractAndAddLanes, dif_pos hi]
    simp only
    rw [ih (i + 1) (by omega) (by omega), okThen]
    have e : (List.range 8).map (byteOf (le64 ((input.drop (i * 8)).take 8) ^^^ s[i])) = List.zipWith (· ^^^ ·) ((input.drop (i * 8)).take 8) (Spec.extractBytes (ofLanes s) (i * 8) 8) := by
      refine List.ext_getElem (by rw [List.length_zipWith, hl, extract_length]; rfl) fun j h1 h2 => ?_
      have hj : j < 8 := by simpa using h1
      rw [List.getElem_map, List.getElem_range, byteOf_xor, byteOf_le64 _ _ hj, List.getElem_zipWith]
      congr 1
      · rw [List.getD_eq_getElem?_getD, List.getElem?_eq_getElem (by omega)]
        rfl
      · simp only [Spec.extractBytes, List.getElem_map, List.getElem_range]
        rw [view_getD _ _ (by omega), show (i * 8 + j) / 8 = i by omega, show (i * 8 + j) % 8 = j by omega]
        simp [Vector.getD, hi]
    rw [e, zip_append _ _ _ _ (by rw [hl, extract_length]), show (i + 1) * 8 = i * 8 + 8 by omega, extract_append, show 8 + n * 8 = (n + 1) * 8 by omega]
    congr 2
    rw [← List.drop_drop, show (n + 1) * 8 = 8 + n * 8 by omega, List.take_add]

theorem andAdd_eq (s : Spec.Lanes) (input : Bytes) (offset : Nat) (h : offset + input.length < 200) :
    extractAndAddBytes s input offset = .ok (List.zipWith (· ^^^ ·) input (Spec.extractBytes (ofLanes s) offset input.length)) := by
  unfold extractAndAddBytes
  by_cases h0 : offset = 0
  · subst h0
    have hld : (input.drop (input.length / 8 * 8)).length = input.length - input.length / 8 * 8 := List.length_drop
    have hlt : (input.take (input.length / 8 * 8)).length = input.length / 8 * 8 := by rw [List.length_take]; omega
    rw [if_pos rfl, andAdd_lanes s input 0 _ (by omega) (by omega), okThen, andAdd_inLane s _ _ _ (by omega) (by omega), okThen, hld, Nat.zero_mul, List.drop_zero,
      zip_append _ _ _ _ (by rw [hlt, extract_length]), List.take_append_drop, show 8 * (input.length / 8) + 0 = 0 + input.length / 8 * 8 by omega, extract_append,
      show input.length / 8 * 8 + (input.length - input.length / 8 * 8) = input.length by omega]
  · rw [if_neg h0, andAdd_loop _ _ _ _ _ (by omega) (by omega) le_rfl, show 8 * (offset / 8) + offset % 8 = offset by omega]

end Banquet.Opt64
