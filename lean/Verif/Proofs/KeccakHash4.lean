import Verif.Model.KeccakHash4
import Verif.Proofs.KeccakHash
import Verif.Proofs.SpongeSim
import Verif.Proofs.KeccakX4Rest

/-! Lemmas for C93: four hash computations side by side, any rate and suffix. -/

namespace Banquet

open Spec

section

variable {f : St → St} {S : PlSnP} {view : S.State → Fin 4 → St}

theorem update4R (hS : PlSnp f S view) {rate : Nat} (h0 : 0 < rate) (hr : rate < 200) {d : Byte} {msg : Fin 4 → Bytes} {s : Sponge4 S} (h : ∀ l, (s.abs view).lane l = ctxR f rate d (msg l)) (data : Fin 4 → Bytes) (len : Nat)
    (hd : ∀ l, (data l).length = len) (hl : len + rate ≤ 2 ^ 32) :
    ∃ s', hashUpdate4 S s data len = .ok s' ∧ ∀ l, (s'.abs view).lane l = ctxR f rate d (msg l ++ data l) := by
  have hrate : s.rate = rate := congrArg Ideal.Sponge.rate (h 0)
  have hi : s.idx = (ctxR f rate d (msg 0)).idx := congrArg Ideal.Sponge.idx (h 0)
  have hq : s.squeezing = false := congrArg Ideal.Sponge.squeezing (h 0)
  have hlt : s.idx < rate := by rw [hi]; exact Ideal.feed_idx_lt f h0 _ (by simpa using h0) _
  obtain ⟨s', e1, e2⟩ := absorbLoop4_sim hS len s data len (by omega) (by omega) (by rw [hrate]; exact fits_of_small hlt hl) le_rfl
  refine ⟨s', ?_, fun l => ?_⟩
  · rw [hashUpdate4, if_neg (by rw [hq]; simp), e1]
  · rw [e2, Ideal.absorbLoop4_lane _ _ _ _ _ hd, Ideal.absorbLoop_eq f _ _ _ (show s.idx < s.rate by omega) (hd l).le, h l]
    unfold ctxR
    simp only [Ideal.feed_append]

theorem last4R (hS : PlSnp f S view) {rate : Nat} (h0 : 0 < rate) (hr : rate < 200) {d : Byte} {msg : Fin 4 → Bytes} {s : Sponge4 S} (h : ∀ l, (s.abs view).lane l = ctxR f rate d (msg l)) (e : Byte) (he : e ≠ 0) :
    ∃ s', absorbLast4 S s e = .ok s' ∧ s'.suffix = d ∧ ∀ l, Ideal.SqInv f (padded f rate e (msg l)) rate 0 ((s'.abs view).lane l) := by
  have hrate : s.rate = rate := congrArg Ideal.Sponge.rate (h 0)
  have hi : s.idx = (ctxR f rate d (msg 0)).idx := congrArg Ideal.Sponge.idx (h 0)
  have hlt : s.idx < rate := by rw [hi]; exact Ideal.feed_idx_lt f h0 _ (by simpa using h0) _
  obtain ⟨s', e1, e2⟩ := absorbLast4_sim hS s (by omega) (by omega) e
  have e3 : ∀ l, (s'.abs view).lane l = ⟨padded f rate e (msg l), rate, 0, true, d⟩ := fun l => by
    rw [e2, Ideal.absorbLast4_lane, h l]
    unfold Ideal.absorbLast ctxR
    rw [if_neg (fun c => c.elim he (by simp))]
    simp only
    rw [← padded_eq (f := f) h0 hr.le e (msg l) _ _ rfl]
    rfl
  refine ⟨s', e1, congrArg Ideal.Sponge.suffix (e3 0), fun l => ?_⟩
  rw [e3 l]
  exact ⟨rfl, rfl, Nat.zero_le _, 0, rfl, by simp⟩

theorem updateBits4 (hS : PlSnp f S view) {rate : Nat} (h0 : 0 < rate) (hr : rate < 200) {d : Byte} {msg : Fin 4 → Bytes} {h : HashInst4 S} (hc : ∀ l, (h.sponge.abs view).lane l = ctxR f rate d (msg l)) (data : Fin 4 → Bytes)
    (len : Nat) (hd : ∀ l, len ≤ (data l).length) (hl : len + rate ≤ 2 ^ 32) :
    ∃ h', hashUpdateBits4 S h data (8 * len) = .ok (h', true) ∧ h'.fixedBits = h.fixedBits ∧ ∀ l, (h'.sponge.abs view).lane l = ctxR f rate d (msg l ++ (data l).take len) := by
  have hq : h.sponge.squeezing = false := congrArg Ideal.Sponge.squeezing (hc 0)
  obtain ⟨s1, e1, e2⟩ := update4R hS h0 hr hc (fun l => (data l).take len) len (fun l => by rw [List.length_take]; exact Nat.min_eq_left (hd l)) hl
  refine ⟨{ h with sponge := s1 }, ?_, rfl, e2⟩
  unfold hashUpdateBits4
  rw [if_neg (by simp), hq, if_neg (by simp), Nat.mul_div_cancel_left _ (by omega), if_neg (fun ⟨l, c⟩ => absurd (hd l) (by omega)), bindOk e1]

theorem final4R (hS : PlSnp f S view) {rate : Nat} (h0 : 0 < rate) (hr : rate < 200) {d : Byte} (hd : d ≠ 0) {msg : Fin 4 → Bytes} {h : HashInst4 S} (hc : ∀ l, (h.sponge.abs view).lane l = ctxR f rate d (msg l))
    (hl : h.fixedBits / 8 + rate ≤ 2 ^ 32) :
    ∃ h', hashFinalFixed4 S h = .ok (h', some fun l => (sponge f (8 * rate) (bitsOf (msg l) ++ suffixBits d)).squeeze 0 (h.fixedBits / 8)) ∧
      ∀ l, Ideal.SqInv f (padded f rate d (msg l)) rate (h.fixedBits / 8) ((h'.sponge.abs view).lane l) := by
  have hq : h.sponge.squeezing = false := congrArg Ideal.Sponge.squeezing (hc 0)
  have hs : h.sponge.suffix = d := congrArg Ideal.Sponge.suffix (hc 0)
  obtain ⟨s1, e1, -, e2⟩ := last4R hS h0 hr hc d hd
  obtain ⟨s2, e3, e4⟩ := hashSqueeze4_sim hS _ s1 (h.fixedBits / 8) h0 hr e2 hl
  refine ⟨{ h with sponge := s2 }, ?_, by simpa only [Nat.zero_add] using e4⟩
  unfold hashFinalFixed4
  rw [hs, if_neg (fun c => c.elim hd (by rw [hq]; simp)), bindOk e1, bindOk e3]
  simp only [padded_stream h0 d hd]

end

namespace X4

theorem need_zero {n : Nat} (hn : n ≤ 25) : need n 0 = 8 * n := by
  unfold need
  rw [Nat.mod_eq_of_lt (by omega)]
  omega

/-- With both offsets zero the loop makes no progress. -/
theorem fastLoop_stuck (rounds : Regs → Regs) (data : List W64) (n : Nat) (hn : n ≤ 25) (hd : n ≤ data.length) (hl : 8 * data.length < 2 ^ 64) (fuel : Nat) (s : Regs) :
    (n = 21 → fastLoop21 rounds data 0 0 fuel s 0 (BitVec.ofNat 64 (8 * data.length)) = .error .fuel) ∧
    fastLoopOther rounds data n 0 0 fuel s 0 (BitVec.ofNat 64 (8 * data.length)) = .error .fuel := by
  have hlen : (BitVec.ofNat 64 (8 * data.length)).toNat ≥ need n 0 := by
    rw [need_zero hn, BitVec.toNat_ofNat, Nat.mod_eq_of_lt hl]
    omega
  have z : ∀ w : W64, w - BitVec.ofNat 64 (0 * 8 % 2 ^ 32) = w := fun w => by simp
  induction fuel generalizing s with
  | zero =>
    refine ⟨?_, ?_⟩
    · rintro rfl
      rw [fastLoop21, if_pos hlen]
    · rw [fastLoopOther, if_pos hlen]
  | succ fuel ih =>
    refine ⟨?_, ?_⟩
    · rintro rfl
      rw [fastLoop21, if_pos hlen, List.drop_zero]
      have e : forLanes (xorIn data 0) 0 21 s = .ok ((List.range' 0 21).foldl (fun s i => upd s i fun a => xor256 a (col 0 data i)) s) := by
        have := forLanes_eq (fun _ => True) _ (fun s i => upd s i fun a => xor256 a (col 0 data i)) _ (fun _ _ _ => trivial) (fun s i _ => xorIn_eq 0 (by omega) data s i) 0 21 s trivial
        rw [if_pos (by omega)] at this
        exact this
      rw [e, bindOk rfl, z]
      exact (ih _).1 rfl
    · rw [fastLoopOther, if_pos hlen, List.drop_zero, addLanesAll_eq 0 (by omega), if_pos (by omega), bindOk rfl, z]
      exact (ih _).2

end X4

end Banquet
