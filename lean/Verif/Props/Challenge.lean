import Verif.Proofs.Challenge
import Verif.Props.Accept

/-! C53: the challenges are read from consecutive blocks of the output of the hash function, none twice, and all admissible values are equally likely. -/

namespace Banquet.Props

open Spec FieldOk

/-- C53: the challenge `r_j` of repetition `e` is block number `e * m1 + j`. -/
theorem C53_r (X : Xof) (I : Instance) (F : FieldState) (hF : initExtensionField I.lambda = .ok F) (h1 : Bytes) :
    phase1Expand X F I h1 = (List.range I.numRounds).map (challenge1 X I h1) := by
  obtain ⟨hok, hb, _⟩ := initExtensionField_ok hF
  unfold phase1Expand
  refine List.map_congr_left fun e _ => List.map_congr_left fun j _ => ?_
  rw [fromBytes_eq _ (by rw [hb]; simp [Stream.squeeze])]
  rfl

/-- C53: the challenges `R` are the first blocks which are not among the points used for interpolation. -/
theorem C53_R (X : Xof) (I : Instance) (F : FieldState) (hF : initExtensionField I.lambda = .ok F) (h2 : Bytes) (Rs : List W64) :
    (∃ fuel, phase2Expand X fuel F I h2 (F.firstN I.m2) = .ok Rs) ↔ IsChallenge2 X I h2 Rs := by
  obtain ⟨hok, hb, _⟩ := initExtensionField_ok hF
  exact phase2Expand_iff X I hb h2 Rs

/-- C53: the hidden parties are the first blocks with a party below `N`. -/
theorem C53_hidden (X : Xof) (I : Instance) (hI : Consistent I) (h3 : Bytes) (ms : List Nat) :
    (∃ fuel, phase3Expand X fuel I h3 = .ok ms) ↔ IsChallenge3 X I h3 ms :=
  phase3Expand_iff X I (parties_bounds hI).1 (by have := parties_bounds hI; omega) h3 ms

/-- C53: every table of challenges `r` is given by exactly one word. -/
theorem C53_r_uniform (lam N m1 : Nat) (hl : lam ≤ 8) (T : List (List W64)) (hT : T.length = N ∧ ∀ r ∈ T, Elements lam m1 r) :
    ∃! w, Blocks lam (N * m1) w ∧ ((List.range N).map fun e => (List.range m1).map fun j => blockElem (w.getD (e * m1 + j) [])) = T := by
  have hpos : ∀ e < N, ∀ j < m1, e * m1 + j < N * m1 := by
    intro e he j hj
    have := Nat.mul_le_mul_right m1 (show e + 1 ≤ N from he)
    rw [Nat.succ_mul] at this
    omega
  have hget : ∀ e < N, ∀ j < m1, Reduced lam ((T.getD e []).getD j 0) := by
    intro e he j hj
    rw [getD_of_lt (show e < T.length by omega)]
    have h := hT.2 _ (List.getElem_mem (l := T) (n := e) (by omega))
    rw [getD_of_lt (by rw [h.1]; exact hj)]
    exact h.2 _ (List.getElem_mem _)
  have hdm : ∀ e < N, ∀ j < m1, (e * m1 + j) / m1 = e ∧ (e * m1 + j) % m1 = j := by
    intro e _ j hj
    rw [Nat.mul_comm]
    exact ⟨by rw [Nat.mul_add_div (by omega), Nat.div_eq_of_lt hj, Nat.add_zero], by rw [Nat.mul_add_mod, Nat.mod_eq_of_lt hj]⟩
  have hTab : ((List.range N).map fun e => (List.range m1).map fun j => (T.getD e []).getD j 0) = T := by
    refine List.ext_getElem (by simp [hT.1]) fun e h1 h2 => ?_
    have h := hT.2 _ (List.getElem_mem h2)
    rw [List.getElem_map, List.getElem_range]
    refine List.ext_getElem (by simp [h.1]) fun j h3 h4 => ?_
    rw [List.getElem_map, List.getElem_range, getD_of_lt h2, getD_of_lt h4]
  have hval : ∀ w : List Bytes, ((List.range N).map fun e => (List.range m1).map fun j => blockElem (w.getD (e * m1 + j) [])) = T →
      ∀ e < N, ∀ j < m1, blockElem (w.getD (e * m1 + j) []) = (T.getD e []).getD j 0 := by
    intro w h e he j hj
    have h := congrArg (fun T : List (List W64) => (T.getD e []).getD j 0) h
    rw [getD_range_map _ _ _ _ he, getD_range_map _ _ _ _ hj] at h
    exact h
  refine ⟨(List.range (N * m1)).map fun i => leDigits lam ((T.getD (i / m1) []).getD (i % m1) 0), ⟨⟨by simp, fun b hb => ?_⟩, ?_⟩, fun w hw => ?_⟩
  · obtain ⟨i, _, rfl⟩ := List.mem_map.1 hb
    exact length_leDigits _ _
  · refine Eq.trans ?_ hTab
    refine List.map_congr_left fun e he => List.map_congr_left fun j hj => ?_
    have he := List.mem_range.1 he
    have hj := List.mem_range.1 hj
    rw [getD_of_lt (by simpa using hpos e he j hj), List.getElem_map, List.getElem_range, (hdm e he j hj).1, (hdm e he j hj).2, blockElem_leDigits (hget e he j hj)]
  · refine List.ext_getElem (by simp [hw.1.1]) fun i h1 h2 => ?_
    have hi : i < N * m1 := by rw [← hw.1.1]; exact h1
    have hm : 0 < m1 := Nat.pos_of_ne_zero fun e => by rw [e] at hi; omega
    have he : i / m1 < N := Nat.div_lt_of_lt_mul (by rwa [Nat.mul_comm])
    have hj : i % m1 < m1 := Nat.mod_lt _ hm
    have hv := hval w hw.2 _ he _ hj
    rw [Nat.div_add_mod', getD_of_lt h1] at hv
    rw [List.getElem_map, List.getElem_range]
    exact blockElem_inj hl (hw.1.2 _ (List.getElem_mem h1)) (length_leDigits _ _) (hv.trans (blockElem_leDigits (hget _ he _ hj)).symm)

/-- C53: all lists of allowed challenges `R` are given by equally many words of `n` blocks, for each `n`. -/
theorem C53_R_uniform (lam m2 : Nat) (hl : lam ≤ 8) (Rs Rs' : List W64) (h : ∀ R ∈ Rs, Reduced lam R ∧ Fresh lam m2 R) (h' : ∀ R ∈ Rs', Reduced lam R ∧ Fresh lam m2 R) (hlen : Rs.length = Rs'.length) (n : Nat) :
    {w | Blocks lam n w ∧ firstOk blockElem (Fresh lam m2) Rs.length w = Rs}.ncard = {w | Blocks lam n w ∧ firstOk blockElem (Fresh lam m2) Rs'.length w = Rs'}.ncard :=
  card_firstOk blockElem (Fresh lam m2) (Reduced lam) lam (fun v v' hv hv' => by rw [fiber_elem hl v hv, fiber_elem hl v' hv']) n Rs Rs' h h' hlen

/-- C53: all lists of hidden parties are given by equally many words of `n` blocks, for each `n`. -/
theorem C53_hidden_uniform (N : Nat) (hN : N ≤ 2 ^ 16) (ms ms' : List Nat) (h : ∀ m ∈ ms, m < N) (h' : ∀ m ∈ ms', m < N) (hlen : ms.length = ms'.length) (n : Nat) :
    {w | Blocks (partyBytes N) n w ∧ firstOk (blockParty N) (· < N) ms.length w = ms}.ncard = {w | Blocks (partyBytes N) n w ∧ firstOk (blockParty N) (· < N) ms'.length w = ms'}.ncard := by
  have hc : Nat.clog 2 N ≤ 8 * partyBytes N := by
    unfold partyBytes
    split
    · exact Nat.clog_le_of_le_pow (by omega)
    · exact Nat.clog_le_of_le_pow (by omega)
  have hp : partyBytes N ≤ 8 := by unfold partyBytes; split <;> omega
  have hlt : ∀ m < N, m < 2 ^ Nat.clog 2 N := fun m hm => lt_of_lt_of_le hm (Nat.le_pow_clog (by norm_num) N)
  exact card_firstOk (blockParty N) (· < N) (· < N) (partyBytes N) (fun v v' hv hv' => fiber_party hp hc v v' (hlt v hv) (hlt v' hv')) n ms ms' (fun m hm => ⟨h m hm, h m hm⟩) (fun m hm => ⟨h' m hm, h' m hm⟩) hlen

/-- With the stream of C25 three blocks are rejected. -/
example : IsChallenge2 c25Xof { smallInstance with lambda := 2, m2 := 2, numRounds := 2 } [] [0x107, 8] := by
  obtain ⟨F, hF⟩ := init_supported (lam := 2) (Or.inl rfl)
  have h : ((initExtensionField 2).bind fun F => phase2Expand c25Xof 5 F { smallInstance with lambda := 2, m2 := 2, numRounds := 2 } [] (F.firstN 2)) = .ok [0x107, 8] := by decide +kernel
  rw [hF] at h
  exact (C53_R c25Xof { smallInstance with lambda := 2, m2 := 2, numRounds := 2 } F hF [] _).1 ⟨5, h⟩

/-- Words which yield the lists exist, so the numbers are not zero: with 3 parties `7` is rejected. -/
example : firstOk (blockParty 3) (· < 3) 2 [[7], [4], [2]] = [0, 2] ∧ firstOk (blockParty 3) (· < 3) 2 [[5], [3], [1]] = [1, 1] ∧
    {w | Blocks 1 3 w ∧ firstOk (blockParty 3) (· < 3) 2 w = [0, 2]}.ncard = {w | Blocks 1 3 w ∧ firstOk (blockParty 3) (· < 3) 2 w = [1, 1]}.ncard := by
  have hc : Nat.clog 2 3 = 2 := by decide
  refine ⟨?_, ?_, C53_hidden_uniform 3 (by norm_num) [0, 2] [1, 1] (by decide) (by decide) rfl 3⟩
  · simp [firstOk, blockParty, hc, leNat]
  · simp [firstOk, blockParty, hc, leNat]

/-- Two lists of challenges `R` for a field of 16 bits. -/
example (n : Nat) : {w | Blocks 2 n w ∧ firstOk blockElem (Fresh 2 2) 2 w = [0x107, 8]}.ncard = {w | Blocks 2 n w ∧ firstOk blockElem (Fresh 2 2) 2 w = [8, 8]}.ncard := by
  obtain ⟨F, hF⟩ := init_supported (lam := 2) (Or.inl rfl)
  have hf : ∀ R : W64, Reduced 2 R → R ∉ F.firstN 2 → Fresh 2 2 R := by
    obtain ⟨hok, hb, _⟩ := initExtensionField_ok hF
    intro R hR hn k hk he
    rw [← hb] at hR he
    rw [point_eq hk] at he
    have hk' : k < (F.firstN 2).length := by rwa [length_firstN]
    rw [getD_of_lt hk'] at he
    rw [val_inj hR (allRed_firstN _ _ (List.getElem_mem hk')) he] at hn
    exact hn (List.getElem_mem hk')
  have h2 : (initExtensionField 2).map (fun F => F.firstN 2) = .ok [2, 4] := by decide +kernel
  rw [hF] at h2
  have h2 : F.firstN 2 = [2, 4] := Except.ok.inj h2
  rw [h2] at hf
  have a1 := hf 0x107 (by unfold Reduced; decide) (by decide)
  have a2 := hf 8 (by unfold Reduced; decide) (by decide)
  refine C53_R_uniform 2 2 (by norm_num) [0x107, 8] [8, 8] ?_ ?_ rfl n
  · intro R hR
    simp only [List.mem_cons, List.not_mem_nil, or_false] at hR
    rcases hR with rfl | rfl
    · exact ⟨by unfold Reduced; decide, a1⟩
    · exact ⟨by unfold Reduced; decide, a2⟩
  · intro R hR
    simp only [List.mem_cons, List.not_mem_nil, or_false, or_self] at hR
    subst hR
    exact ⟨by unfold Reduced; decide, a2⟩

example : ∃! w, Blocks 2 4 w ∧ ((List.range 2).map fun e => (List.range 2).map fun j => blockElem (w.getD (e * 2 + j) [])) = [[1, 2], [3, 0xffff]] :=
  C53_r_uniform 2 2 2 (by norm_num) _ ⟨rfl, by simp [Elements, Reduced]⟩

/-- C19: verify accepts exactly the acceptable signatures. (`fuel` only says that the loops of the challenges end.) -/
theorem C19_acceptable (X : Xof) (I : Instance) (hI : Consistent I) (pk : Bytes) (hpk : 2 * I.ctSize ≤ pk.length) (msg : Bytes) (ms : List Nat)
    (sig : Signature) (wf : SigWF I ms sig) : (∃ fuel, verify X fuel I pk sig msg = .ok true) ↔ Acceptable X I pk msg sig := by
  obtain ⟨F, hF⟩ := init_supported hI.lambda
  have hr : ∀ e, e < I.numRounds → (phase1Expand X F I sig.h1).getD e [] = challenge1 X I sig.h1 e := by
    intro e he
    rw [C53_r X I F hF, getD_range_map _ _ _ _ he]
  have hmem : ∀ e pr, (pr, e) ∈ sig.proofs.zipIdx → e < sig.proofs.length := fun e pr h => by
    have := List.mem_zipIdx' h
    exact this.1
  constructor
  · rintro ⟨fuel, hv⟩
    obtain ⟨Rs, bc, c, a, b, k1, k2, k3, k4, k5, k6⟩ := (C19_accepted X fuel I hI F hF pk hpk msg ms sig wf).1 hv
    have c3 := (C53_hidden X I hI _ _).1 ⟨fuel, k2⟩
    refine ⟨Rs, bc, c, a, b, (C53_R X I F hF _ _).1 ⟨fuel, k1⟩, c3, fun e pr h => ?_, k4, k5, k6⟩
    rw [← hr e (by have := hmem e pr h; have := c3.1; rw [List.length_map] at this; omega)]
    exact k3 e pr h
  · rintro ⟨Rs, bc, c, a, b, k1, k2, k3, k4, k5, k6⟩
    obtain ⟨f1, h1⟩ := (C53_R X I F hF _ _).2 k1
    obtain ⟨f2, h2⟩ := (C53_hidden X I hI _ _).2 k2
    refine ⟨max f1 f2, (C19_accepted X _ I hI F hF pk hpk msg ms sig wf).2 ⟨Rs, bc, c, a, b, phase2Expand_mono X F I _ _ (le_max_left ..) _ h1, phase3Expand_mono X I _ (le_max_right ..) _ h2, fun e pr h => ?_, k4, k5, k6⟩⟩
    rw [hr e (by have := hmem e pr h; have := k2.1; rw [List.length_map] at this; omega)]
    exact k3 e pr h

/-- The signature of the test key is acceptable. -/
example : ∃ sig, SigWF smallInstance [0] sig ∧ Acceptable twosXof smallInstance katPk [5] sig ∧
    ¬Acceptable twosXof smallInstance katPk [5] { sig with h1 := List.replicate 32 0 } := by
  obtain ⟨sig, _, wf, hv⟩ := kat_signs_zero [5]
  refine ⟨sig, wf, (C19_acceptable twosXof smallInstance small_consistent katPk (by decide) [5] [0] sig wf).1 ⟨1, hv⟩, fun ⟨_, bc, _, _, _, _, _, _, h, _⟩ => ?_⟩
  have h' : List.replicate 32 (0 : Byte) = List.replicate 32 2 := h.trans rfl
  exact absurd h' (by decide)

end Banquet.Props
