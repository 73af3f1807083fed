import Verif.Proofs.View
import Verif.Proofs.AesLin
import Verif.Spec.WellFormed

/-! Lemmas about the closed form of verification: sizes, independence of the dummy seed, formats. -/

namespace Banquet

open Spec

section
variable {I : Instance} (hI : Consistent I)
include hI

theorem ctSize_eq : I.ctSize = ctLength I.aes.keySize := by
  unfold Instance.ctSize ctLength
  rcases hI.aes with h | h | h <;> (simp only [Prod.mk.injEq] at h; obtain ⟨h1, h2, h3, h4⟩ := h; rw [h1, h2, h3]; decide)

theorem sboxCount_eq : I.aes.numSboxes = sboxCount I.aes.keySize := by
  unfold sboxCount
  rcases hI.aes with h | h | h <;> (simp only [Prod.mk.injEq] at h; obtain ⟨h1, h2, h3, h4⟩ := h; rw [h1, h4]; decide)

theorem out_length (c : Ctx) (pt : Bytes) (p : Nat) : (c.out I pt p).1.length = I.aes.numSboxes ∧ (c.out I pt p).2.length = I.ctSize := by
  rw [ctSize_eq hI, sboxCount_eq hI]
  exact aesParty_length _ _ _ _ _

theorem ctMissing_length (c : Ctx) (pt ct : Bytes) (hct : ct.length = I.ctSize) (m : Nat) : (c.ctMissing I pt ct m).length = I.ctSize := by
  unfold Ctx.ctMissing
  generalize (List.range I.numParties).filter (· ≠ m) = l
  induction l generalizing ct with
  | nil => exact hct
  | cons p l ih =>
    rw [List.foldl_cons]
    refine ih _ ?_
    rw [length_xorBytes, (out_length hI c pt p).2, hct, Nat.min_self]

end

theorem slice_length {bs : Bytes} {off len : Nat} (h : off + len ≤ bs.length) : (slice bs off len).length = len := by
  unfold slice
  rw [List.length_take, List.length_drop]
  omega

theorem slice_append {bs x : Bytes} {off len : Nat} (h : off + len ≤ bs.length) : slice (bs ++ x) off len = slice bs off len := by
  unfold slice
  rw [List.drop_append_of_le_length (by omega), List.take_append_of_le_length (by rw [List.length_drop]; omega)]

theorem verHash1_sized {I : Instance} (hI : Consistent I) (c : Ctx) (pt ct : Bytes) (hct : ct.length = I.ctSize) (pr : Proof) (hs : pr.shaped I = true) (com : Nat → Bytes)
    (hcom : ∀ p, (com p).length = I.digestSize) (m : Nat) : (c.verHash1 I pt ct pr com m).Sized I := by
  unfold Proof.shaped at hs
  simp only [Bool.and_eq_true, decide_eq_true_eq] at hs
  refine ⟨⟨by simp [Ctx.verHash1], ?_⟩, ⟨by simp [Ctx.verHash1], ?_⟩, ?_, ?_⟩
  · intro x hx
    obtain ⟨p, _, rfl⟩ := List.mem_map.1 hx
    split
    · tauto
    · exact hcom p
  · intro x hx
    obtain ⟨p, _, rfl⟩ := List.mem_map.1 hx
    split
    · exact ctMissing_length hI c pt ct hct m
    · exact (out_length hI c pt p).2
  · change pr.skDelta.length = _
    tauto
  · change pr.tDelta.length = _
    tauto

theorem verReps1_sized {I : Instance} (hI : Consistent I) (X : Xof) (dummy pk : Bytes) (hpk : 2 * I.ctSize ≤ pk.length) (sig : Signature) (hs : sig.shaped I = true) :
    (verReps1 X I dummy pk sig).length = I.numRounds ∧ ∀ r ∈ verReps1 X I dummy pk sig, r.Sized I := by
  refine ⟨by simp [verReps1], ?_⟩
  intro r hr
  obtain ⟨e, he, rfl⟩ := List.mem_map.1 hr
  refine verHash1_sized hI _ _ _ (slice_length (by omega)) _ ((shaped_facts hs).2.2.2.2 e (List.mem_range.1 he)) _ ?_ _
  intro p
  unfold commitSingle
  exact squeeze_len _ _ _

/-! ## The hidden party's tape is not used -/

namespace Ctx

/-- Same deltas, and same tapes except for party `m`. -/
structure Agree (I : Instance) (m : Nat) (c c' : Ctx) : Prop where
  skDelta : c.skDelta = c'.skDelta
  tDelta : c.tDelta = c'.tDelta
  pDelta : c.pDelta = c'.pDelta
  tape : ∀ p, p < I.numParties ∧ p ≠ m → c.tape p = c'.tape p

variable (I : Instance) {m : Nat} {c c' : Ctx} (h : Agree I m c c')
include h

theorem Agree.key (p : Nat) (hp : p < I.numParties ∧ p ≠ m) : c.key I p = c'.key I p := by
  unfold Ctx.key
  rw [h.skDelta, h.tape p hp]

theorem Agree.t (p : Nat) (hp : p < I.numParties ∧ p ≠ m) : c.t I p = c'.t I p := by
  unfold Ctx.t
  rw [h.tDelta, h.tape p hp]

theorem Agree.out (pt : Bytes) (p : Nat) (hp : p < I.numParties ∧ p ≠ m) : c.out I pt p = c'.out I pt p := by
  unfold Ctx.out
  rw [h.key I p hp, h.t I p hp]

theorem Agree.a (F : FieldState) (pt : Bytes) (rs : List W64) (R : W64) (p j : Nat) (hp : p < I.numParties ∧ p ≠ m) : c.a F I pt rs R p j = c'.a F I pt rs R p j := by
  unfold Ctx.a Ctx.sPts
  rw [h.out I pt p hp, h.tape p hp]

theorem Agree.b (F : FieldState) (R : W64) (p j : Nat) (hp : p < I.numParties ∧ p ≠ m) : c.b F I R p j = c'.b F I R p j := by
  unfold Ctx.b Ctx.tPts
  rw [h.t I p hp, h.tape p hp]

theorem Agree.pc (F : FieldState) (rs : List W64) (R : W64) (p : Nat) (hp : p < I.numParties ∧ p ≠ m) : c.pc F I rs R p = c'.pc F I rs R p := by
  unfold Ctx.pc Ctx.pPts
  rw [h.pDelta, h.tape p hp]

theorem Agree.verHash1 (pt ct : Bytes) (pr : Proof) (com : Nat → Bytes) : c.verHash1 I pt ct pr com m = c'.verHash1 I pt ct pr com m := by
  unfold Ctx.verHash1
  rw [Rep1Hash.mk.injEq]
  refine ⟨rfl, ?_, rfl, rfl⟩
  apply List.map_congr_left
  intro p hpN
  split
  · unfold Ctx.ctMissing
    refine foldl_congr_mem _ _ _ (fun acc q hq => ?_) _
    rw [h.out I pt q (filter_lt hq)]
  · rename_i hp
    rw [h.out I pt p ⟨List.mem_range.1 hpN, hp⟩]

theorem Agree.verHash3 (F : FieldState) (pt : Bytes) (rs : List W64) (R : W64) (pr : Proof) : c.verHash3 F I pt rs R pr m = c'.verHash3 F I pt rs R pr m := by
  unfold Ctx.verHash3
  rw [Rep3.mk.injEq]
  refine ⟨rfl, ?_, rfl, rfl, ?_, ?_⟩
  · apply List.map_congr_left
    intro p hpN
    split
    · refine foldl_congr_mem _ _ _ (fun acc q hq => ?_) _
      rw [h.pc I F rs R q (filter_lt hq)]
    · rename_i hp
      rw [h.pc I F rs R p ⟨List.mem_range.1 hpN, hp⟩]
  · apply List.map_congr_left
    intro p hpN
    apply List.map_congr_left
    intro j _
    split
    · refine foldl_congr_mem _ _ _ (fun acc q hq => ?_) _
      rw [h.a I F pt rs R q j (filter_lt hq)]
    · rename_i hp
      rw [h.a I F pt rs R p j ⟨List.mem_range.1 hpN, hp⟩]
  · apply List.map_congr_left
    intro p hpN
    apply List.map_congr_left
    intro j _
    split
    · refine foldl_congr_mem _ _ _ (fun acc q hq => ?_) _
      rw [h.b I F R q j (filter_lt hq)]
    · rename_i hp
      rw [h.b I F R p j ⟨List.mem_range.1 hpN, hp⟩]

end Ctx

theorem verCtx_agree (X : Xof) (I : Instance) (dummy dummy' salt : Bytes) (rep : Nat) (pr : Proof) :
    Ctx.Agree I pr.reveal.missing (verCtx X I dummy salt rep pr) (verCtx X I dummy' salt rep pr) := by
  refine ⟨rfl, rfl, rfl, fun p hp => ?_⟩
  change verTape X I dummy salt rep pr.reveal p = verTape X I dummy' salt rep pr.reveal p
  unfold verTape
  rw [if_neg hp.2, if_neg hp.2]

theorem verReps1_dummy (X : Xof) (I : Instance) (dummy dummy' pk : Bytes) (sig : Signature) : verReps1 X I dummy pk sig = verReps1 X I dummy' pk sig := by
  unfold verReps1
  apply List.map_congr_left
  intro e _
  exact (verCtx_agree X I dummy dummy' sig.salt e _).verHash1 I _ _ _ _

theorem verReps3_dummy (X : Xof) (F : FieldState) (I : Instance) (dummy dummy' pk : Bytes) (sig : Signature) (Rs : List W64) :
    verReps3 X F I dummy pk sig Rs = verReps3 X F I dummy' pk sig Rs := by
  unfold verReps3
  apply List.map_congr_left
  intro e _
  exact (verCtx_agree X I dummy dummy' sig.salt e _).verHash3 I F _ _ _ _

/-- Signatures in the format of the instance have the sizes verification relies on. -/
theorem Spec.SigWF.shaped {I : Instance} (hN : I.numParties < 2 ^ 32) {ms : List Nat} (hms : ms.length = I.numRounds) {sig : Signature} (wf : SigWF I ms sig) : sig.shaped I = true := by
  unfold Signature.shaped
  simp only [Bool.and_eq_true, decide_eq_true_eq, List.all_eq_true]
  refine ⟨⟨⟨⟨wf.salt, wf.h1⟩, wf.h3⟩, by rw [← wf.proofs.length_eq, hms]⟩, ?_⟩
  intro p hp
  obtain ⟨i, hi, rfl⟩ := List.getElem_of_mem hp
  have h := wf.proofs.get (i := i) (by rw [wf.proofs.length_eq]; exact hi) hi
  unfold Proof.shaped
  simp only [Bool.and_eq_true, decide_eq_true_eq, List.all_eq_true, beq_iff_eq]
  rw [ceilLog2_eq _ hN]
  exact ⟨⟨⟨⟨⟨⟨⟨h.seeds.1, h.seeds.2⟩, h.cE⟩, h.skDelta⟩, h.tDelta⟩, h.pDelta.1⟩, h.sAtR.1⟩, h.tAtR.1⟩

/-! ## Errors of the challenge expansions -/

theorem foldlM_error {α β : Type} (l : List α) (f : β → α → M β) (e0 : Err) (h : ∀ b x e, f b x = .error e → e = e0) (b : β) (e : Err)
    (he : l.foldlM f b = .error e) : e = e0 := by
  induction l generalizing b with
  | nil => cases he
  | cons x xs ih =>
    rw [List.foldlM_cons] at he
    cases hx : f b x with
    | error e' =>
      rw [hx] at he
      exact Except.error.inj he ▸ h b x e' hx
    | ok b' =>
      rw [hx] at he
      exact ih b' he

theorem phase2Loop_error (F : FieldState) (I : Instance) (s : Stream) (forbidden : List W64) (fuel off : Nat) (e : Err)
    (h : phase2Loop F I s forbidden fuel off = .error e) : e = .fuel := by
  induction fuel generalizing off with
  | zero => exact (Except.error.inj h).symm
  | succ n ih =>
    unfold phase2Loop at h
    dsimp only at h
    split at h
    · exact ih _ h
    · cases h

theorem phase2Expand_error (X : Xof) (fuel : Nat) (F : FieldState) (I : Instance) (h2 : Bytes) (forbidden : List W64) (e : Err)
    (h : phase2Expand X fuel F I h2 forbidden = .error e) : e = .fuel := by
  unfold phase2Expand at h
  dsimp only at h
  cases hf : (List.range I.numRounds).foldlM (fun (st : List W64 × Nat) _ => do
    let (c, off) ← phase2Loop F I (X (kindOf I.digestSize) h2) forbidden fuel st.2
    (.ok (st.1 ++ [c], off) : M (List W64 × Nat))) ([], 0) with
  | ok r => rw [hf] at h; cases h
  | error e' =>
    rw [hf] at h
    cases h
    refine foldlM_error _ _ .fuel (fun b x e hx => ?_) _ _ hf
    cases hl : phase2Loop F I (X (kindOf I.digestSize) h2) forbidden fuel b.2 with
    | ok r => rw [hl] at hx; cases hx
    | error e' => rw [hl] at hx; cases hx; exact phase2Loop_error _ _ _ _ _ _ _ hl

theorem phase3Loop_error (n : Nat) (s : Stream) (junk : Nat → Byte) (fuel off : Nat) (e : Err) (h : phase3Loop n s junk fuel off = .error e) : e = .fuel := by
  induction fuel generalizing off with
  | zero => exact (Except.error.inj h).symm
  | succ n ih =>
    unfold phase3Loop at h
    dsimp only at h
    split at h
    · exact ih _ h
    · cases h

theorem phase3Expand_error (X : Xof) (fuel : Nat) (I : Instance) (h3 : Bytes) (e : Err) (h : phase3Expand X fuel I h3 = .error e) : e = .fuel := by
  unfold phase3Expand phase3ExpandJ at h
  dsimp only at h
  cases hf : (List.range I.numRounds).foldlM (fun (st : List Nat × Nat) _ => do
    let (c, off) ← phase3Loop I.numParties (X (kindOf I.digestSize) h3) (fun _ => 0) fuel st.2
    (.ok (st.1 ++ [c], off) : M (List Nat × Nat))) ([], 0) with
  | ok r => rw [hf] at h; cases h
  | error e' =>
    rw [hf] at h
    cases h
    refine foldlM_error _ _ .fuel (fun b x e hx => ?_) _ _ hf
    cases hl : phase3Loop I.numParties (X (kindOf I.digestSize) h3) (fun _ => 0) fuel b.2 with
    | ok r => rw [hl] at hx; cases hx
    | error e' => rw [hl] at hx; cases hx; exact phase3Loop_error _ _ _ _ _ _ hl

theorem Spec.SigWF.missing_eq {I : Instance} {ms : List Nat} {sig : Signature} (wf : SigWF I ms sig) : ms = sig.proofs.map (·.reveal.missing) := by
  have h := wf.proofs
  generalize sig.proofs = l at h ⊢
  clear wf
  induction h with
  | nil => rfl
  | cons h _ ih => rw [List.map_cons, ← h.missing, ← ih]

/-- Outcomes of verification other than acceptance or rejection. -/
theorem verifyWith_unshaped {I : Instance} (hI : Consistent I) (F : FieldState) (X : Xof) (dummy : Bytes) (fuel : Nat) (pk : Bytes) (sig : Signature) (msg : Bytes)
    (h : ¬(2 * I.ctSize ≤ pk.length ∧ sig.shaped I = true)) : verifyWith X dummy fuel F I pk sig msg = .error .ub := by
  unfold verifyWith
  rw [checkAes_ok hI, ok_bind]
  by_cases hpk : 2 * I.ctSize ≤ pk.length
  · rw [decide_eq_true ⟨hpk, hI.sboxes.le⟩, require_true, ok_bind, show sig.shaped I = false by by_contra hc; exact h ⟨hpk, by simpa using hc⟩]
    rfl
  · rw [decide_eq_false (fun hc => hpk hc.1)]
    rfl

end Banquet
