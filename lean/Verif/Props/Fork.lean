import Verif.Proofs.Fork
import Verif.Props.Signed

/-! C67: a key can be computed from two signatures that differ in the choice of the hidden parties. -/

namespace Banquet.Props

open Spec FieldOk

/-- C67: two accepting verifications of signatures with the same hashes, under hash functions that differ only at the third hash, and with different hidden parties in some repetition. Then two explicit inputs
collide, or the opened parties of both together have tapes for the commitments that are hashed before the first challenge, and these share a secret key for the public key, unless one of the first two
challenges is one of few. -/
theorem C67_run (X X' : Xof) (I : Instance) (hI : Consistent I) (pk : Bytes) (hpk : pk.length = 2 * I.ctSize) (msg : Bytes) (sig sig' : Signature) (ms ms' : List Nat) (wf : SigWF I ms sig) (wf' : SigWF I ms' sig')
    (v v' : Values) (h : Verified X I pk msg sig v) (h' : Verified X' I pk msg sig' v') (hX : ∀ k s, s ≠ sig.h3 → X' k s = X k s) (e1 : sig'.h1 = sig.h1) (e3 : sig'.h3 = sig.h3)
    (e : Nat) (pr pr' : Proof) (he : (pr, e) ∈ sig.proofs.zipIdx) (he' : (pr', e) ∈ sig'.proofs.zipIdx) (hne : pr.reveal.missing ≠ pr'.reveal.missing) :
    ForkCollision X X' I pk msg sig sig' v v' ∨ Committed X I sig e pr (merge X X' I sig sig' e pr pr') ∧
      (KeyPair I ((merge X X' I sig sig' e pr pr').wholeKey I) pk ∨
        (challenge1 X I sig.h1 e ∈ lucky1 I pk (merge X X' I sig sig' e pr pr') ∧ (lucky1 I pk (merge X X' I sig sig' e pr pr')).ncard ≤ (2 ^ (8 * I.lambda)) ^ (I.m1 - 1)) ∨
        (v.Rs.getD e 0 ∈ lucky2 I pk (merge X X' I sig sig' e pr pr') (challenge1 X I sig.h1 e) ∧ (lucky2 I pk (merge X X' I sig sig' e pr pr') (challenge1 X I sig.h1 e)).ncard ≤ 2 * I.m2)) := by
  by_cases hcol : ForkCollision X X' I pk msg sig sig' v v'
  · exact Or.inl hcol
  obtain ⟨hc, op⟩ := fork_opens X X' I hI pk msg sig sig' ms ms' wf wf' v v' h h' hX e1 e3 e pr pr' he he' hne hcol
  refine Or.inr ⟨hc, ?_⟩
  obtain ⟨hN, rfl⟩ := h.mem.1 he
  obtain ⟨_, rfl⟩ := h'.mem.1 he'
  have w := wf.get e (by rw [h.length]; exact hN)
  have w' := wf'.get e (by rw [h'.length]; exact hN)
  have hrs := challenge1_elements X I hI sig.h1 e
  have hRr := challenge2_reduced hI h.challenges hN
  exact fork_luck hI hpk (r := merge X X' I sig sig' e _ _) ⟨w.skDelta, w.tDelta, fun p => (by unfold merge; dsimp only; split <;> exact squeeze_len _ _ _)⟩
    (by unfold merge; dsimp only; split <;> [exact w'.pDelta; exact w.pDelta]) hrs hRr (h.missing_lt hN) (h'.missing_lt hN) hne op

/-- C67, for verify: if verify accepts both signatures, there are explicit inputs that collide, or a secret key is shared by the tapes that can be computed from both signatures, or one of the first two
challenges is one of few. -/
theorem C67_verify (X X' : Xof) (fuel fuel' : Nat) (I : Instance) (hI : Consistent I) (pk : Bytes) (hpk : pk.length = 2 * I.ctSize) (msg : Bytes) (sig sig' : Signature) (ms ms' : List Nat) (wf : SigWF I ms sig)
    (wf' : SigWF I ms' sig') (h : verify X fuel I pk sig msg = .ok true) (h' : verify X' fuel' I pk sig' msg = .ok true) (hX : ∀ k s, s ≠ sig.h3 → X' k s = X k s) (e1 : sig'.h1 = sig.h1) (e3 : sig'.h3 = sig.h3)
    (e : Nat) (pr pr' : Proof) (he : (pr, e) ∈ sig.proofs.zipIdx) (he' : (pr', e) ∈ sig'.proofs.zipIdx) (hne : pr.reveal.missing ≠ pr'.reveal.missing) :
    ∃ v v', Verified X I pk msg sig v ∧ Verified X' I pk msg sig' v' ∧ (ForkCollision X X' I pk msg sig sig' v v' ∨ Committed X I sig e pr (merge X X' I sig sig' e pr pr') ∧
      (KeyPair I ((merge X X' I sig sig' e pr pr').wholeKey I) pk ∨
        (challenge1 X I sig.h1 e ∈ lucky1 I pk (merge X X' I sig sig' e pr pr') ∧ (lucky1 I pk (merge X X' I sig sig' e pr pr')).ncard ≤ (2 ^ (8 * I.lambda)) ^ (I.m1 - 1)) ∨
        (v.Rs.getD e 0 ∈ lucky2 I pk (merge X X' I sig sig' e pr pr') (challenge1 X I sig.h1 e) ∧ (lucky2 I pk (merge X X' I sig sig' e pr pr') (challenge1 X I sig.h1 e)).ncard ≤ 2 * I.m2))) := by
  obtain ⟨v, hv⟩ := verified_of_verify hI (by omega) wf h
  obtain ⟨v', hv'⟩ := verified_of_verify hI (by omega) wf' h'
  exact ⟨v, v', hv, hv', C67_run X X' I hI pk hpk msg sig sig' ms ms' wf wf' v v' hv hv' hX e1 e3 e pr pr' he he' hne⟩

/-- The first byte of the input decides, except for the input of 32 bytes 3. -/
def headByte (b3 : Byte) (s : Bytes) : Byte := if s = List.replicate 32 3 then b3 else if s.head? = some 2 then 2 else if s.head? = some 3 then 3 else 1

/-- The hash function with constant output. -/
def constXof (b : Byte) : Xof := fun _ _ => ⟨fun _ => b⟩

/-- A hash function whose output depends on the first byte of the input, except for the input of 32 bytes 3, where it is given. -/
def headXof (b3 : Byte) : Xof := fun k s => constXof (headByte b3 s) k []

theorem headByte_cases {b3 : Byte} (hb : b3 = 2 ∨ b3 = 3) (s : Bytes) : headByte b3 s = 1 ∨ headByte b3 s = 2 ∨ headByte b3 s = 3 := by
  unfold headByte
  rcases hb with rfl | rfl <;> split <;> [simp; (split <;> [simp; (split <;> simp)]); simp; (split <;> [simp; (split <;> simp)])]

theorem head_loops {b3 : Byte} (hb : b3 = 2 ∨ b3 = 3) {F : FieldState} (hF : initExtensionField 4 = .ok F) (h : Bytes) :
    (∃ Rs, phase2Expand (headXof b3) 1 F smallInstance h (F.firstN smallInstance.m2) = .ok Rs) ∧ phase3Expand (headXof b3) 1 smallInstance h = .ok [(headByte b3 h).toNat % 2] := by
  have e2 : phase2Expand (headXof b3) 1 F smallInstance h (F.firstN smallInstance.m2) = phase2Expand (constXof (headByte b3 h)) 1 F smallInstance [] (F.firstN smallInstance.m2) := rfl
  have e3 : phase3Expand (headXof b3) 1 smallInstance h = phase3Expand (constXof (headByte b3 h)) 1 smallInstance [] := rfl
  rw [e2, e3]
  rcases headByte_cases hb h with hc | hc | hc <;> rw [hc]
  · have h2 : (initExtensionField 4 >>= fun F => phase2Expand (constXof 1) 1 F smallInstance [] (F.firstN smallInstance.m2)) = .ok [0x01010101] := by decide +kernel
    rw [hF, ok_bind] at h2
    exact ⟨⟨_, h2⟩, by decide +kernel⟩
  · have h2 : (initExtensionField 4 >>= fun F => phase2Expand (constXof 2) 1 F smallInstance [] (F.firstN smallInstance.m2)) = .ok [0x02020202] := by decide +kernel
    rw [hF, ok_bind] at h2
    exact ⟨⟨_, h2⟩, by decide +kernel⟩
  · have h2 : (initExtensionField 4 >>= fun F => phase2Expand (constXof 3) 1 F smallInstance [] (F.firstN smallInstance.m2)) = .ok [0x03030303] := by decide +kernel
    rw [hF, ok_bind] at h2
    exact ⟨⟨_, h2⟩, by decide +kernel⟩

/-- The signature of the test key: the first hash consists of bytes 1 and the third of bytes 3. -/
theorem head_signs (b3 : Byte) (hb : b3 = 2 ∨ b3 = 3) : ∃ sig, (∃ ms, SigWF smallInstance ms sig) ∧ verify (headXof b3) 1 smallInstance katPk sig [5] = .ok true ∧ sig.h1 = List.replicate 32 1 ∧
    sig.h3 = List.replicate 32 3 ∧ ∃ pr, sig.proofs = [pr] ∧ pr.reveal.missing = b3.toNat % 2 := by
  obtain ⟨F, hF⟩ := init_supported small_consistent.lambda
  obtain ⟨sig, h⟩ := C41_returns (headXof b3) 1 smallInstance small_consistent katKey katPk [5] (kat_pair _ rfl) (fun F h hF => (head_loops hb hF h).1) (fun h => ⟨_, (head_loops hb hF h).2⟩)
  have hv := C15_accepted _ _ _ small_consistent _ _ _ (kat_pair _ rfl) sig h 1 le_rfl
  obtain ⟨⟨ms, wf⟩, _⟩ := C54_sign (headXof b3) 1 smallInstance small_consistent katKey katPk [5] (kat_pair _ rfl) sig h
  obtain ⟨v, k⟩ := verified_of_verify small_consistent (by decide) wf hv
  have h1 : sig.h1 = List.replicate 32 1 := by
    rw [k.hash1, k.input1_eq]
    rfl
  have h3 : sig.h3 = List.replicate 32 3 := by
    have e : sig.h3 = digest (headXof b3) smallInstance (hashed3 (headXof b3) smallInstance sig v) := k.hash3
    have hne : hashed3 (headXof b3) smallInstance sig v ≠ List.replicate 32 3 := fun heq => by
      have : smallInstance.digestSize < (hashed3 (headXof b3) smallInstance sig v).length := hashed3_length
      rw [heq] at this
      exact absurd this (by decide)
    have hb3 : headByte b3 (hashed3 (headXof b3) smallInstance sig v) = 3 := by
      unfold headByte
      rw [if_neg hne, k.hashed3_eq]
      rfl
    generalize hashed3 (headXof b3) smallInstance sig v = z at hb3 e
    unfold digest headXof constXof at e
    rw [e, hb3]
    rfl
  refine ⟨sig, ⟨ms, wf⟩, hv, h1, h3, ?_⟩
  obtain ⟨f, hm⟩ := (C53_hidden (headXof b3) smallInstance small_consistent _ _).2 k.hidden
  have hm := phase3Expand_mono (headXof b3) smallInstance _ (le_max_left f 1) _ hm
  have hm' := phase3Expand_mono (headXof b3) smallInstance _ (le_max_right f 1) _ (head_loops hb hF sig.h3).2
  rw [hm, h3] at hm'
  have hm' := Except.ok.inj hm'
  have hl : sig.proofs.length = 1 := by
    have := congrArg List.length hm'
    rwa [List.length_map] at this
  obtain ⟨pr, hpr⟩ := List.length_eq_one_iff.1 hl
  rw [hpr] at hm'
  exact ⟨pr, hpr, (List.cons.inj hm').1⟩

/-- The signatures of the test key for these hash functions meet the hypotheses: with 3 for the third hash party 1 is hidden, with 2 party 0. The three hashes are different. -/
example : ∃ sig sig', (∃ ms, SigWF smallInstance ms sig) ∧ (∃ ms, SigWF smallInstance ms sig') ∧ verify (headXof 3) 1 smallInstance katPk sig [5] = .ok true ∧
    verify (headXof 2) 1 smallInstance katPk sig' [5] = .ok true ∧ (∀ k s, s ≠ sig.h3 → headXof 2 k s = headXof 3 k s) ∧ sig'.h1 = sig.h1 ∧ sig'.h3 = sig.h3 ∧
    sig.h1 ≠ sig.h3 ∧ ∃ pr pr', sig.proofs = [pr] ∧ sig'.proofs = [pr'] ∧ pr.reveal.missing = 1 ∧ pr'.reveal.missing = 0 := by
  obtain ⟨sig, w, h, a1, a2, pr, a3, a4⟩ := head_signs 3 (Or.inr rfl)
  obtain ⟨sig', w', h', b1, b2, pr', b3, b4⟩ := head_signs 2 (Or.inl rfl)
  refine ⟨sig, sig', w, w', h, h', fun k s hs => ?_, b1.trans a1.symm, b2.trans a2.symm, ?_, pr, pr', a3, b3, a4, b4⟩
  · rw [a2] at hs
    unfold headXof headByte
    simp only [hs, if_false]
  · rw [a1, a2]
    decide

end Banquet.Props
