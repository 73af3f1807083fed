import Verif.Proofs.Grind
import Verif.Props.Fork

/-! C71: what a forger can reach by asking the hash function again and again. -/

namespace Banquet.Props

open Spec FieldOk

/-- C71, for every input `i2` of the second hash that contains the first hash. `Q` are all queries in order. An accepted signature without collision and without guessed hash values: each of the three hashes is asked before
its value is used, and the seeds in the queries before the first hash share a key for the public key, or the signature was found in one of three ways, each with a bound on the number of good challenges. -/
theorem C71_any (X : Xof) (I : Instance) (hI : Consistent I) (pk : Bytes) (hpk : pk.length = 2 * I.ctSize) (msg : Bytes) (sig : Signature) (ms : List Nat) (wf : SigWF I ms sig) (v : Values) (i2 : Bytes)
    (h : VerifiedBy i2 X I pk msg sig v) (hi : sig.h1 <:+: i2) (Q : List Bytes) (hQ : Asked I X pk msg sig v i2 Q) (t1 t2 : Nat) :
    CollisionIn X I Q ∨ GuessIn X I Q ∨
    (input1 X I pk msg sig v.bc ∈ before Q sig.h1 ∧ input1 X I pk msg sig v.bc ∈ before Q i2 ∧ i2 ∈ before Q (digest X I i2) ∧ i2 ∈ before Q (hashed3By i2 X I sig v) ∧ hashed3By i2 X I sig v ∈ before Q sig.h3) ∧
    ((∃ e < I.numRounds, KeyPair I ((extract I X Q (input1 X I pk msg sig v.bc) e).wholeKey I) pk) ∨
      ThreeWays I X pk Q (input1 X I pk msg sig v.bc) (hashed3By i2 X I sig v) (fun e => (sig.proofs.map (·.pDelta)).getD e []) (fun e => challenge1 X I sig.h1 e) (fun e => v.Rs.getD e 0)
        (fun e => (sig.proofs.map (·.reveal.missing)).getD e 0) t1 t2) := by
  by_cases hc : CollisionIn X I Q
  · exact Or.inl hc
  by_cases hg : GuessIn X I Q
  · exact Or.inr (Or.inl hg)
  have hr : ∀ e : Fin I.numRounds, (extract I X Q (input1 X I pk msg sig v.bc) e).Sized I := fun e => extract_sized hI h wf Q e.2
  refine Or.inr (Or.inr ⟨⟨before_of_guess hg hQ.first hQ.round1 ?_, before_of_guess hg hQ.first hQ.second ?_, before_of_guess hg hQ.second hQ.round2 (List.infix_refl _),
    before_of_guess hg hQ.second hQ.third ?_, before_of_guess hg hQ.third hQ.round3 ?_⟩, ?_⟩)
  · rw [← h.hash1]
  · rwa [← h.hash1]
  · rw [h.hashed3_eq]
    exact ((List.suffix_append _ _).isInfix.trans (List.prefix_append _ _).isInfix).trans (List.suffix_cons _ _).isInfix
  · rw [← h.hash3]
  by_cases hk : ∃ e < I.numRounds, KeyPair I ((extract I X Q (input1 X I pk msg sig v.bc) e).wholeKey I) pk
  · exact Or.inl hk
  refine Or.inr ?_
  have hrs : (fun e : Fin I.numRounds => challenge1 X I sig.h1 e) ∈ Round1 I := fun e => challenge1_elements X I hI sig.h1 e
  have hRs : (fun e : Fin I.numRounds => v.Rs.getD e 0) ∈ Round2 I := fun e => ⟨challenge2_reduced hI h.challenges e.2, challenge2_fresh h.challenges e.2⟩
  have gd : ∀ e : Fin I.numRounds, (sig.proofs.map (·.pDelta)).getD e [] = (sig.proofs.getD e noProof).pDelta := fun e => by
    have := e.2
    rw [getD_of_lt (by rw [List.length_map, h.length]; exact e.2), List.getElem_map, getD_of_lt (by rw [h.length]; exact e.2)]
  have gm : ∀ e : Fin I.numRounds, (sig.proofs.map (·.reveal.missing)).getD e 0 = (sig.proofs.getD e noProof).reveal.missing := fun e => by
    rw [getD_of_lt (by rw [List.length_map, h.length]; exact e.2), List.getElem_map, getD_of_lt (by rw [h.length]; exact e.2)]
  have hd : ∀ e : Fin I.numRounds, Elements I.lambda (I.m2 + 1) ((sig.proofs.map (·.pDelta)).getD e []) := fun e => by
    rw [gd]
    exact (wf.get e (by rw [h.length]; exact e.2)).pDelta
  unfold ThreeWays
  by_cases b1 : (fun e : Fin I.numRounds => challenge1 X I sig.h1 e) ∈ Bad1 I pk (fun e => extract I X Q (input1 X I pk msg sig v.bc) e) t1
  · exact Or.inl ⟨b1, count_bad1 hI hpk hr (fun e hke => hk ⟨e, e.2, hke⟩) t1⟩
  by_cases b2 : (fun e : Fin I.numRounds => v.Rs.getD e 0) ∈ Bad2 I pk (fun e => extract I X Q (input1 X I pk msg sig v.bc) e) (fun e => (sig.proofs.map (·.pDelta)).getD e []) (fun e => challenge1 X I sig.h1 e) t2
  · exact Or.inr (Or.inl ⟨b2, count_bad2 hI hd hrs t2⟩)
  refine Or.inr (Or.inr ⟨⟨fun e => ?_, fun e => ⟨?_, fun p hp hne => ?_⟩⟩, count_bad3 hI hrs hRs _ b1 b2⟩)
  · dsimp only
    rw [gm]
    exact h.missing_lt e.2
  · dsimp only
    rw [gm, gd]
    exact extract_accepts hI h wf hQ hc hg e.2
  · dsimp only at hne ⊢
    rw [gm] at hne
    rw [found hI h wf hQ hc hg e.2 hp hne]
    exact Option.some_ne_none _

/-- C71, for the code: what an accepted signature means. The corrections of `P` are those in the signature; the last of each repetition is not hashed (C27), so it can be chosen after the second challenge. -/
theorem C71_code (X : Xof) (fuel : Nat) (I : Instance) (hI : Consistent I) (pk : Bytes) (hpk : pk.length = 2 * I.ctSize) (msg : Bytes) (sig : Signature) (ms : List Nat) (wf : SigWF I ms sig)
    (h : verify X fuel I pk sig msg = .ok true) : ∃ v, Verified X I pk msg sig v ∧ ∀ Q, Asked I X pk msg sig v (input2 I sig) Q → ∀ t1 t2, CollisionIn X I Q ∨ GuessIn X I Q ∨
    (input1 X I pk msg sig v.bc ∈ before Q sig.h1 ∧ input1 X I pk msg sig v.bc ∈ before Q (input2 I sig) ∧ input2 I sig ∈ before Q (digest X I (input2 I sig)) ∧ input2 I sig ∈ before Q (hashed3 X I sig v) ∧
      hashed3 X I sig v ∈ before Q sig.h3) ∧
    ((∃ e < I.numRounds, KeyPair I ((extract I X Q (input1 X I pk msg sig v.bc) e).wholeKey I) pk) ∨
      ThreeWays I X pk Q (input1 X I pk msg sig v.bc) (hashed3 X I sig v) (fun e => (sig.proofs.map (·.pDelta)).getD e []) (fun e => challenge1 X I sig.h1 e) (fun e => v.Rs.getD e 0)
        (fun e => (sig.proofs.map (·.reveal.missing)).getD e 0) t1 t2) := by
  obtain ⟨v, hv⟩ := verified_of_verify hI (by omega) wf h
  refine ⟨v, hv, fun Q hQ t1 t2 => C71_any X I hI pk hpk msg sig ms wf v _ hv ?_ Q hQ t1 t2⟩
  unfold input2
  exact ((List.suffix_append _ _).isInfix.trans (List.prefix_append _ _).isInfix).trans (List.suffix_cons _ _).isInfix

/-- C71, for the scheme that hashes all corrections of `P`: each set of good challenges is given by the inputs that are asked before the challenge, the corrections of `P` by the input of the second hash. -/
theorem C71_all (X : Xof) (I : Instance) (hI : Consistent I) (pk : Bytes) (hpk : pk.length = 2 * I.ctSize) (msg : Bytes) (sig : Signature) (ms : List Nat) (wf : SigWF I ms sig) (v : Values)
    (h : VerifiedBy (input2n (I.m2 + 1) I sig) X I pk msg sig v) (Q : List Bytes) (hQ : Asked I X pk msg sig v (input2n (I.m2 + 1) I sig) Q) (t1 t2 : Nat) :
    CollisionIn X I Q ∨ GuessIn X I Q ∨ ∃ s1 s2 s3, sig.h1 = digest X I s1 ∧ sig.h3 = digest X I s3 ∧ s1 ∈ before Q sig.h1 ∧ s1 ∈ before Q s2 ∧ s2 ∈ before Q (digest X I s2) ∧ s2 ∈ before Q s3 ∧ s3 ∈ before Q sig.h3 ∧
      ((∃ e < I.numRounds, KeyPair I ((extract I X Q s1 e).wholeKey I) pk) ∨
        ∃ Rs ms, IsChallenge2 X I (digest X I s2) Rs ∧ IsChallenge3 X I (digest X I s3) ms ∧
          ThreeWays I X pk Q s1 s3 (fun e => pDeltaAt I s2 e) (fun e => challenge1 X I (digest X I s1) e) (fun e => Rs.getD e 0) (fun e => ms.getD e 0) t1 t2) := by
  have hi : sig.h1 <:+: input2n (I.m2 + 1) I sig := by
    unfold input2n
    exact ((List.suffix_append _ _).isInfix.trans (List.prefix_append _ _).isInfix).trans (List.suffix_cons _ _).isInfix
  rcases C71_any X I hI pk hpk msg sig ms wf v _ h hi Q hQ t1 t2 with k | k | ⟨⟨o1, o2, o3, o4, o5⟩, k⟩
  · exact Or.inl k
  · exact Or.inr (Or.inl k)
  refine Or.inr (Or.inr ⟨_, _, _, h.hash1, h.hash3, o1, o2, o3, o4, o5, k.imp id fun k => ⟨_, _, h.challenges, by rw [← h.hash3]; exact h.hidden, ?_⟩⟩)
  rw [← h.hash1]
  have : (fun e : Fin I.numRounds => pDeltaAt I (input2n (I.m2 + 1) I sig) e) = fun e : Fin I.numRounds => (sig.proofs.map (·.pDelta)).getD e [] := by
    funext e
    rw [pDeltaAt_eq h wf e.2, getD_of_lt (by rw [h.length]; exact e.2), getD_of_lt (by rw [List.length_map, h.length]; exact e.2), List.getElem_map]
  rw [this]
  exact k

/-- C71: what is extracted does not depend on the outputs from which the challenges are taken. -/
theorem C71_fixed (I : Instance) (hI : Consistent I) (X X' : Xof) (hX : ∀ k s, s.length ≠ I.digestSize → X' k s = X k s) (Q : List Bytes) (s : Bytes) (hs : 33 ≤ s.length) (e : Nat) :
    extract I X' Q s e = extract I X Q s e ∧ ∀ p, foundSeed I X' Q s e p = foundSeed I X Q s e p := by
  have s36 : 36 + I.seedSize ≠ I.digestSize := by
    rw [hI.digest, hI.seed]
    rcases hI.aes with g | g | g <;> simp only [Prod.mk.injEq] at g <;> omega
  have hf : ∀ p, foundSeed I X' Q s e p = foundSeed I X Q s e p := fun p => by
    unfold foundSeed seedFor
    congr 2
    funext q
    rw [decide_eq_decide]
    refine and_congr_right fun hl => and_congr_right fun _ => ?_
    unfold digest
    rw [hX _ _ (by rw [hl]; exact s36)]
  refine ⟨?_, hf⟩
  unfold extract
  congr 1
  funext p
  rw [hf]
  cases hseed : foundSeed I X Q s e p with
  | none => rfl
  | some seed =>
    dsimp only
    rw [hX]
    have hl : seed.length = I.seedSize := by
      unfold foundSeed seedFor at hseed
      obtain ⟨q, hq, rfl⟩ := Option.map_eq_some_iff.1 hseed
      have := List.find?_some hq
      rw [decide_eq_true_eq] at this
      rw [List.length_drop, this.1]
      omega
    simp only [List.length_append, hl, le16_length]
    rw [saltAt, slice_length (by omega)]
    omega

/-- The hypotheses for the code: a signature of the test key and the list of queries of its verification. -/
example : ∃ (sig : Signature) (ms : List Nat) (v : Values) (Q : List Bytes), SigWF smallInstance ms sig ∧ verify (headXof 3) 1 smallInstance katPk sig [5] = .ok true ∧ Verified (headXof 3) smallInstance katPk [5] sig v ∧
    Asked smallInstance (headXof 3) katPk [5] sig v (input2 smallInstance sig) Q := by
  obtain ⟨sig, ⟨ms, wf⟩, h, _⟩ := head_signs 3 (Or.inr rfl)
  obtain ⟨v, hv⟩ := verified_of_verify small_consistent (by decide) wf h
  let Q : List Bytes := (sig.proofs.zipIdx.flatMap fun x => (List.range 2).map fun p => sig.salt ++ le16 x.2 ++ le16 p ++ partySeedOf (headXof 3) smallInstance sig x.2 x.1 p) ++
    [input1 (headXof 3) smallInstance katPk [5] sig v.bc, sig.h1, input2 smallInstance sig, digest (headXof 3) smallInstance (input2 smallInstance sig), hashed3 (headXof 3) smallInstance sig v, sig.h3]
  refine ⟨sig, ms, v, Q, wf, h, hv, ?_, ?_, ?_, ?_, ?_, ?_, fun e pr he p hp _ => List.mem_append_left _ (List.mem_flatMap.2 ⟨(pr, e), he, List.mem_map.2 ⟨p, List.mem_range.2 hp, rfl⟩⟩)⟩ <;>
  exact List.mem_append_right _ (by simp)

/-- The hypotheses for all corrections: the same signature, since this hash function has the same value for both inputs. -/
theorem head_asked : ∃ (sig : Signature) (ms : List Nat) (v : Values) (Q : List Bytes), SigWF smallInstance ms sig ∧ VerifiedBy (input2n (smallInstance.m2 + 1) smallInstance sig) (headXof 3) smallInstance katPk [5] sig v ∧
    Asked smallInstance (headXof 3) katPk [5] sig v (input2n (smallInstance.m2 + 1) smallInstance sig) Q := by
  obtain ⟨sig, ⟨ms, wf⟩, h, _⟩ := head_signs 3 (Or.inr rfl)
  obtain ⟨v, hv⟩ := verified_of_verify small_consistent (by decide) wf h
  have hne : ∀ n, input2n n smallInstance sig ≠ List.replicate 32 3 := fun n heq => by
    unfold input2n at heq
    exact absurd (List.cons.inj heq).1 (by decide)
  have hb : ∀ n, headByte 3 (input2n n smallInstance sig) = 2 := fun n => by
    unfold headByte
    rw [if_neg (hne n)]
    rfl
  have hd : ∀ n, digest (headXof 3) smallInstance (input2n n smallInstance sig) = List.replicate 32 2 := fun n => by
    unfold digest headXof constXof
    rw [hb]
    rfl
  have e2 : input2 smallInstance sig = input2n smallInstance.m2 smallInstance sig := rfl
  have h3 : hashed3By (input2n (smallInstance.m2 + 1) smallInstance sig) (headXof 3) smallInstance sig v = hashed3 (headXof 3) smallInstance sig v := by
    unfold hashed3 hashed3By
    rw [e2, hd, hd]
  have hv' : VerifiedBy (input2n (smallInstance.m2 + 1) smallInstance sig) (headXof 3) smallInstance katPk [5] sig v :=
    ⟨by have := hv.challenges; rwa [e2, hd, ← hd (smallInstance.m2 + 1)] at this, hv.hidden, hv.completes, hv.hash1, by rw [h3]; exact hv.hash3, hv.product⟩
  let Q : List Bytes := (sig.proofs.zipIdx.flatMap fun x => (List.range 2).map fun p => sig.salt ++ le16 x.2 ++ le16 p ++ partySeedOf (headXof 3) smallInstance sig x.2 x.1 p) ++
    [input1 (headXof 3) smallInstance katPk [5] sig v.bc, sig.h1, input2n (smallInstance.m2 + 1) smallInstance sig, digest (headXof 3) smallInstance (input2n (smallInstance.m2 + 1) smallInstance sig),
      hashed3By (input2n (smallInstance.m2 + 1) smallInstance sig) (headXof 3) smallInstance sig v, sig.h3]
  refine ⟨sig, ms, v, Q, wf, hv', ?_, ?_, ?_, ?_, ?_, ?_, fun e pr he p hp _ => List.mem_append_left _ (List.mem_flatMap.2 ⟨(pr, e), he, List.mem_map.2 ⟨p, List.mem_range.2 hp, rfl⟩⟩)⟩ <;>
  exact List.mem_append_right _ (by simp)

/-- Two hash functions that differ only where challenges are taken. -/
example : (∀ k s, s.length ≠ smallInstance.digestSize → headXof 2 k s = headXof 3 k s) ∧ headXof 2 .shake128 (List.replicate 32 3) ≠ headXof 3 .shake128 (List.replicate 32 3) := by
  refine ⟨fun k s hs => ?_, fun heq => absurd (congrFun (congrArg Stream.get heq) 0) (by decide)⟩
  have : s ≠ List.replicate 32 3 := fun heq => hs (by rw [heq]; rfl)
  unfold headXof headByte
  simp only [this, if_false]

end Banquet.Props
