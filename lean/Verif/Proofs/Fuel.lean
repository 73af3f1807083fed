import Verif.Proofs.SignFull

/-! More iterations of the rejection loops do not change a result. -/

namespace Banquet

theorem foldlM_mono {α β : Type} (f g : β → α → M β) (h : ∀ b a r, f b a = .ok r → g b a = .ok r) (l : List α) (b : β) (r : β) (hr : l.foldlM f b = .ok r) : l.foldlM g b = .ok r := by
  induction l generalizing b with
  | nil => exact hr
  | cons a l ih =>
    rw [List.foldlM_cons] at hr ⊢
    cases hc : f b a with
    | error e => rw [hc] at hr; cases hr
    | ok c =>
      rw [hc, ok_bind] at hr
      rw [h b a c hc, ok_bind]
      exact ih c hr

theorem phase2Loop_mono (F : FieldState) (I : Instance) (s : Stream) (l : List W64) {fuel fuel' : Nat} (hf : fuel ≤ fuel') (off : Nat) (r : W64 × Nat) (h : phase2Loop F I s l fuel off = .ok r) :
    phase2Loop F I s l fuel' off = .ok r := by
  induction fuel generalizing fuel' off with
  | zero => cases h
  | succ fuel ih =>
    obtain ⟨f, rfl⟩ : ∃ f, fuel' = f + 1 := ⟨fuel' - 1, by omega⟩
    unfold phase2Loop at h ⊢
    dsimp only at h ⊢
    split
    · rename_i hc
      rw [if_pos hc] at h
      exact ih (by omega) _ h
    · rename_i hc
      rw [if_neg hc] at h
      exact h

theorem phase3Loop_mono (n : Nat) (s : Stream) (junk : Nat → Byte) {fuel fuel' : Nat} (hf : fuel ≤ fuel') (off : Nat) (r : Nat × Nat) (h : phase3Loop n s junk fuel off = .ok r) :
    phase3Loop n s junk fuel' off = .ok r := by
  induction fuel generalizing fuel' off with
  | zero => cases h
  | succ fuel ih =>
    obtain ⟨f, rfl⟩ : ∃ f, fuel' = f + 1 := ⟨fuel' - 1, by omega⟩
    unfold phase3Loop at h ⊢
    dsimp only at h ⊢
    split
    · rename_i hc
      rw [if_pos hc] at h
      exact ih (by omega) _ h
    · rename_i hc
      rw [if_neg hc] at h
      exact h

theorem phase2Expand_mono (X : Xof) (F : FieldState) (I : Instance) (h2 : Bytes) (l : List W64) {fuel fuel' : Nat} (hf : fuel ≤ fuel') (Rs : List W64) (h : phase2Expand X fuel F I h2 l = .ok Rs) :
    phase2Expand X fuel' F I h2 l = .ok Rs := by
  unfold phase2Expand at h ⊢
  dsimp only at h ⊢
  cases hr : (List.range I.numRounds).foldlM (fun (st : List W64 × Nat) _ => do
    let (c, off) ← phase2Loop F I (X (kindOf I.digestSize) h2) l fuel st.2
    .ok (st.1 ++ [c], off)) (([], 0) : List W64 × Nat) with
  | error e => rw [hr] at h; cases h
  | ok r =>
    rw [hr] at h
    rw [foldlM_mono _ (fun (st : List W64 × Nat) _ => do
      let (c, off) ← phase2Loop F I (X (kindOf I.digestSize) h2) l fuel' st.2
      .ok (st.1 ++ [c], off)) (fun b a r hb => ?_) _ _ r hr]
    · exact h
    · cases hl : phase2Loop F I (X (kindOf I.digestSize) h2) l fuel b.2 with
      | error e => rw [hl] at hb; cases hb
      | ok q =>
        rw [hl] at hb
        rw [phase2Loop_mono F I _ _ hf _ _ hl]
        exact hb

theorem phase3ExpandJ_mono (X : Xof) (junk : Nat → Byte) (I : Instance) (h3 : Bytes) {fuel fuel' : Nat} (hf : fuel ≤ fuel') (ms : List Nat) (h : phase3ExpandJ X junk fuel I h3 = .ok ms) :
    phase3ExpandJ X junk fuel' I h3 = .ok ms := by
  unfold phase3ExpandJ at h ⊢
  dsimp only at h ⊢
  cases hr : (List.range I.numRounds).foldlM (fun (st : List Nat × Nat) _ => do
    let (p, off) ← phase3Loop I.numParties (X (kindOf I.digestSize) h3) junk fuel st.2
    .ok (st.1 ++ [p], off)) (([], 0) : List Nat × Nat) with
  | error e => rw [hr] at h; cases h
  | ok r =>
    rw [hr] at h
    rw [foldlM_mono _ (fun (st : List Nat × Nat) _ => do
      let (p, off) ← phase3Loop I.numParties (X (kindOf I.digestSize) h3) junk fuel' st.2
      .ok (st.1 ++ [p], off)) (fun b a r hb => ?_) _ _ r hr]
    · exact h
    · cases hl : phase3Loop I.numParties (X (kindOf I.digestSize) h3) junk fuel b.2 with
      | error e => rw [hl] at hb; cases hb
      | ok q =>
        rw [hl] at hb
        rw [phase3Loop_mono _ _ _ hf _ _ hl]
        exact hb

theorem phase3Expand_mono (X : Xof) (I : Instance) (h3 : Bytes) {fuel fuel' : Nat} (hf : fuel ≤ fuel') (ms : List Nat) (h : phase3Expand X fuel I h3 = .ok ms) : phase3Expand X fuel' I h3 = .ok ms :=
  phase3ExpandJ_mono X _ I h3 hf ms h

/-! ## The signature of the signer -/

open Spec FieldOk Spec.Aes

section
variable {I : Instance} (hI : Consistent I)
include hI

omit hI in
/-- The signature of a prover is in the format of the instance. -/
theorem proverSig_wf {F : FieldState} [hF : FieldOk F] (hb : F.byteSize = I.lambda) (X : Xof) (pt salt : Bytes) (hsalt : salt.length = 32) (h1 h3 : Bytes) (hh1 : h1.length = I.digestSize) (hh3 : h3.length = I.digestSize) (runs : Nat → Run)
    (hr : ∀ e, (runs e).Sized I) (hd : ∀ e, AllRed F.byteSize (runs e).pDelta) (Rs : List W64) (ms : List Nat) (hm : ms.length = I.numRounds) : SigWF I ms (proverSig X F I pt salt h1 h3 runs Rs ms) := by
  refine ⟨hsalt, hh1, hh3, ?_⟩
  unfold proverSig
  dsimp only
  rw [List.forall₂_iff_get]
  refine ⟨by rw [hm]; simp, fun i hi hi' => ?_⟩
  have hi2 : i < I.numRounds := by omega
  simp only [List.get_eq_getElem, List.getElem_map, List.getElem_range]
  have red : ∀ (n : Nat) (f : Nat → W64), (∀ j, Reduced F.byteSize (f j)) → Elements I.lambda n ((List.range n).map f) := fun n f hf => by
    refine ⟨by simp, fun x hx => ?_⟩
    obtain ⟨j, _, rfl⟩ := List.mem_map.1 hx
    rw [← hb]
    exact hf j
  constructor
  · change ms.getD i 0 = _
    rw [getD_of_lt (by omega)]
  · refine ⟨by unfold Run.proof revealOf; simp [depth], ?_⟩
    intro s hs
    obtain ⟨k, _, rfl⟩ := List.mem_map.1 hs
    rw [seedAt_length, (hr i).root]
  · unfold Run.proof Run.com commitSingle
    exact squeeze_len _ _ _
  · exact (hr i).skDelta
  · exact (hr i).tDelta
  · exact ⟨(hr i).pDelta, fun x hx => by rw [← hb]; exact hd i x hx⟩
  · rw [← hb]
    exact reduced_sum _ _ _ reduced_zero fun p _ => reduced_dotV _ _
  · exact red _ _ fun j => reduced_sum _ _ _ reduced_zero fun p _ => reduced_dotV _ _
  · exact red _ _ fun j => reduced_sum _ _ _ reduced_zero fun p _ => reduced_dotV _ _

/-- What is known about a signature that sign returned for a usable key. -/
theorem signWith_ok {F : FieldState} [hF : FieldOk F] (hb : F.byteSize = I.lambda) (X : Xof) (fuel : Nat) (sk pk msg : Bytes) (hsk : sk.length = I.aes.keySize) (hpk : 2 * I.ctSize ≤ pk.length)
    (h0 : 0 ∉ sboxInputs (I.aes.keySize / 4) I.aes.numBlocks sk (slice pk 0 I.ctSize)) (sig : Signature) (h : signWith X fuel F I sk pk msg = .ok sig) :
    (∃ ms, phase3Expand X fuel I sig.h3 = .ok ms ∧ SigWF I ms sig) ∧
    (slice pk I.ctSize I.ctSize = encrypt (I.aes.keySize / 4) I.aes.numBlocks sk (slice pk 0 I.ctSize) → ∀ dummy : Bytes, dummy.length = I.seedSize → ∀ fuel' ≥ fuel, verifyWith X dummy fuel' F I pk sig msg = .ok true) := by
  obtain ⟨runs, hr, e⟩ := signWith_eq hI (F := F) X fuel sk pk msg hsk hpk h0
  rw [e] at h
  have hs : (genSalt X I sk pk msg).length = 32 := squeeze_len _ _ _
  have hl1 : (proverH1 X I (genSalt X I sk pk msg) pk msg runs).length = I.digestSize := squeeze_len _ _ _
  cases hRs : phase2Expand X fuel F I (proverH2 X F I (genSalt X I sk pk msg) (proverH1 X I (genSalt X I sk pk msg) pk msg runs) runs) (F.firstN I.m2) with
  | error e => rw [hRs] at h; cases h
  | ok Rs =>
  rw [hRs] at h
  obtain ⟨Rl, hRr⟩ := phase2Expand_spec X fuel I _ _ Rs hRs
  cases hms : phase3Expand X fuel I (proverH3 X F I (slice pk 0 I.ctSize) (genSalt X I sk pk msg) (proverH1 X I (genSalt X I sk pk msg) pk msg runs)
      (proverH2 X F I (genSalt X I sk pk msg) (proverH1 X I (genSalt X I sk pk msg) pk msg runs) runs) runs Rs) with
  | error e =>
    change (phase3Expand X fuel I _).bind _ = _ at h
    rw [hms] at h
    cases h
  | ok ms =>
  change (phase3Expand X fuel I _).bind _ = _ at h
  rw [hms] at h
  obtain ⟨ml, mlt⟩ := phase3Expand_spec X _ fuel I _ ms hms
  have h := Except.ok.inj h
  subst h
  constructor
  · exact ⟨ms, hms, proverSig_wf hb X _ _ hs _ _ hl1 (squeeze_len _ _ _) runs hr.sized hr.red Rs ms ml⟩
  · intro hct dummy hd fuel' hf
    refine prover_accepted hI X F _ dummy hd fuel' pk hpk msg hs runs (fun e _ => hr.sized e) _ _ _ Rs ms rfl rfl rfl (phase2Expand_mono X F I _ _ hf Rs hRs) (phase3Expand_mono X I _ hf ms hms)
      (fun e _ => by rw [hct]; exact hr.ct e) fun e he => hr.prod e _ ?_
    rw [getD_of_lt (by omega)]
    exact (hRr _ (List.getElem_mem _)).1

/-- Sign returns a signature or uses up the iterations of a rejection loop. -/
theorem signWith_total {F : FieldState} [hF : FieldOk F] (X : Xof) (fuel : Nat) (sk pk msg : Bytes) (hsk : sk.length = I.aes.keySize) (hpk : 2 * I.ctSize ≤ pk.length)
    (h0 : 0 ∉ sboxInputs (I.aes.keySize / 4) I.aes.numBlocks sk (slice pk 0 I.ctSize)) :
    ((∃ sig, signWith X fuel F I sk pk msg = .ok sig) ∨ signWith X fuel F I sk pk msg = .error .fuel) ∧
    ((∀ h, ∃ Rs, phase2Expand X fuel F I h (F.firstN I.m2) = .ok Rs) → (∀ h, ∃ ms, phase3Expand X fuel I h = .ok ms) → ∃ sig, signWith X fuel F I sk pk msg = .ok sig) := by
  obtain ⟨runs, hr, e⟩ := signWith_eq hI (F := F) X fuel sk pk msg hsk hpk h0
  rw [e]
  constructor
  · cases hRs : phase2Expand X fuel F I (proverH2 X F I (genSalt X I sk pk msg) (proverH1 X I (genSalt X I sk pk msg) pk msg runs) runs) (F.firstN I.m2) with
    | error e =>
      have := phase2Expand_error X fuel F I _ _ e hRs
      subst this
      exact .inr rfl
    | ok Rs =>
    change (∃ sig, (phase3Expand X fuel I _).bind _ = _) ∨ (phase3Expand X fuel I _).bind _ = _
    cases hms : phase3Expand X fuel I (proverH3 X F I (slice pk 0 I.ctSize) (genSalt X I sk pk msg) (proverH1 X I (genSalt X I sk pk msg) pk msg runs)
      (proverH2 X F I (genSalt X I sk pk msg) (proverH1 X I (genSalt X I sk pk msg) pk msg runs) runs) runs Rs) with
    | error e =>
      have := phase3Expand_error X fuel I _ e hms
      subst this
      exact .inr rfl
    | ok ms => exact .inl ⟨_, rfl⟩
  · intro g2 g3
    obtain ⟨Rs, hRs⟩ := g2 (proverH2 X F I (genSalt X I sk pk msg) (proverH1 X I (genSalt X I sk pk msg) pk msg runs) runs)
    rw [hRs]
    obtain ⟨ms, hms⟩ := g3 (proverH3 X F I (slice pk 0 I.ctSize) (genSalt X I sk pk msg) (proverH1 X I (genSalt X I sk pk msg) pk msg runs)
      (proverH2 X F I (genSalt X I sk pk msg) (proverH1 X I (genSalt X I sk pk msg) pk msg runs) runs) runs Rs)
    change ∃ sig, (phase3Expand X fuel I _).bind _ = _
    rw [hms]
    exact ⟨_, rfl⟩

end

end Banquet
