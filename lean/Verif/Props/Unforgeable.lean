import Verif.Proofs.Settled
import Verif.Props.Grind
import Verif.Props.Hidden
import Verif.Props.Ends

/-! C82: forging a signature after seeing one. -/

namespace Banquet.Props

open Spec FieldOk

section
variable {p : Int} {I : Instance} (hI : instanceGet p = .ok I) {sk pk msg : Bytes} {D : Finset Bytes} (hD : ∀ s : Bytes, s.length ≤ longest I pk msg → s ∈ D) {len : Nat} (hlen : ∀ s ∈ D, s.length ≤ len)
  {L : Nat} (hL : 32 + I.numRounds * I.seedSize ≤ L) (hL1 : I.numRounds * I.m1 * I.lambda ≤ L) (hT : I.tapeSize ≤ L) (hd : I.digestSize ≤ L) (X0 : Xof) (fuel : Nat)
include hI hD hlen hL1 hd

/-- C82, without the secret key: a forger who gets a simulated signature forges one of another message only if a key for the public key is found, or with a small probability. -/
theorem C82_simulated (hpk : pk.length = 2 * I.ctSize) {q : Nat} (A : Forger (kindOf I.digestSize) q) (hA : ∀ sig X i, A.ask sig X i ∈ D) :
    ({ω : Coins I D L | AcceptsSimulated (A.observer pk msg) X0 (I.m2 + 1) fuel pk msg ω ∧ ¬∃ sk' ∈ keysFrom A X0 fuel pk msg ω, KeyPair I sk' pk}.ncard : ℚ) ≤
      (((q + simCount I : Nat) : ℚ) * ((q + simCount I : Nat) + 1) * (len + 1) / (2 * 256 ^ I.digestSize) + (q + simCount I : Nat) * (3 / 2 ^ (8 * I.aes.keySize)) + (q + simCount I : Nat) * (2 / 256 ^ I.digestSize)) *
        Nat.card (Coins I D L) := by
  have : Finite Byte := Finite.of_injective BitVec.toFin fun a b h => BitVec.eq_of_toFin_eq h
  obtain ⟨hc, _⟩ := supplied hI
  obtain ⟨F, hF⟩ := init_supported hc.lambda
  obtain ⟨hok, hb, _⟩ := initExtensionField_ok hF
  obtain ⟨s1, s2, s3⟩ := seed_cases hc
  have hsh : ∀ s : Bytes, s.length ≤ I.seedSize + 37 ∨ s.length = I.digestSize → s ∈ D := fun s hs => hD s (by unfold longest; omega)
  refine fiber_count _ fun a => fiber_count _ fun d => ?_
  set ω : (D → Fin L → Byte) → Coins I D L := fun f => (a, d, f) with hω
  have hdl : ∀ k, (List.ofFn (d k)).length = I.digestSize := fun k => List.length_ofFn
  set ask := play A fuel pk msg (answer ⟨fun _ => 0⟩ a) (List.ofFn (d 0)) (List.ofFn (d 1)) (List.ofFn (d 2)) with hask
  have had : Adaptive (kindOf I.digestSize) ask := play_adaptive A fuel pk msg _ _ _ _ hc hF
  have hmem : ∀ X i, ask X i ∈ D := play_mem A fuel pk msg _ _ _ _ hc (hdl 0) (hdl 1) (hdl 2) hsh hA
  have k1 := C79_forger p I hI pk hpk ask had (q + simCount I) D hmem len hlen X0 L hd hL1
  have k2 := hit_count (X0 := X0) had hmem hd (q + simCount I) (List.ofFn (d 0)) (List.ofFn (d 1))
  have hsub : {f | (a, d, f) ∈ {ω : Coins I D L | AcceptsSimulated (A.observer pk msg) X0 (I.m2 + 1) fuel pk msg ω ∧ ¬∃ sk' ∈ keysFrom A X0 fuel pk msg ω, KeyPair I sk' pk}} ⊆
      {f : D → Fin L → Byte | ForgeableAny (withTable (kindOf I.digestSize) X0 f) I pk (asks ask (withTable (kindOf I.digestSize) X0 f) (q + simCount I)) ∧
        Keyless (withTable (kindOf I.digestSize) X0 f) I pk (asks ask (withTable (kindOf I.digestSize) X0 f) (q + simCount I))} ∪
      {f : D → Fin L → Byte | ∃ s ∈ asks ask (withTable (kindOf I.digestSize) X0 f) (q + simCount I), digest (withTable (kindOf I.digestSize) X0 f) I s = List.ofFn (d 0) ∨
        digest (withTable (kindOf I.digestSize) X0 f) I s = List.ofFn (d 1)} := by
    rintro f ⟨⟨o, hrun, hne, hset⟩, hkey⟩
    have hrun' : simulate (I.m2 + 1) (withTable (kindOf I.digestSize) X0 f) fuel I pk msg (answer ⟨fun _ => 0⟩ a) (List.ofFn (d 0)) (List.ofFn (d 1)) (List.ofFn (d 2)) = .ok o := hrun
    obtain ⟨Rs, ms, e2, e3, ho⟩ := run_parts hc hF hrun
    have hin := special_short (sk := List.replicate I.aes.keySize 0) (msg := msg) (X := (ω f).xof X0) (Rs := Rs) (ms := ms) (seed := fun _ => List.replicate I.seedSize 0) (m := fun _ => 0) (salt := (ω f).saltOf) (root := (ω f).rootOf) hc hb
      (le_refl (I.m2 + 1)) (by simp) hpk (squeeze_len _ _ _) (fun e => squeeze_len _ _ _) (hdl 0) (hdl 1) (hdl 2) (by simp)
    have hX : withTable (kindOf I.digestSize) X0 ((ω f).table o) = left I (List.ofFn (d 0)) (List.ofFn (d 1)) (List.ofFn (d 2)) o (withTable (kindOf I.digestSize) X0 f) := by
      refine reset_withTable _ X0 f fun x hx => ?_
      have hs : ∀ x ∈ [o.in1, o.in2, o.in3], x ∈ D := fun x hx => hD _ (hin x (by
        rw [ho] at hx
        unfold special
        simp only [List.mem_cons, List.not_mem_nil, or_false] at hx ⊢
        rcases hx with h | h | h
        · exact Or.inr (Or.inl h)
        · exact Or.inr (Or.inr (Or.inl h))
        · exact Or.inr (Or.inr (Or.inr (Or.inl h)))))
      have hdl' : ∀ k, ((ω f).hash k).length ≤ L := fun k => (hdl k).le.trans hd
      simp only [List.mem_cons, List.not_mem_nil, or_false] at hx
      rcases hx with rfl | rfl | rfl
      · exact ⟨hs _ (by simp), hdl' 0⟩
      · exact ⟨hs _ (by simp), hdl' 1⟩
      · exact ⟨hs _ (by simp), hdl' 2⟩
    have hQ : asks ask (withTable (kindOf I.digestSize) X0 f) (q + simCount I) = questions A X0 (ω f) o := by
      rw [Nat.add_comm, hask, asks_play A fuel pk msg _ _ _ _ hrun', ← hX]
      rfl
    have hforge := hset _ fun s _ => rfl
    have hforge : Forges (left I (List.ofFn (d 0)) (List.ofFn (d 1)) (List.ofFn (d 2)) o (withTable (kindOf I.digestSize) X0 f)) I pk (asks (A.ask o.sig) (withTable (kindOf I.digestSize) X0 ((ω f).table o)) q)
        (A.out o.sig (withTable (kindOf I.digestSize) X0 ((ω f).table o))) := hX ▸ hforge
    rw [ho] at hforge
    rcases forged_cases hc hpk (squeeze_len _ _ _) (fun e => squeeze_len _ _ _) (hdl 0) (hdl 1) (hdl 2) (Q' := questions A X0 (ω f) o) (fun s hs => List.mem_append_right _ (ho ▸ hs)) (ho ▸ hne) hforge with h | h
    · left
      refine ⟨hQ ▸ h, ?_⟩
      rw [hQ]
      intro s hs e he hk
      refine hkey ⟨_, ?_, hk⟩
      unfold keysFrom
      rw [hrun]
      exact List.mem_append_left _ (List.mem_flatMap.2 ⟨s, hs, List.mem_map.2 ⟨e, List.mem_range.2 he, rfl⟩⟩)
    · right
      rw [← hQ] at h
      exact h
  have hn := (show (_ : ℚ) ≤ _ from Nat.cast_le.2 ((Set.ncard_le_ncard hsub (Set.toFinite _)).trans (Set.ncard_union_le _ _)))
  rw [Nat.cast_add] at hn
  refine hn.trans ((add_le_add k1 k2).trans (le_of_eq ?_))
  ring

include hL hT

/-- C82: the forger gets the signature of a message by the changed code, asks for `q` values of the hash function, and forges a signature of another message with probability at most that of an accident (C80), plus `seenBound`, plus
twice the probability that a secret key for the public key is found with a simulated signature, that is, from the public key alone. -/
theorem C82_forger (hk : KeyPair I sk pk) {q : Nat} (hq : 2 * q < 256 ^ I.seedSize) (A : Forger (kindOf I.digestSize) q) (hA : ∀ sig X i, A.ask sig X i ∈ D) :
    ({f : D → Fin L → Byte | ForgesReal A X0 fuel sk pk msg f}.ncard : ℚ) / Nat.card (D → Fin L → Byte) ≤
      ({ω : Coins I D L | ¬∃ o, Clean X0 (I.m2 + 1) fuel sk pk msg ω o}.ncard : ℚ) / Nat.card (Coins I D L) + seenBound I q len +
      2 * (({ω : Coins I D L | ∃ sk' ∈ keysFrom A X0 fuel pk msg ω, KeyPair I sk' pk}.ncard : ℚ) / Nat.card (Coins I D L)) := by
  have : Finite Byte := Finite.of_injective BitVec.toFin fun a b h => BitVec.eq_of_toFin_eq h
  obtain ⟨hc, _⟩ := supplied hI
  obtain ⟨f1, f2, f3, f4⟩ := KeyPair.facts hc hk
  have hpos : (0 : ℚ) < Nat.card (Coins I D L) := by exact_mod_cast Nat.card_pos
  have k1 := C81_distinguish hc hD hL hT hd X0 (I.m2 + 1) fuel le_rfl hk hq (A.observer pk msg)
  have k2 := C82_simulated (msg := msg) hI hD hlen hL1 hd X0 fuel f2 A hA
  have e1 : {f : D → Fin L → Byte | AcceptsReal (A.observer pk msg) X0 (I.m2 + 1) fuel sk pk msg f} = {f | ForgesReal A X0 fuel sk pk msg f} := rfl
  rw [e1] at k1
  have k3 : ({ω : Coins I D L | ∃ sk' ∈ keyGuesses (A.observer pk msg) X0 (I.m2 + 1) fuel pk msg ω, KeyPair I sk' pk}.ncard : ℚ) ≤ ({ω : Coins I D L | ∃ sk' ∈ keysFrom A X0 fuel pk msg ω, KeyPair I sk' pk}.ncard : ℚ) := by
    refine Nat.cast_le.2 (Set.ncard_le_ncard ?_ (Set.toFinite _))
    rintro ω ⟨sk', hs, hk'⟩
    refine ⟨sk', ?_, hk'⟩
    unfold keyGuesses at hs
    unfold keysFrom
    split at hs
    · rename_i o ho
      rw [ho]
      refine List.mem_append_right _ ?_
      obtain ⟨j, hj, rfl⟩ := List.mem_map.1 hs
      exact List.mem_map.2 ⟨_, mem_asks.2 ⟨j, List.mem_range.1 hj, rfl⟩, rfl⟩
    · cases hs
  have k4 : ({ω : Coins I D L | AcceptsSimulated (A.observer pk msg) X0 (I.m2 + 1) fuel pk msg ω}.ncard : ℚ) ≤
      ({ω : Coins I D L | AcceptsSimulated (A.observer pk msg) X0 (I.m2 + 1) fuel pk msg ω ∧ ¬∃ sk' ∈ keysFrom A X0 fuel pk msg ω, KeyPair I sk' pk}.ncard : ℚ) +
      ({ω : Coins I D L | ∃ sk' ∈ keysFrom A X0 fuel pk msg ω, KeyPair I sk' pk}.ncard : ℚ) := by
    rw [← Nat.cast_add]
    refine Nat.cast_le.2 ((Set.ncard_le_ncard (fun ω hω => ?_) (Set.toFinite _)).trans (Set.ncard_union_le _ _))
    by_cases h : ∃ sk' ∈ keysFrom A X0 fuel pk msg ω, KeyPair I sk' pk
    · exact Or.inr h
    · exact Or.inl ⟨hω, h⟩
  have k2' := (div_le_iff₀ hpos).2 k2
  have k3' := div_le_div_of_nonneg_right k3 hpos.le
  have k4' := div_le_div_of_nonneg_right k4 hpos.le
  rw [add_div] at k4'
  have k5 := (abs_le.1 k1).1
  unfold seenBound
  dsimp only
  linarith

end

/-- C82: `Settled` is not a restriction for a forger who verifies the signature before returning it: whoever asks for everything that an accepting verification asks for has settled it. -/
theorem C82_settled (I : Instance) (hI : Consistent I) (X : Xof) (pk msg : Bytes) (hpk : 2 * I.ctSize ≤ pk.length) (sig : Signature) (ms : List Nat) (wf : SigWF I ms sig) (v : Values) (Q : List Bytes)
    (h : VerifiedBy (input2n (I.m2 + 1) I sig) X I pk msg sig v) (ha : AskedAll I X pk msg sig v (input2n (I.m2 + 1) I sig) Q) : Settled X I pk Q (msg, sig) := settled hI hpk wf h ha

example : ∃ (sig : Signature) (ms : List Nat) (v : Values) (Q : List Bytes), SigWF smallInstance ms sig ∧ VerifiedBy (input2n (smallInstance.m2 + 1) smallInstance sig) (headXof 3) smallInstance katPk [5] sig v ∧
    AskedAll smallInstance (headXof 3) katPk [5] sig v (input2n (smallInstance.m2 + 1) smallInstance sig) Q := by
  obtain ⟨sig, ms, v, Q, wf, hv, hQ⟩ := head_asked
  refine ⟨sig, ms, v, Q ++ (sig.proofs.zipIdx.flatMap fun x => (List.range smallInstance.numParties).flatMap fun i =>
    [[1] ++ revealV (headXof 3) sig.salt x.2 smallInstance.seedSize (revealedAt smallInstance.numParties x.1.reveal.missing x.1.reveal.seeds) i ++ sig.salt ++ le16 x.2 ++ le16 i,
      tapeInput (partySeedOf (headXof 3) smallInstance sig x.2 x.1 i) sig.salt x.2 i]), wf, hv,
    ⟨⟨List.mem_append_left _ hQ.first, List.mem_append_left _ hQ.second, List.mem_append_left _ hQ.third, List.mem_append_left _ hQ.round1, List.mem_append_left _ hQ.round2,
      List.mem_append_left _ hQ.round3, fun e pr he p hp hne => List.mem_append_left _ (hQ.commitments e pr he p hp hne)⟩, fun e pr he i hi _ => ?_, fun e pr he p hp _ => ?_⟩⟩
  · exact List.mem_append_right _ (List.mem_flatMap.2 ⟨(pr, e), he, List.mem_flatMap.2 ⟨i, List.mem_range.2 (by omega), List.mem_cons_self⟩⟩)
  · exact List.mem_append_right _ (List.mem_flatMap.2 ⟨(pr, e), he, List.mem_flatMap.2 ⟨p, List.mem_range.2 hp, List.mem_cons_of_mem _ List.mem_cons_self⟩⟩)

/-- The parameters of `Banquet_L1_Param1`. -/
def param1 : Instance := (instances.drop 1).headD smallInstance

/-- A forger who hands the signature on for another message, after asking for the hash of the salt again and again. -/
def parrot (K : ShakeKind) (q : Nat) : Forger K q where
  ask sig _ _ := sig.salt.take 32
  out sig _ := ([6], sig)
  adaptive _ _ _ _ _ := rfl
  depends _ _ _ _ := rfl

example (X0 : Xof) : ({f : shortInputs (longest param1 katPk [5]) → Fin 10000 → Byte | ForgesReal (I := param1) (parrot (kindOf param1.digestSize) (2 ^ 20)) X0 1000 katKey katPk [5] f}.ncard : ℚ) /
      Nat.card (shortInputs (longest param1 katPk [5]) → Fin 10000 → Byte) ≤
    ({ω : Coins param1 (shortInputs (longest param1 katPk [5])) 10000 | ¬∃ o, Clean X0 (param1.m2 + 1) 1000 katKey katPk [5] ω o}.ncard : ℚ) / Nat.card (Coins param1 (shortInputs (longest param1 katPk [5])) 10000) + 1 / 2 ^ 98 +
    2 * (({ω : Coins param1 (shortInputs (longest param1 katPk [5])) 10000 | ∃ sk' ∈ keysFrom (parrot (kindOf param1.digestSize) (2 ^ 20)) X0 1000 katPk [5] ω, KeyPair param1 sk' katPk}.ncard : ℚ) /
      Nat.card (Coins param1 (shortInputs (longest param1 katPk [5])) 10000)) := by
  have hg : instanceGet 1 = .ok param1 := rfl
  have e : param1.numRounds = 31 ∧ param1.numParties = 64 ∧ param1.seedSize = 16 ∧ param1.digestSize = 32 ∧ param1.aes.keySize = 16 ∧ simCount param1 = 5955 ∧ depth param1.numParties = 6 := by decide +kernel
  obtain ⟨e1, e2, e3, e4, e5, e6, e7⟩ := e
  have e8 : longest param1 katPk [5] ≤ 2 ^ 20 := by decide
  refine (C82_forger (len := longest param1 katPk [5]) hg (fun s hs => (mem_shortInputs s).2 hs) (fun s hs => (mem_shortInputs s).1 hs) (by decide) (by decide) (by decide) (by decide) X0 1000 (kat_pair _ rfl)
    (by rw [e3]; norm_num) (parrot _ _) fun sig X i => (mem_shortInputs _).2 ?_).trans ?_
  · refine (List.length_take_le _ _).trans ?_
    decide
  · refine add_le_add_left (add_le_add_right ?_ _) _
    unfold seenBound
    rw [e1, e3, e4, e5, e6, e7]
    have : ((longest param1 katPk [5] : Nat) : ℚ) ≤ 2 ^ 20 := by exact_mod_cast e8
    have h0 : (0 : ℚ) ≤ (longest param1 katPk [5] : Nat) := by positivity
    generalize ((longest param1 katPk [5] : Nat) : ℚ) = x at *
    norm_num
    linarith

end Banquet.Props
