import Verif.Proofs.Serialize
import Verif.Props.Hash
import Verif.Proofs.Verify

/-! C17, C18, C35: the encoding of signatures. `Spec/WellFormed.lean` says which signature objects are in the format of an instance. -/

namespace Banquet.Props

open Spec FieldOk

/-! ## C17 -/

/-- C17: a signature in the format of the instance is encoded without error, the encoding has the fixed length, and decoding gives back the signature. -/
theorem C17_roundtrip (X : Xof) (fuel : Nat) (F : FieldState) (I : Instance) (hF : initExtensionField I.lambda = .ok F) (hN : I.numParties < 2 ^ 32)
    (s : Signature) (ms : List Nat) (hm : phase3Expand X fuel I s.h3 = .ok ms) (wf : SigWF I ms s) :
    ∃ bs, serialize F I s = .ok bs ∧ bs.length = sigLength I ∧ deserialize X fuel F I bs = .ok s := by
  obtain ⟨hok, hb, _⟩ := initExtensionField_ok hF
  refine ⟨_, serialize_ok X fuel hm wf, encoded_length X fuel hb hm wf, ?_⟩
  have := (deserializeRest_iff (F := F) (I := I) X fuel hb hN (s := s) (r := [])).2 ⟨ms, hm, wf, (List.append_nil _).symm⟩
  unfold deserialize
  rw [this]
  rfl

/-- A proof and a signature in the format of the example instance. -/
def smallProof : Proof := ⟨⟨[List.replicate 16 7], 1⟩, List.replicate 32 8, List.replicate 16 9, List.replicate 200 10, List.replicate 21 0x01020304, 5, List.replicate 10 6, List.replicate 10 0xffffffff⟩
def smallSig : Signature := ⟨List.replicate 32 1, List.replicate 32 2, List.replicate 32 3, [smallProof]⟩

/-- A hash with output 1, 1, 1, … -/
def onesXof : Xof := fun _ _ => ⟨fun _ => 1⟩

theorem smallSig_wf : SigWF smallInstance [1] smallSig := by
  have red : ∀ (n : Nat) (x : W64), Reduced 4 x → ∀ y ∈ List.replicate n x, Reduced 4 y := fun n x h y hy => by rw [List.eq_of_mem_replicate hy]; exact h
  have hcl : Nat.clog 2 2 = 1 := by decide
  refine ⟨rfl, rfl, rfl, List.Forall₂.cons ⟨rfl, ⟨hcl.symm, ?_⟩, rfl, rfl, rfl, ⟨rfl, red _ _ ?_⟩, ?_, ⟨rfl, red _ _ ?_⟩, ⟨rfl, red _ _ ?_⟩⟩ List.Forall₂.nil⟩
  · intro s hs
    rw [List.mem_singleton.1 hs]; rfl
  all_goals (unfold Reduced; decide)

example : phase3Expand onesXof 1 smallInstance smallSig.h3 = .ok [1] := by decide +kernel
example : sigLength smallInstance = 528 := by unfold sigLength proofLength; rw [show Nat.clog 2 smallInstance.numParties = 1 by decide]; rfl

/-! ## C18 -/

/-- C18: a byte string of the length of a signature that is decoded is the encoding of what it is decoded to. -/
theorem C18_canonical (X : Xof) (fuel : Nat) (F : FieldState) (I : Instance) (hF : initExtensionField I.lambda = .ok F) (hN : I.numParties < 2 ^ 32)
    (bs : Bytes) (hl : bs.length = sigLength I) (s : Signature) (h : deserialize X fuel F I bs = .ok s) : serialize F I s = .ok bs := by
  obtain ⟨hok, hb, _⟩ := initExtensionField_ok hF
  unfold deserialize at h
  cases hd : deserializeRest X fuel F I bs with
  | error e => rw [hd] at h; cases h
  | ok r =>
    rw [hd] at h
    have h : r.1 = s := Except.ok.inj h
    subst h
    obtain ⟨ms, hm, wf, e⟩ := (deserializeRest_iff X fuel hb hN (s := r.1) (r := r.2)).1 hd
    have hl2 := encoded_length X fuel hb hm wf
    have hr : r.2 = [] := by
      have := congrArg List.length e
      rw [List.length_append, hl2, hl] at this
      exact List.length_eq_zero_iff.1 (by omega)
    rw [hr, List.append_nil] at e
    rw [serialize_ok X fuel hm wf, ← e]

/-- C18: so two different strings of that length are not decoded to the same signature. -/
theorem C18_injective (X : Xof) (fuel : Nat) (F : FieldState) (I : Instance) (hF : initExtensionField I.lambda = .ok F) (hN : I.numParties < 2 ^ 32)
    (bs bs' : Bytes) (hl : bs.length = sigLength I) (hl' : bs'.length = sigLength I) (s : Signature)
    (h : deserialize X fuel F I bs = .ok s) (h' : deserialize X fuel F I bs' = .ok s) : bs = bs' := by
  have e := C18_canonical X fuel F I hF hN bs hl s h
  have e' := C18_canonical X fuel F I hF hN bs' hl' s h'
  rw [e] at e'
  exact Except.ok.inj e'

/-- C18: every string of that length is decoded, if the hidden parties can be derived from the bytes of `h_3` (rejection sampling ends), and the result is in the format of the instance. -/
theorem C18_total (X : Xof) (fuel : Nat) (F : FieldState) (I : Instance) (hF : initExtensionField I.lambda = .ok F) (hN : I.numParties < 2 ^ 32)
    (bs : Bytes) (hl : bs.length = sigLength I) (ms : List Nat) (hm : phase3Expand X fuel I (slice bs (32 + I.digestSize) I.digestSize) = .ok ms) :
    ∃ s, deserialize X fuel F I bs = .ok s ∧ SigWF I ms s := by
  obtain ⟨hok, hb, _⟩ := initExtensionField_ok hF
  have h1 : 32 + 2 * I.digestSize ≤ bs.length := by rw [hl]; unfold sigLength; omega
  obtain ⟨s, r, e, _, hh⟩ := ((deserializeRest_total X fuel F I (by omega) hN bs).2.1 h1 ms hm).1 (by omega)
  refine ⟨s, by unfold deserialize; rw [e]; rfl, ?_⟩
  obtain ⟨ms', hm', wf, _⟩ := (deserializeRest_iff X fuel hb hN).1 e
  rw [hh, hm] at hm'
  rw [Except.ok.inj hm']
  exact wf

/-- A string of the right length that is decoded. -/
example : ∃ F s, initExtensionField smallInstance.lambda = .ok F ∧ deserialize onesXof 1 F smallInstance (List.replicate 528 0xab) = .ok s ∧
    s.proofs.map (fun p => (p.reveal.missing, p.pAtR)) = [(1, 0xabababab)] := by
  obtain ⟨F, hF⟩ := init_supported small_consistent.lambda
  have h : ((initExtensionField 4).bind fun F => (deserialize onesXof 1 F smallInstance (List.replicate 528 0xab)).map fun s => s.proofs.map (fun p => (p.reveal.missing, p.pAtR))) = .ok [(1, 0xabababab)] := by
    decide +kernel
  have hF' : initExtensionField 4 = .ok F := hF
  rw [hF'] at h
  change (deserialize onesXof 1 F smallInstance (List.replicate 528 0xab)).map _ = _ at h
  cases hd : deserialize onesXof 1 F smallInstance (List.replicate 528 0xab) with
  | error e => rw [hd] at h; cases h
  | ok s => rw [hd] at h; exact ⟨F, s, hF, hd, Except.ok.inj h⟩

/-! ## C35 -/

/-- C35: the claim: a string that is not exactly one signature is rejected by an exception. -/
def C35_statement : Prop := ∀ (X : Xof) (fuel : Nat) (F : FieldState) (I : Instance), Consistent I → initExtensionField I.lambda = .ok F →
  ∀ bs : Bytes, bs.length ≠ sigLength I → deserialize X fuel F I bs = .error .thrown

/-- C35: a string that is too short is read out of range (once the hidden parties have been derived; that is always if it ends before or inside `h_3`). -/
theorem C35_short (X : Xof) (fuel : Nat) (F : FieldState) (I : Instance) (hF : initExtensionField I.lambda = .ok F) (hN : I.numParties < 2 ^ 32) (bs : Bytes) :
    (bs.length < 32 + 2 * I.digestSize → deserialize X fuel F I bs = .error .ub) ∧
    (bs.length < sigLength I → 32 + 2 * I.digestSize ≤ bs.length → ∀ ms, phase3Expand X fuel I (slice bs (32 + I.digestSize) I.digestSize) = .ok ms → deserialize X fuel F I bs = .error .ub) := by
  obtain ⟨_, hb, _⟩ := initExtensionField_ok hF
  obtain ⟨t1, t2, _⟩ := deserializeRest_total X fuel F I (by omega) hN bs
  unfold deserialize
  refine ⟨fun h => by rw [t1 h]; rfl, fun h h' ms hm => by rw [(t2 h' ms hm).2 h]; rfl⟩

/-- C35: trailing bytes are ignored (Release build), so every encoding has other encodings that are decoded to the same signature. -/
theorem C35_trailing (X : Xof) (fuel : Nat) (F : FieldState) (I : Instance) (hF : initExtensionField I.lambda = .ok F) (hN : I.numParties < 2 ^ 32)
    (s : Signature) (bs : Bytes) (h : deserialize X fuel F I bs = .ok s) (extra : Bytes) : deserialize X fuel F I (bs ++ extra) = .ok s := by
  obtain ⟨hok, hb, _⟩ := initExtensionField_ok hF
  unfold deserialize at *
  cases hd : deserializeRest X fuel F I bs with
  | error e => rw [hd] at h; cases h
  | ok r =>
    rw [hd] at h
    have h : r.1 = s := Except.ok.inj h
    subst h
    obtain ⟨ms, hm, wf, e⟩ := (deserializeRest_iff X fuel hb hN (s := r.1) (r := r.2)).1 hd
    rw [(deserializeRest_iff X fuel hb hN (s := r.1) (r := r.2 ++ extra)).2 ⟨ms, hm, wf, by rw [e]; simp only [List.append_assoc]⟩]
    rfl

/-- C35, exactly: what deserialize does with any string. It is out of range if the string ends before the end of `h_3`. Otherwise the hidden parties are derived (which may use up the iterations). Then the string is too
short, and it is out of range, or its prefix of the right length is decoded, to the signature with that encoding. -/
theorem C35_exact (X : Xof) (fuel : Nat) (F : FieldState) (I : Instance) (hF : initExtensionField I.lambda = .ok F) (hN : I.numParties < 2 ^ 32) (bs : Bytes) :
    (bs.length < 32 + 2 * I.digestSize → deserialize X fuel F I bs = .error .ub) ∧
    (32 + 2 * I.digestSize ≤ bs.length → ∀ e, phase3Expand X fuel I (slice bs (32 + I.digestSize) I.digestSize) = .error e → e = .fuel ∧ deserialize X fuel F I bs = .error .fuel) ∧
    (32 + 2 * I.digestSize ≤ bs.length → ∀ ms, phase3Expand X fuel I (slice bs (32 + I.digestSize) I.digestSize) = .ok ms →
      (bs.length < sigLength I → deserialize X fuel F I bs = .error .ub) ∧
      (sigLength I ≤ bs.length → ∃ s, deserialize X fuel F I bs = .ok s ∧ SigWF I ms s ∧ serialize F I s = .ok (bs.take (sigLength I)))) := by
  obtain ⟨hok, hb, _⟩ := initExtensionField_ok hF
  obtain ⟨t1, t2, t3⟩ := deserializeRest_total X fuel F I (by omega) hN bs
  have c := C35_short X fuel F I hF hN bs
  refine ⟨c.1, fun h e he => ?_, fun h ms hm => ⟨fun hl => c.2 hl h ms hm, fun hl => ?_⟩⟩
  · obtain rfl := phase3Expand_error X fuel I _ e he
    refine ⟨rfl, ?_⟩
    unfold deserialize
    rw [t3 h he]
    rfl
  · have hs : 32 + 2 * I.digestSize ≤ sigLength I := by unfold sigLength; omega
    have hsl : slice (bs.take (sigLength I)) (32 + I.digestSize) I.digestSize = slice bs (32 + I.digestSize) I.digestSize := by
      unfold slice
      rw [List.drop_take, List.take_take, min_eq_left (by omega)]
    obtain ⟨s, hd, wf⟩ := C18_total X fuel F I hF hN (bs.take (sigLength I)) (by rw [List.length_take]; omega) ms (by rw [hsl]; exact hm)
    refine ⟨s, ?_, wf, C18_canonical X fuel F I hF hN _ (by rw [List.length_take]; omega) s hd⟩
    have := C35_trailing X fuel F I hF hN s _ hd (bs.drop (sigLength I))
    rwa [List.take_append_drop] at this

/-- C35: no string at all is rejected by an exception. -/
theorem C35_never (X : Xof) (fuel : Nat) (F : FieldState) (I : Instance) (hF : initExtensionField I.lambda = .ok F) (hN : I.numParties < 2 ^ 32) (bs : Bytes) : deserialize X fuel F I bs ≠ .error .thrown := by
  obtain ⟨c1, c2, c3⟩ := C35_exact X fuel F I hF hN bs
  by_cases h : bs.length < 32 + 2 * I.digestSize
  · rw [c1 h]
    intro hc
    cases hc
  · cases he : phase3Expand X fuel I (slice bs (32 + I.digestSize) I.digestSize) with
    | error e =>
      rw [(c2 (by omega) e he).2]
      intro hc
      cases hc
    | ok ms =>
      by_cases hl : bs.length < sigLength I
      · rw [(c3 (by omega) ms he).1 hl]
        intro hc
        cases hc
      · obtain ⟨s, hs, _⟩ := (c3 (by omega) ms he).2 (by omega)
        rw [hs]
        intro hc
        cases hc

/-- A string of 529 bytes: the last one is ignored. -/
example : ∃ F s, initExtensionField smallInstance.lambda = .ok F ∧ deserialize onesXof 1 F smallInstance (List.replicate 529 0xab) = .ok s ∧ serialize F smallInstance s = .ok (List.replicate 528 0xab) := by
  obtain ⟨F, hF⟩ := init_supported small_consistent.lambda
  have hl : (List.replicate 529 (0xab : Byte)).length = 529 := List.length_replicate
  have hs : sigLength smallInstance = 528 := by decide
  obtain ⟨s, h1, _, h2⟩ := ((C35_exact onesXof 1 F smallInstance hF (by decide) (List.replicate 529 0xab)).2.2 (by rw [hl]; decide) [1] (by decide +kernel)).2 (by rw [hl, hs]; omega)
  rw [hs, List.take_replicate] at h2
  exact ⟨F, s, hF, h1, h2⟩

/-- C35 as far as it holds: with assertions enabled (Debug build), a string that is too long is not accepted. Missing: strings that are too short (out-of-range reads), and rejection in Release builds. -/
theorem C35_partial (X : Xof) (fuel : Nat) (F : FieldState) (I : Instance) (hF : initExtensionField I.lambda = .ok F) (hN : I.numParties < 2 ^ 32)
    (bs : Bytes) (hl : sigLength I < bs.length) : ∀ s, deserializeDebug X fuel F I bs ≠ .ok s := by
  obtain ⟨hok, hb, _⟩ := initExtensionField_ok hF
  intro s h
  unfold deserializeDebug at h
  obtain ⟨⟨s', r⟩, hd, h⟩ := bind_ok.1 h
  obtain ⟨ms, hm, wf, e⟩ := (deserializeRest_iff X fuel hb hN).1 hd
  have hl2 := encoded_length X fuel hb hm wf
  dsimp only at h
  split at h
  · rename_i hr
    rw [hr, List.append_nil] at e
    rw [e, hl2] at hl
    omega
  · cases h

/-- C35 does not hold: the empty string. -/
theorem C35_violated : ¬C35_statement := by
  intro h
  obtain ⟨F, hF⟩ := init_supported small_consistent.lambda
  have h1 := h onesXof 1 F smallInstance small_consistent hF [] (by unfold sigLength; intro hc; rw [List.length_nil] at hc; omega)
  rw [(C35_short onesXof 1 F smallInstance hF (by decide) []).1 (by decide)] at h1
  cases h1

/-- C35 does not hold in Release builds for strings that are too long either: an encoding with one more byte is decoded. -/
theorem C35_trailing_violated : ∃ (X : Xof) (fuel : Nat) (F : FieldState) (I : Instance) (bs : Bytes) (s : Signature), Consistent I ∧ initExtensionField I.lambda = .ok F ∧
    bs.length ≠ sigLength I ∧ deserialize X fuel F I bs = .ok s := by
  obtain ⟨F, hF⟩ := init_supported small_consistent.lambda
  obtain ⟨bs, _, hl, hd⟩ := C17_roundtrip onesXof 1 F smallInstance hF (by decide) smallSig [1] (by decide +kernel) smallSig_wf
  exact ⟨onesXof, 1, F, smallInstance, bs ++ [0], smallSig, small_consistent, hF, by rw [List.length_append, hl, List.length_singleton]; omega,
    C35_trailing onesXof 1 F smallInstance hF (by decide) smallSig bs hd [0]⟩

end Banquet.Props
