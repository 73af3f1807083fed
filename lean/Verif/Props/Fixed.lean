import Verif.Spec.Unforgeable
import Verif.Proofs.Fixed
import Verif.Props.Ends

/-! C78: the code with one change, `k <= m2` instead of `k < m2` in the loop of `phase_2_commitment` (banquet.cpp:155). What C27, C28 and C29 claim then holds (C28: with the bound of C77), and signing works as before. -/

namespace Banquet.Props

open Spec FieldOk Spec.Aes

/-- C78: the claim of C27 for the changed code. -/
theorem C78_hash (I : Instance) (F : FieldState) (hF : initExtensionField I.lambda = .ok F) (salt h1 salt' h1' : Bytes) (ds ds' : List (List W64))
    (hs : salt.length = salt'.length) (hh : h1.length = h1'.length) (hd : Deltas I ds) (hd' : Deltas I ds')
    (e : Fixed.phase2Input F I salt h1 ds = Fixed.phase2Input F I salt' h1' ds') : salt = salt' ∧ h1 = h1' ∧ ds = ds' := by
  obtain ⟨hok, hb, _⟩ := initExtensionField_ok hF
  obtain ⟨e1, e2, e3⟩ := Fixed.phase2Input_inj I salt h1 salt' h1' ds ds' hs hh (hd.1.trans hd'.1.symm) (hb ▸ hd.2) (hb ▸ hd'.2) e
  have ht : ∀ ds, Deltas I ds → ds.map (List.take (I.m2 + 1)) = ds := fun ds h => by
    conv_rhs => rw [← List.map_id ds]
    exact List.map_congr_left fun d hd => List.take_of_length_le (h.2 d hd).1.le
  rw [ht ds hd, ht ds' hd'] at e3
  exact ⟨e1, e2, e3⟩

/-- The two lists of corrections with the same hash in the code (`C27_violated`) have different inputs now. -/
example (F : FieldState) (hF : initExtensionField smallInstance.lambda = .ok F) :
    Fixed.phase2Input F smallInstance [] [] [List.replicate 20 0 ++ [1]] ≠ Fixed.phase2Input F smallInstance [] [] [List.replicate 21 0] ∧
    phase2Input F smallInstance [] [] [List.replicate 20 0 ++ [1]] = phase2Input F smallInstance [] [] [List.replicate 21 0] := by
  obtain ⟨hok, hb, _⟩ := initExtensionField_ok hF
  have r0 : Reduced smallInstance.lambda 0 := hb ▸ reduced_zero
  have r1 : Reduced smallInstance.lambda 1 := hb ▸ reduced_one
  refine ⟨fun h => ?_, C27_last_free smallInstance F [] [] [List.replicate 21 0] fun _ => 1⟩
  have h1 : Deltas smallInstance [List.replicate 20 0 ++ [1]] := ⟨rfl, fun d hd => by
    obtain rfl := List.mem_singleton.1 hd
    refine ⟨rfl, fun x hx => ?_⟩
    rcases List.mem_append.1 hx with hx | hx
    · exact List.eq_of_mem_replicate hx ▸ r0
    · exact List.mem_singleton.1 hx ▸ r1⟩
  have h2 : Deltas smallInstance [List.replicate 21 0] := ⟨rfl, fun d hd => by
    obtain rfl := List.mem_singleton.1 hd
    exact ⟨rfl, fun x hx => List.eq_of_mem_replicate hx ▸ r0⟩⟩
  exact absurd (C78_hash smallInstance F hF [] [] [] [] _ _ rfl rfl h1 h2 h).2.2 (by decide)

/-- C78: a signature returned by the changed sign has the format of the instance, is encoded in as many bytes as before, and is accepted by the changed verify (compare C15, C16). -/
theorem C78_accepted (X : Xof) (fuel : Nat) (I : Instance) (hI : Consistent I) (sk pk msg : Bytes) (hk : KeyPair I sk pk) (sig : Signature) (h : Fixed.sign X fuel I sk pk msg = .ok sig)
    (F : FieldState) (hF : initExtensionField I.lambda = .ok F) (fuel' : Nat) (hf : fuel ≤ fuel') :
    (∃ ms, SigWF I ms sig) ∧ Fixed.verify X fuel' I pk sig msg = .ok true ∧ ∃ bs, serialize F I sig = .ok bs ∧ bs.length = sigLength I ∧ deserialize X fuel F I bs = .ok sig := by
  obtain ⟨hok, hb, _⟩ := initExtensionField_ok hF
  obtain ⟨h1, h2, h3, h4⟩ := KeyPair.facts hI hk
  unfold Fixed.sign at h
  rw [hF, ok_bind] at h
  unfold Fixed.verify
  rw [hF, ok_bind]
  obtain ⟨⟨ms, hm, wf⟩, hv⟩ := Fixed.signWith_ok hI hb X fuel sk pk msg h1 h2.ge h3 sig h
  refine ⟨⟨ms, wf⟩, hv h4 _ (by simp) fuel' hf, ?_⟩
  exact C17_roundtrip X fuel F I hF (parties_bounds hI).2.2.2 sig ms hm wf

/-- C78: the changed sign returns a signature for every key pair, unless a rejection loop does not end (compare C41). -/
theorem C78_returns (X : Xof) (fuel : Nat) (I : Instance) (hI : Consistent I) (sk pk msg : Bytes) (hk : KeyPair I sk pk)
    (g2 : ∀ F h, initExtensionField I.lambda = .ok F → ∃ Rs, phase2Expand X fuel F I h (F.firstN I.m2) = .ok Rs) (g3 : ∀ h, ∃ ms, phase3Expand X fuel I h = .ok ms) :
    ∃ sig, Fixed.sign X fuel I sk pk msg = .ok sig := by
  obtain ⟨F, hF⟩ := init_supported hI.lambda
  obtain ⟨hok, hb, _⟩ := initExtensionField_ok hF
  obtain ⟨h1, h2, h3, _⟩ := KeyPair.facts hI hk
  unfold Fixed.sign
  rw [hF, ok_bind]
  exact (Fixed.signWith_total hI X fuel sk pk msg h1 h2.ge h3).2 (fun h => g2 F h hF) g3

/-- The signature of the test key by the changed code. -/
theorem fixed_signs (b3 : Byte) (hb : b3 = 2 ∨ b3 = 3) : ∃ sig, Fixed.sign (headXof b3) 1 smallInstance katKey katPk [5] = .ok sig := by
  obtain ⟨F, hF⟩ := init_supported small_consistent.lambda
  exact C78_returns (headXof b3) 1 smallInstance small_consistent katKey katPk [5] (kat_pair _ rfl) (fun F h hF => (head_loops hb hF h).1) (fun h => ⟨_, (head_loops hb hF h).2⟩)

example : ∃ sig, (∃ ms, SigWF smallInstance ms sig) ∧ Fixed.verify (headXof 3) 1 smallInstance katPk sig [5] = .ok true := by
  obtain ⟨F, hF⟩ := init_supported small_consistent.lambda
  obtain ⟨sig, h⟩ := fixed_signs 3 (Or.inr rfl)
  obtain ⟨h1, h2, _⟩ := C78_accepted (headXof 3) 1 smallInstance small_consistent katKey katPk [5] (kat_pair _ rfl) sig h F hF 1 le_rfl
  exact ⟨sig, h1, h2⟩

/-- C78: the changed verify accepts exactly the signatures with an accepting verification in which the second hash covers all `m2 + 1` corrections of `P` (compare C19). -/
theorem C78_acceptable (X : Xof) (I : Instance) (hI : Consistent I) (pk : Bytes) (hpk : 2 * I.ctSize ≤ pk.length) (msg : Bytes) (ms : List Nat) (sig : Signature) (wf : SigWF I ms sig) :
    (∃ fuel, Fixed.verify X fuel I pk sig msg = .ok true) ↔ ∃ v, VerifiedBy (input2n (I.m2 + 1) I sig) X I pk msg sig v :=
  Fixed.acceptable_iff X I hI pk hpk msg ms sig wf

/-- C78: the claim of C29 for the changed code: two accepted signatures in the format of the instance with the same hashes `h_1` and `h_3` are equal or give a collision. -/
theorem C78_unique (X : Xof) (fuel : Nat) (I : Instance) (F : FieldState) (hI : Consistent I) (hF : initExtensionField I.lambda = .ok F) (pk msg : Bytes) (ms ms' : List Nat) (sig sig' : Signature)
    (wf : SigWF I ms sig) (wf' : SigWF I ms' sig') (hv : Fixed.verify X fuel I pk sig msg = .ok true) (hv' : Fixed.verify X fuel I pk sig' msg = .ok true) (h1 : sig.h1 = sig'.h1) (h3 : sig.h3 = sig'.h3) :
    sig = sig' ∨ Fixed.Collision X fuel F I pk msg sig sig' := by
  have ht : ∀ ms sig, SigWF I ms sig → Fixed.dropLast I sig = sig := fun ms sig w => by
    unfold Fixed.dropLast
    have : (sig.proofs.map fun p => { p with pDelta := p.pDelta.take (I.m2 + 1) }) = sig.proofs := by
      refine List.ext_getElem (by simp) fun e he he' => ?_
      rw [List.getElem_map]
      have := (w.get e he').pDelta.1
      rw [getD_of_lt he'] at this
      rw [List.take_of_length_le this.le]
    rw [this]
  rcases Fixed.unique_take X fuel I F hI hF pk msg ms ms' sig sig' wf wf' hv hv' h1 h3 with h | h
  · rw [ht ms sig wf, ht ms' sig' wf'] at h
    exact Or.inl h
  · exact Or.inr h

/-- A signature as in the claim, made with the test key. -/
example : ∃ (sig : Signature) (ms : List Nat), SigWF smallInstance ms sig ∧ Fixed.verify (headXof 2) 1 smallInstance katPk sig [5] = .ok true := by
  obtain ⟨F, hF⟩ := init_supported small_consistent.lambda
  obtain ⟨sig, h⟩ := fixed_signs 2 (Or.inl rfl)
  obtain ⟨⟨ms, h1⟩, h2, _⟩ := C78_accepted (headXof 2) 1 smallInstance small_consistent katKey katPk [5] (kat_pair _ rfl) sig h F hF 1 le_rfl
  exact ⟨sig, ms, h1, h2⟩

/-- C78: a forger against the changed code. With a random hash function, an algorithm that asks for the hashes of `q` inputs of at most `len` bytes, one after the other, and returns `out` has an accepted signature while its
inputs contain no key for the public key, with probability at most `q (q+1) (len+1) / (2 · 256^digestSize) + 3 q / 2^κ` (compare C28). -/
theorem C78_forger (p : Int) (I : Instance) (hI : instanceGet p = .ok I) (pk : Bytes) (hpk : pk.length = 2 * I.ctSize) (ask : Xof → Nat → Bytes) (hask : Adaptive (kindOf I.digestSize) ask) (q : Nat) (D : Finset Bytes)
    (hD : ∀ X i, ask X i ∈ D) (len : Nat) (hlen : ∀ s ∈ D, s.length ≤ len) (X0 : Xof) (L : Nat) (hL : I.digestSize ≤ L) (hL1 : I.numRounds * I.m1 * I.lambda ≤ L) (out : Xof → Bytes × Signature) :
    ({f : D → Fin L → Byte | Forges (withTable (kindOf I.digestSize) X0 f) I pk (asks ask (withTable (kindOf I.digestSize) X0 f) q) (out (withTable (kindOf I.digestSize) X0 f)) ∧
      Keyless (withTable (kindOf I.digestSize) X0 f) I pk (asks ask (withTable (kindOf I.digestSize) X0 f) q)}.ncard : ℚ) ≤
      (q * (q + 1) * (len + 1) / (2 * 256 ^ I.digestSize) + q * (3 / 2 ^ (8 * I.aes.keySize))) * Nat.card (D → Fin L → Byte) := by
  have : Finite Byte := Nat.finite_of_card_ne_zero (by have := card_answers (L := 1); intro h; rw [Nat.card_fun, h] at this; simp at this)
  refine le_trans ?_ (C79_forger p I hI pk hpk ask hask q D hD len hlen X0 L hL hL1)
  refine Nat.cast_le.2 (Set.ncard_le_ncard ?_ (Set.toFinite _))
  rintro f ⟨⟨⟨ms, wf⟩, _, v, h, h1⟩, hk⟩
  exact ⟨⟨_, _, ms, v, wf, h, h1⟩, hk⟩

/-- The signature of the test key with the inputs of its verification. -/
example : ∃ (Q : List Bytes) (out : Bytes × Signature), Forges (headXof 3) smallInstance katPk Q out := by
  obtain ⟨sig, ms, v, Q, wf, hv, hQ⟩ := head_asked
  exact ⟨Q, ([5], sig), ⟨ms, wf⟩, (C78_acceptable (headXof 3) smallInstance small_consistent katPk (by decide) [5] ms sig wf).2 ⟨v, hv⟩, v, hv, hQ⟩

end Banquet.Props
