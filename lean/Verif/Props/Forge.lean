import Mathlib.Data.Set.Finite.List
import Verif.Spec.Adversary
import Verif.Proofs.ForgeReads
import Verif.Props.Maul

/-! C28: signatures without a secret key. -/

namespace Banquet.Props

open Spec FieldOk Spec.Aes

/-- The challenges are found within the given number of iterations, and no challenge `R` is among the first `2 m2` interpolation points. -/
def Admissible (X : Xof) (fuel : Nat) (I : Instance) : Prop :=
  (∀ F, initExtensionField I.lambda = .ok F → ∀ h, ∃ Rs, phase2Expand X fuel F I h (F.firstN I.m2) = .ok Rs ∧ ∀ R ∈ Rs, ∀ k < 2 * I.m2, val I.lambda R ≠ point I.lambda k) ∧
  ∀ h, ∃ ms, phase3Expand X fuel I h = .ok ms

/-- The forger: from instance, public key, any salt and message. -/
def forge (I : Instance) (pk salt : Bytes) (fuel : Nat) (msg : Bytes) (X : Xof) : M Signature := initExtensionField I.lambda >>= fun F => forgeWith X fuel F I pk salt msg

/-- C28: the claim: for a public key without secret key, no algorithm that makes at most `2^64` calls of the hash function produces accepted signatures for all hash functions (with admissible
challenges) and all messages. -/
def C28_statement : Prop := ∀ (I : Instance), Consistent I → ∀ pk : Bytes, pk.length = 2 * I.ctSize → (¬∃ sk, KeyPair I sk pk) →
  ∀ A : Nat → Bytes → Xof → M Signature, (∀ fuel msg, QueryBound (2 ^ 64) (A fuel msg)) →
    ∃ X fuel msg, Admissible X fuel I ∧ ¬∃ sig, A fuel msg X = .ok sig ∧ verify X fuel I pk sig msg = .ok true

/-- C28: for every instance, public key, salt and message the forger finds an accepted signature, whatever the hash function, if its challenges are admissible. -/
theorem C28_forged (I : Instance) (hI : Consistent I) (pk salt msg : Bytes) (hpk : 2 * I.ctSize ≤ pk.length) (hsalt : salt.length = 32) (X : Xof) (fuel : Nat) (hX : Admissible X fuel I) :
    ∃ sig, forge I pk salt fuel msg X = .ok sig ∧ sig.salt = salt ∧ verify X fuel I pk sig msg = .ok true := by
  obtain ⟨F, hF⟩ := init_supported hI.lambda
  obtain ⟨hok, hb, _⟩ := initExtensionField_ok hF
  obtain ⟨sig, h1, h2⟩ := forgeWith_ok hI X fuel pk salt msg hpk hsalt (fun h => by
    rw [hb]
    exact hX.1 F hF h) hX.2
  refine ⟨sig, ?_, ?_, ?_⟩
  · unfold forge
    rw [hF, ok_bind, h1]
  · rw [forgeWith_eq] at h1
    cases h2 : phase2Expand X fuel F I (forgeH2 X F I pk salt msg) (F.firstN I.m2) with
    | error e => rw [h2] at h1; cases h1
    | ok Rs =>
      rw [h2] at h1
      change (phase3Expand X fuel I (forgeH3 X F I pk salt msg Rs)).bind _ = _ at h1
      cases h3 : phase3Expand X fuel I (forgeH3 X F I pk salt msg Rs) with
      | error e => rw [h3] at h1; cases h1
      | ok ms =>
        rw [h3] at h1
        change Except.ok _ = _ at h1
        rw [← Except.ok.inj h1]
        rfl
  · unfold verify
    rw [hF, ok_bind]
    exact h2 _ List.length_replicate

/-- C28: the forger makes three hash calls per repetition and party, and six more. -/
theorem C28_calls (I : Instance) (hI : Consistent I) (pk salt msg : Bytes) (fuel : Nat) : QueryBound (3 * I.numRounds * I.numParties + 6) (forge I pk salt fuel msg) := by
  obtain ⟨F, hF⟩ := init_supported hI.lambda
  intro X
  refine ⟨forgeQueries X fuel F I pk salt msg, length_forgeQueries .., fun X' h => ?_⟩
  unfold forge
  rw [hF, ok_bind, ok_bind]
  exact forgeWith_reads hI X X' fuel F pk salt msg h

/-- A run of constant challenges is admissible for the example instance. -/
theorem ones_admissible : Admissible onesXof 1 smallInstance := by
  refine ⟨fun F hF h => ⟨_, (ones_loops hF).1 h, ?_⟩, fun h => ?_⟩
  · obtain ⟨hok, hb, _⟩ := initExtensionField_ok hF
    intro R hR k hk he
    rw [List.mem_singleton.1 hR, ← hb, point_eq (n := 40) hk] at he
    have hd : (initExtensionField smallInstance.lambda >>= fun F => .ok (decide (0x01010101 ∈ F.firstN 40))) = .ok false := by decide +kernel
    rw [hF, ok_bind, Except.ok.injEq, decide_eq_false_iff_not] at hd
    refine hd ?_
    rw [val_inj (F := F) ?_ ((allRed_firstN 40).getD k) he, getD_of_lt (by rw [length_firstN]; exact hk)]
    · exact List.getElem_mem _
    · have : Reduced 4 (0x01010101 : W64) := by unfold Reduced; decide
      rw [hb]
      exact this
  · obtain ⟨F, hF⟩ := init_supported small_consistent.lambda
    exact ⟨_, (ones_loops hF).2 h⟩

example : ∃ sig, forge smallInstance (List.replicate 32 7) (List.replicate 32 9) 1 [1, 2, 3] onesXof = .ok sig ∧ sig.salt = List.replicate 32 9 ∧ verify onesXof 1 smallInstance (List.replicate 32 7) sig [1, 2, 3] = .ok true :=
  C28_forged smallInstance small_consistent _ _ _ (by decide) List.length_replicate onesXof 1 ones_admissible

/-- Some ciphertext of the zero block has no usable AES-128 key: the number of keys equals the number of ciphertexts, and the zero key is not usable. -/
theorem exists_keyless : ∃ ct : Bytes, ct.length = 16 ∧ ¬∃ sk, KeyPair smallInstance sk (List.replicate 16 1 ++ ct) := by
  by_contra hc
  push Not at hc
  have hk : ∀ v : { l : Bytes // l.length = 16 }, ∃ k : { l : Bytes // l.length = 16 }, encrypt 4 1 k.1 (List.replicate 16 1) = v.1 ∧ 0 ∉ sboxInputs 4 1 k.1 (List.replicate 16 1) := fun v => by
    obtain ⟨sk, h1, pt, h2, h3, h4⟩ := hc v.1 v.2
    obtain ⟨e1, e2⟩ := List.append_inj h2 (List.length_replicate.trans h3.symm)
    rw [← e1] at e2 h4
    exact ⟨⟨sk, h1⟩, e2.symm, h4⟩
  choose g hg using hk
  have hfin : Finite { l : Bytes // l.length = 16 } := by
    have : Finite Byte := Finite.of_injective BitVec.toFin fun a b h => BitVec.eq_of_toFin_eq h
    exact List.finite_length_eq Byte 16
  have hinj : Function.Injective g := fun a b h => by
    refine Subtype.ext ?_
    rw [← (hg a).1, ← (hg b).1, h]
  obtain ⟨v, hv⟩ := Finite.surjective_of_injective hinj ⟨List.replicate 16 0, rfl⟩
  have := (hg v).2
  rw [hv] at this
  exact this zero_unusable

/-- C28 does not hold. -/
theorem C28_violated : ¬C28_statement := by
  intro hst
  obtain ⟨ct, h1, h2⟩ := exists_keyless
  have hpk : (List.replicate 16 1 ++ ct).length = 2 * smallInstance.ctSize := by
    rw [List.length_append, h1, List.length_replicate]
    rfl
  obtain ⟨X, fuel, msg, hX, hn⟩ := hst smallInstance small_consistent _ hpk h2 (forge smallInstance (List.replicate 16 1 ++ ct) (List.replicate 32 0)) (fun fuel msg X => by
    obtain ⟨Q, q1, q2⟩ := C28_calls smallInstance small_consistent (List.replicate 16 1 ++ ct) (List.replicate 32 0) msg fuel X
    exact ⟨Q, q1.trans (by decide), q2⟩)
  obtain ⟨sig, f1, _, f3⟩ := C28_forged smallInstance small_consistent _ (List.replicate 32 0) msg hpk.ge List.length_replicate X fuel hX
  exact hn ⟨sig, f1, f3⟩

end Banquet.Props
