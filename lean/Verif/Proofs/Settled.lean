import Verif.Proofs.Unforgeable
import Verif.Proofs.Fixed

/-! Whoever asks for everything that a verification asks for knows its result. -/

namespace Banquet

open Spec FieldOk

theorem completes_tapes {lam : Nat} {I : Instance} {pt ct : Bytes} {r r' : Rep} {m : Nat} {rs : List W64} {R cR : W64} {aR bR : List W64} {bc : Nat → Bytes} {c : Nat → W64} {a b : Nat → Nat → W64} (hm : m < I.numParties)
    (h : Completes lam I pt ct r m rs R cR aR bR bc c a b) (hk : r.keyDelta = r'.keyDelta) (ht : r.tDelta = r'.tDelta) (hd : r.pDelta = r'.pDelta) (hp : ∀ p < I.numParties, p ≠ m → r.tape p = r'.tape p) :
    Completes lam I pt ct r' m rs R cR aR bR bc c a b :=
  h.move hm h.bcHidden.1 ⟨h.cHidden.1, fun j hj => ⟨(h.aHidden j hj).1, (h.bHidden j hj).1⟩⟩ fun p hpN hne => (h.opened hpN hne).congr hk ht (hp p hpN hne) fun _ => hd

section
variable {I : Instance} (hI : Consistent I) {X X' : Xof}
include hI

/-- The seeds off the path to the hidden party depend only on the values for nodes off this path. -/
theorem revealV_off {m : Nat} (hm : m < I.numParties) {salt : Bytes} {e : Nat} {seeds : List Bytes}
    (h : ∀ i, i + 1 < I.numParties → (∀ k, i ≠ ancestor (leafNode I.numParties m) k) → X' (kindOf I.digestSize) ([1] ++ revealV X salt e I.seedSize (revealedAt I.numParties m seeds) i ++ salt ++ le16 e ++ le16 i) =
      X (kindOf I.digestSize) ([1] ++ revealV X salt e I.seedSize (revealedAt I.numParties m seeds) i ++ salt ++ le16 e ++ le16 i))
    (j : Nat) (hj : j + 1 < 2 * I.numParties) (ho : OffPath I.numParties m j) :
    revealV X' salt e I.seedSize (revealedAt I.numParties m seeds) j = revealV X salt e I.seedSize (revealedAt I.numParties m seeds) j := by
  obtain ⟨b1, b2, b3, b4⟩ := parties_bounds hI
  obtain ⟨_, _, s3⟩ := seed_cases hI
  have hex : ∀ j, j + 1 < 2 * I.numParties → (treeExists I.numParties).getD j false = true := fun j hj => by
    obtain ⟨k, h1, h2, h3⟩ := hI.parties
    have ht := total_sub b1 b3
    have hd := depth_pow hI
    rw [h3]
    refine ex_all_pow h1 (by omega) j ?_
    rw [← h3]
    omega
  induction j using Nat.strong_induction_on with
  | _ j ih =>
    by_cases hc : CoPath I.numParties m j
    · obtain ⟨k, hk, rfl⟩ := hc
      rw [revealV_sib b1 b3 hm X' salt e _ seeds k hk, revealV_sib b1 b3 hm X salt e _ seeds k hk]
    · obtain ⟨h0, hP⟩ := (offPath_reach b1 b3 hm j (hex j hj) ho).resolve_left hc
      obtain ⟨i, rfl⟩ : ∃ i, j = i + 1 := ⟨j - 1, by omega⟩
      rw [Nat.add_sub_cancel] at hP
      rw [revealV, revealV, revealedAt_none _ _ hc, ih (i / 2) (by omega) (by omega) hP]
      dsimp only
      rw [← s3, h (i / 2) (by omega) hP]

theorem settled {pk msg : Bytes} (hpk : 2 * I.ctSize ≤ pk.length) {sig : Signature} {ms : List Nat} (wf : SigWF I ms sig) {v : Values} {Q : List Bytes} (h : VerifiedBy (input2n (I.m2 + 1) I sig) X I pk msg sig v)
    (ha : AskedAll I X pk msg sig v (input2n (I.m2 + 1) I sig) Q) : Settled X I pk Q (msg, sig) := by
  intro X' hX
  obtain ⟨b1, b2, b3, b4⟩ := parties_bounds hI
  obtain ⟨_, _, s3⟩ := seed_cases hI
  have hmiss : ∀ e pr, (pr, e) ∈ sig.proofs.zipIdx → pr.reveal.missing < I.numParties ∧ pr ∈ sig.proofs ∧ e < I.numRounds := fun e pr hp => by
    obtain ⟨he, hp'⟩ := List.mem_zipIdx' hp
    have hl := h.length
    have := h.missing_lt (e := e) (by omega)
    rw [getD_of_lt he, ← hp'] at this
    exact ⟨this, hp' ▸ List.getElem_mem _, by omega⟩
  have hseed : ∀ e pr, (pr, e) ∈ sig.proofs.zipIdx → ∀ p < I.numParties, p ≠ pr.reveal.missing → partySeedOf X' I sig e pr p = partySeedOf X I sig e pr p := fun e pr hp p hpN hne => by
    obtain ⟨hm, _, _⟩ := hmiss e pr hp
    unfold partySeedOf
    refine revealV_off hI hm (fun i hi hk => hX _ (ha.nodes e pr hp i hi hk)) _ (by have := leafNode_eq hI p; omega) ((leaf_offPath b1 b3 hm p hpN).2 hne)
  have hin1 : input1 X' I pk msg sig v.bc = input1 X I pk msg sig v.bc := by
    unfold input1
    have : (sig.proofs.zipIdx.flatMap fun (pr, e) => ((List.range I.numParties).flatMap fun p =>
        (if p = pr.reveal.missing then pr.cE else digest X' I (sig.salt ++ le16 e ++ le16 p ++ partySeedOf X' I sig e pr p)) ++ v.bc e p) ++ pr.skDelta ++ pr.tDelta) =
        sig.proofs.zipIdx.flatMap fun (pr, e) => ((List.range I.numParties).flatMap fun p =>
        (if p = pr.reveal.missing then pr.cE else digest X I (sig.salt ++ le16 e ++ le16 p ++ partySeedOf X I sig e pr p)) ++ v.bc e p) ++ pr.skDelta ++ pr.tDelta := by
      refine List.flatMap_congr fun q hq => ?_
      obtain ⟨pr, e⟩ := q
      dsimp only
      congr 2
      refine List.flatMap_congr fun p hpN => ?_
      split
      · rfl
      · rename_i hne
        rw [hseed e pr hq p (List.mem_range.1 hpN) hne]
        unfold digest
        rw [hX _ (ha.commitments e pr hq p (List.mem_range.1 hpN) hne)]
    rw [this]
  have d2 : digest X' I (input2n (I.m2 + 1) I sig) = digest X I (input2n (I.m2 + 1) I sig) := by unfold digest; rw [hX _ ha.second]
  have i3 : hashed3By (input2n (I.m2 + 1) I sig) X' I sig v = hashed3By (input2n (I.m2 + 1) I sig) X I sig v := by unfold hashed3By; rw [d2]
  have hv : VerifiedBy (input2n (I.m2 + 1) I sig) X' I pk msg sig v := by
    refine ⟨?_, ?_, fun e pr hp => ?_, ?_, ?_, h.product⟩
    · have := h.challenges
      unfold IsChallenge2 at this ⊢
      rwa [d2, hX _ ha.round2]
    · have := h.hidden
      unfold IsChallenge3 at this ⊢
      rwa [hX _ ha.round3]
    · have hc := h.completes e pr hp
      have c1 : challenge1 X' I sig.h1 e = challenge1 X I sig.h1 e := by unfold challenge1; rw [hX _ ha.round1]
      rw [c1]
      refine completes_tapes (r := repOf X I sig e pr) (hmiss e pr hp).1 hc rfl rfl rfl fun p hpN hne => ?_
      have ht := hX _ (ha.tapes e pr hp p hpN hne)
      unfold repOf
      dsimp only
      rw [hseed e pr hp p hpN hne, ← s3]
      unfold tapeInput at ht
      rw [ht]
    · rw [hin1]
      refine h.hash1.trans ?_
      unfold digest
      rw [hX _ ha.first]
    · rw [i3]
      refine h.hash3.trans ?_
      unfold digest
      rw [hX _ ha.third]
  refine ⟨⟨ms, wf⟩, (Fixed.acceptable_iff X' I hI pk hpk msg ms sig wf).2 ⟨v, hv⟩, v, hv, ?_⟩
  refine ⟨hin1 ▸ ha.first, ha.second, i3 ▸ ha.third, ha.round1, d2 ▸ ha.round2, ha.round3, fun e pr hp p hpN hne => ?_⟩
  rw [hseed e pr hp p hpN hne]
  exact ha.commitments e pr hp p hpN hne

end

end Banquet
