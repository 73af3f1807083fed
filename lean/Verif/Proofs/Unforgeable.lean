import Verif.Proofs.Play
import Verif.Proofs.Grind
import Verif.Proofs.Forger

/-! A signature forged after seeing a simulated one is forged without seeing one. -/

namespace Banquet

open Spec FieldOk

/-! ## Verification with two hash functions -/

section
variable {X X' : Xof} {salt : Bytes} {e ss : Nat} {R : Nat → Option Bytes} (hR : ∀ j s, R j = some s → s.length ≤ ss)
include hR

theorem revealV_le (X : Xof) (i : Nat) : (revealV X salt e ss R i).length ≤ ss := by
  cases i with
  | zero => rw [revealV]; simp
  | succ i =>
    rw [revealV]
    split
    · rename_i h
      exact hR _ _ h
    · dsimp only
      split <;> rw [squeeze_len]

theorem revealV_congr (hs : salt.length = 32) (hX : ∀ s : Bytes, s.length ≤ ss + 37 → X' (kindOf (2 * ss)) s = X (kindOf (2 * ss)) s) (i : Nat) : revealV X' salt e ss R i = revealV X salt e ss R i := by
  induction i using Nat.strong_induction_on with
  | _ i ih =>
    cases i with
    | zero => rw [revealV, revealV]
    | succ i =>
      rw [revealV, revealV, ih (i / 2) (by omega), hX]
      have := revealV_le (salt := salt) (e := e) hR X (i / 2)
      simp only [List.length_append, le16_length, List.length_cons, List.length_nil, hs]
      omega

end

section
variable {I : Instance} (hI : Consistent I) {X X' : Xof} (hX : ∀ s : Bytes, s.length ≤ I.seedSize + 37 ∨ s.length = I.digestSize → X' (kindOf I.digestSize) s = X (kindOf I.digestSize) s)
  {sig : Signature} {ms : List Nat} (wf : SigWF I ms sig)
include wf

theorem revealed_le {pr : Proof} (hp : pr ∈ sig.proofs) (j : Nat) (s : Bytes) (h : revealedAt I.numParties pr.reveal.missing pr.reveal.seeds j = some s) : s.length ≤ I.seedSize := by
  obtain ⟨k, hk, e⟩ := List.mem_iff_getElem.1 hp
  have w := wf.get k hk
  rw [getD_of_lt hk, e] at w
  unfold revealedAt at h
  obtain ⟨n, _, rfl⟩ := Option.map_eq_some_iff.1 h
  rcases Nat.lt_or_ge n pr.reveal.seeds.length with hn | hn
  · rw [getD_of_lt hn]
    exact (w.seeds.2 _ (List.getElem_mem _)).le
  · rw [List.getD_eq_getElem?_getD, List.getElem?_eq_none hn]
    simp

include hI hX

theorem partySeedOf_congr {pr : Proof} (hp : pr ∈ sig.proofs) (e p : Nat) : partySeedOf X' I sig e pr p = partySeedOf X I sig e pr p ∧ (partySeedOf X I sig e pr p).length ≤ I.seedSize := by
  obtain ⟨_, _, s3⟩ := seed_cases hI
  unfold partySeedOf
  refine ⟨revealV_congr (revealed_le wf hp) wf.salt (fun s hs => ?_) _, revealV_le (revealed_le wf hp) _ _⟩
  rw [← s3]
  exact hX s (Or.inl hs)

theorem com_congr {pr : Proof} (hp : pr ∈ sig.proofs) (e p : Nat) :
    digest X' I (sig.salt ++ le16 e ++ le16 p ++ partySeedOf X' I sig e pr p) = digest X I (sig.salt ++ le16 e ++ le16 p ++ partySeedOf X I sig e pr p) := by
  obtain ⟨e1, e2⟩ := partySeedOf_congr hI hX wf hp e p
  rw [e1]
  unfold digest
  rw [hX _ (Or.inl ?_)]
  simp only [List.length_append, le16_length, wf.salt]
  omega

theorem repOf_congr {pr : Proof} (hp : pr ∈ sig.proofs) (e : Nat) : repOf X' I sig e pr = repOf X I sig e pr := by
  obtain ⟨_, _, s3⟩ := seed_cases hI
  unfold repOf
  congr 1
  funext p
  obtain ⟨e1, e2⟩ := partySeedOf_congr hI hX wf hp e p
  rw [e1, ← s3, hX _ (Or.inl ?_)]
  simp only [List.length_append, le16_length, wf.salt]
  omega

theorem input1_congr (pk msg : Bytes) (bc : Nat → Nat → Bytes) : input1 X' I pk msg sig bc = input1 X I pk msg sig bc := by
  unfold input1
  have : (sig.proofs.zipIdx.flatMap fun (pr, e) => ((List.range I.numParties).flatMap fun p =>
      (if p = pr.reveal.missing then pr.cE else digest X' I (sig.salt ++ le16 e ++ le16 p ++ partySeedOf X' I sig e pr p)) ++ bc e p) ++ pr.skDelta ++ pr.tDelta) =
      sig.proofs.zipIdx.flatMap fun (pr, e) => ((List.range I.numParties).flatMap fun p =>
      (if p = pr.reveal.missing then pr.cE else digest X I (sig.salt ++ le16 e ++ le16 p ++ partySeedOf X I sig e pr p)) ++ bc e p) ++ pr.skDelta ++ pr.tDelta := by
    refine List.flatMap_congr fun q hq => ?_
    obtain ⟨pr, e⟩ := q
    have hp : pr ∈ sig.proofs := (List.mem_zipIdx' hq).2 ▸ List.getElem_mem _
    dsimp only
    congr 2
    refine List.flatMap_congr fun p _ => ?_
    rw [com_congr hI hX wf hp]
  rw [this]

/-- A verification is the same with a hash function that has the same values for short inputs and for the three long ones. -/
theorem verified_congr {i2 pk msg : Bytes} {v : Values} (h : VerifiedBy i2 X I pk msg sig v) (h1 : X' (kindOf I.digestSize) (input1 X I pk msg sig v.bc) = X (kindOf I.digestSize) (input1 X I pk msg sig v.bc))
    (h2 : X' (kindOf I.digestSize) i2 = X (kindOf I.digestSize) i2) (h3 : X' (kindOf I.digestSize) (hashed3By i2 X I sig v) = X (kindOf I.digestSize) (hashed3By i2 X I sig v)) :
    VerifiedBy i2 X' I pk msg sig v := by
  have d2 : digest X' I i2 = digest X I i2 := by unfold digest; rw [h2]
  have i3 : hashed3By i2 X' I sig v = hashed3By i2 X I sig v := by unfold hashed3By; rw [d2]
  have c1 : ∀ e, challenge1 X' I sig.h1 e = challenge1 X I sig.h1 e := fun e => by unfold challenge1; rw [hX _ (Or.inr wf.h1)]
  refine ⟨?_, ?_, fun e pr hp => ?_, ?_, ?_, h.product⟩
  · have := h.challenges
    unfold IsChallenge2 at this ⊢
    rwa [d2, hX _ (Or.inr (digest_length _ _ _))]
  · have := h.hidden
    unfold IsChallenge3 at this ⊢
    rwa [hX _ (Or.inr wf.h3)]
  · rw [repOf_congr hI hX wf ((List.mem_zipIdx' hp).2 ▸ List.getElem_mem _), c1]
    exact h.completes e pr hp
  · rw [input1_congr hI hX wf]
    refine h.hash1.trans ?_
    unfold digest
    rw [h1]
  · rw [i3]
    refine h.hash3.trans ?_
    unfold digest
    rw [h3]

theorem asked_congr {i2 pk msg : Bytes} {v : Values} {Q Q' : List Bytes} (h : Asked I X pk msg sig v i2 Q) (hQ : ∀ s ∈ Q, s ∈ Q') (h2 : X' (kindOf I.digestSize) i2 = X (kindOf I.digestSize) i2) : Asked I X' pk msg sig v i2 Q' := by
  have d2 : digest X' I i2 = digest X I i2 := by unfold digest; rw [h2]
  have i3 : hashed3By i2 X' I sig v = hashed3By i2 X I sig v := by unfold hashed3By; rw [d2]
  refine ⟨?_, hQ _ h.second, i3 ▸ hQ _ h.third, hQ _ h.round1, d2 ▸ hQ _ h.round2, hQ _ h.round3, fun e pr hp p hpN hne => ?_⟩
  · rw [input1_congr hI hX wf]
    exact hQ _ h.first
  · rw [(partySeedOf_congr hI hX wf ((List.mem_zipIdx' hp).2 ▸ List.getElem_mem _) e p).1]
    exact hQ _ (h.commitments e pr hp p hpN hne)

end

/-! ## The three inputs of the simulator -/

section
variable {I : Instance} (hI : Consistent I) {c : Nat} {X : Xof} {F : FieldState} {pk msg salt : Bytes} {root : Nat → Bytes} {d1 d2 d3 : Bytes} {Rs : List W64} {ms : List Nat}
  (hpk : pk.length = 2 * I.ctSize) (hsalt : salt.length = 32) (hroot : ∀ e, (root e).length = I.seedSize) (h1 : d1.length = I.digestSize) (h2 : d2.length = I.digestSize) (h3 : d3.length = I.digestSize)
include hI hpk hsalt hroot h1 h3

/-- The first input: everything behind the message has a fixed length. -/
theorem in1_shape : ∃ r, (simOut c X F I pk msg salt root d1 d2 d3 Rs ms).in1 = 1 :: (salt ++ (pk ++ (msg ++ r))) ∧ r.length = I.numRounds * length1 I := by
  have sh := simSig_shaped hI (F := F) X ms hsalt hroot h1 h3
  obtain ⟨v1, v2⟩ := verReps1_sized hI X (List.replicate I.seedSize 0) pk hpk.ge _ sh
  refine ⟨(verReps1 X I (List.replicate I.seedSize 0) pk (simSig X F I salt root d1 d3 ms)).flatMap (Rep1Hash.bytes I), by simp [simOut, phase1Input], ?_⟩
  rw [length_flatMap_const _ _ _ fun r hr => r.bytes_length I (v2 r hr), v1]
  rfl

include h2

/-- A signature of another message, forged with the hash function that the simulator leaves behind, is forged with the one before, or a hash is one of those chosen by the simulator. -/
theorem forged_cases {Q Q' : List Bytes} (hQ : ∀ s ∈ Q, s ∈ Q') {out : Bytes × Signature} (hne : out.1 ≠ msg)
    (h : Forges (left I d1 d2 d3 (simOut c X F I pk msg salt root d1 d2 d3 Rs ms) X) I pk Q out) : ForgeableAny X I pk Q' ∨ ∃ s ∈ Q', digest X I s = d1 ∨ digest X I s = d2 := by
  obtain ⟨⟨ns, wf⟩, _, v, hv, ha⟩ := h
  obtain ⟨r1, r2, r3, e1, e2, e3⟩ := simOut_inputs (c := c) (X := X) (F := F) (I := I) (pk := pk) (msg := msg) (salt := salt) (root := root) (d1 := d1) (d2 := d2) (d3 := d3) (Rs := Rs) (ms := ms)
  obtain ⟨r, e1', hr⟩ := in1_shape (c := c) (X := X) (F := F) (msg := msg) (d2 := d2) (Rs := Rs) (ms := ms) hI hpk hsalt hroot h1 h3
  obtain ⟨l1, l2, l3⟩ := in_lengths (c := c) (X := X) (F := F) (msg := msg) (root := root) (d3 := d3) (Rs := Rs) (ms := ms) hpk hsalt h1 h2 hI
  obtain ⟨s1, s2, s3⟩ := seed_cases hI
  set o := simOut c X F I pk msg salt root d1 d2 d3 Rs ms with ho
  have g1 : I.digestSize < o.in1.length := by rw [e1]; simp only [List.length_cons, List.length_append]; omega
  have g2 : I.digestSize < o.in2.length := by rw [e2]; simp only [List.length_cons, List.length_append]; omega
  have g3 : I.digestSize < o.in3.length := by rw [e3]; simp only [List.length_cons, List.length_append]; omega
  have hnot : ∀ s, s ≠ o.in1 → s ≠ o.in2 → s ≠ o.in3 → X (kindOf I.digestSize) s = left I d1 d2 d3 o X (kindOf I.digestSize) s := fun s a b c => by
    unfold left
    rw [reset_not]
    simp only [List.map_cons, List.map_nil, List.mem_cons, List.not_mem_nil, or_false, not_or]
    exact ⟨a, b, c⟩
  set X' := left I d1 d2 d3 o X with hX'
  have hX : ∀ s : Bytes, s.length ≤ I.seedSize + 37 ∨ s.length = I.digestSize → X (kindOf I.digestSize) s = X' (kindOf I.digestSize) s := fun s hs =>
    hnot s (by rintro rfl; omega) (by rintro rfl; omega) (by rintro rfl; omega)
  have n1 : input1 X' I pk out.1 out.2 v.bc ≠ o.in1 := fun he => by
    have hl : ∀ e < I.numRounds, (part1 X' I out.2 v.bc e).length = length1 I := fun e he => (hv.part1_length hI wf he).2
    have hlen := length_flatMap_range _ _ _ hl
    rw [hv.input1_eq, e1'] at he
    have he := (List.cons.inj he).2
    rw [List.append_assoc, List.append_assoc] at he
    obtain ⟨_, he⟩ := List.append_inj he (wf.salt.trans hsalt.symm)
    obtain ⟨_, he⟩ := List.append_inj he rfl
    exact hne (List.append_inj' he (by rw [hlen, hr])).1
  have head1 : ∃ t, input1 X' I pk out.1 out.2 v.bc = 1 :: t := ⟨_, rfl⟩
  have m1 : X (kindOf I.digestSize) (input1 X' I pk out.1 out.2 v.bc) = X' (kindOf I.digestSize) (input1 X' I pk out.1 out.2 v.bc) := by
    obtain ⟨t, ht⟩ := head1
    refine hnot _ n1 ?_ ?_
    · rw [ht, e2]
      intro h
      exact absurd (List.cons.inj h).1 (by decide)
    · rw [ht, e3]
      intro h
      exact absurd (List.cons.inj h).1 (by decide)
  by_cases c2 : input2n (I.m2 + 1) I out.2 = o.in2
  · right
    refine ⟨_, hQ _ ha.first, Or.inl ?_⟩
    have hd : out.2.h1 = d1 := by
      rw [e2] at c2
      unfold input2n at c2
      have he := (List.cons.inj c2).2
      rw [List.append_assoc] at he
      obtain ⟨_, he⟩ := List.append_inj he (wf.salt.trans hsalt.symm)
      exact (List.append_inj he (wf.h1.trans h1.symm)).1
    rw [← hd, hv.hash1]
    unfold digest
    rw [m1]
  have m2 : X (kindOf I.digestSize) (input2n (I.m2 + 1) I out.2) = X' (kindOf I.digestSize) (input2n (I.m2 + 1) I out.2) := by
    refine hnot _ ?_ c2 ?_
    · rw [e1]
      intro h
      exact absurd (List.cons.inj h).1 (by decide)
    · rw [e3]
      intro h
      exact absurd (List.cons.inj h).1 (by decide)
  by_cases c3 : hashed3By (input2n (I.m2 + 1) I out.2) X' I out.2 v = o.in3
  · right
    refine ⟨_, hQ _ ha.second, Or.inr ?_⟩
    rw [e3] at c3
    unfold hashed3By input3 at c3
    have he := (List.cons.inj c3).2
    rw [List.append_assoc] at he
    obtain ⟨_, he⟩ := List.append_inj he (wf.salt.trans hsalt.symm)
    have he := (List.append_inj he ((digest_length _ _ _).trans h2.symm)).1
    rw [← he]
    unfold digest
    rw [m2]
  have m3 : X (kindOf I.digestSize) (hashed3By (input2n (I.m2 + 1) I out.2) X' I out.2 v) = X' (kindOf I.digestSize) (hashed3By (input2n (I.m2 + 1) I out.2) X' I out.2 v) := by
    refine hnot _ ?_ ?_ c3
    · rw [e1]
      intro h
      exact absurd (List.cons.inj h).1 (by decide)
    · rw [e2]
      intro h
      exact absurd (List.cons.inj h).1 (by decide)
  exact Or.inl ⟨out.1, out.2, ns, v, wf, verified_congr hI hX wf hv m1 m2 m3, asked_congr hI hX wf ha hQ m2⟩

end

/-- An algorithm asks for an input with one of two given hashes. -/
theorem hit_count {I : Instance} {D : Finset Bytes} {L : Nat} {X0 : Xof} {ask : Xof → Nat → Bytes} (hask : Adaptive (kindOf I.digestSize) ask) (hD : ∀ X i, ask X i ∈ D) (hL : I.digestSize ≤ L) (q : Nat) (d1 d2 : Bytes) :
    ({f : D → Fin L → Byte | ∃ s ∈ asks ask (withTable (kindOf I.digestSize) X0 f) q, digest (withTable (kindOf I.digestSize) X0 f) I s = d1 ∨ digest (withTable (kindOf I.digestSize) X0 f) I s = d2}.ncard : ℚ) ≤
      q * (2 / 256 ^ I.digestSize) * Nat.card (D → Fin L → Byte) := by
  have : Finite Byte := Finite.of_injective BitVec.toFin fun a b h => BitVec.eq_of_toFin_eq h
  let bad (_ : Xof) (_ : List Bytes) (y : Bytes) : Set (Fin L → Byte) := {a | (answer (X0 (kindOf I.digestSize) y) a).squeeze 0 I.digestSize ∈ [d1, d2]}
  have e0 := fun i => event (X0 := X0) (L := L) hask hD i bad (fun _ _ _ _ _ _ => rfl) (ε := 2 / 256 ^ I.digestSize) (by positivity) fun X => count_digest hL _ _
  have hu := union_bound q _ _ fun i _ => e0 i
  rw [Finset.sum_const, Finset.card_range, nsmul_eq_mul, ← mul_assoc] at hu
  refine le_trans ?_ hu
  refine Nat.cast_le.2 (Set.ncard_le_ncard ?_ (Set.toFinite _))
  rintro f ⟨s, hs, h⟩
  obtain ⟨i, hi, rfl, hn, _⟩ := first_ask hs
  refine ⟨i, hi, hn, ?_⟩
  change (answer (X0 (kindOf I.digestSize) _) (f _)).squeeze 0 I.digestSize ∈ [d1, d2]
  rw [← withTable_self f (hD _ i)]
  simpa [digest] using h

/-- A forger as an observer. -/
def Spec.Forger.observer {I : Instance} {q : Nat} (A : Forger (kindOf I.digestSize) q) (pk msg : Bytes) : Observer (kindOf I.digestSize) q where
  ask := A.ask
  accept sig X := (A.out sig X).1 ≠ msg ∧ Settled X I pk (asks (A.ask sig) X q) (A.out sig X)
  adaptive := A.adaptive
  depends sig X X' h := by
    have ha : asks (A.ask sig) X' q = asks (A.ask sig) X q := asks_congr fun j hj => A.adaptive sig X X' j fun k hk => h k (by omega)
    rw [A.depends sig X X' h, ha]
    refine and_congr_right fun _ => forall_congr' fun Y => imp_congr_left ?_
    refine forall₂_congr fun s hs => ?_
    obtain ⟨j, hj, rfl⟩ := mem_asks.1 hs
    rw [h j hj]

end Banquet
