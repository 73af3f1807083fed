import Verif.Spec.Fork
import Verif.Proofs.AcceptHash
import Verif.Props.Challenge
import Verif.Props.Cheat

/-! Two accepted signatures that agree up to the choice of the hidden parties. -/

namespace Banquet

open Spec FieldOk Props

theorem digest_length (X : Xof) (I : Instance) (s : Bytes) : (digest X I s).length = I.digestSize := by unfold digest; rw [squeeze_len]

theorem challenge2_unique {X : Xof} {I : Instance} (hI : Consistent I) {h : Bytes} {Rs Rs' : List W64} (k : IsChallenge2 X I h Rs) (k' : IsChallenge2 X I h Rs') : Rs = Rs' := by
  obtain ⟨F, hF⟩ := init_supported hI.lambda
  obtain ⟨f1, g1⟩ := (C53_R X I F hF _ _).2 k
  obtain ⟨f2, g2⟩ := (C53_R X I F hF _ _).2 k'
  have a1 := phase2Expand_mono X F I _ _ (le_max_left f1 f2) _ g1
  have a2 := phase2Expand_mono X F I _ _ (le_max_right f1 f2) _ g2
  rw [a1] at a2
  exact Except.ok.inj a2

theorem leDigits_inj {lam : Nat} {a b : W64} (ha : Reduced lam a) (hb : Reduced lam b) (h : leDigits lam a = leDigits lam b) : a = b := by
  rw [← blockElem_leDigits ha, ← blockElem_leDigits hb, h]

/-- Everything about a party depends only on its tape and the corrections. -/
theorem Spec.Rep.congr (I : Instance) {r r' : Rep} {p : Nat} (hk : r.keyDelta = r'.keyDelta) (ht : r.tDelta = r'.tDelta) (hp : r.tape p = r'.tape p) (hd : p = 0 → r.pDelta = r'.pDelta) (pt : Bytes) (rs : List W64) (lam : Nat) :
    r.aes I pt p = r'.aes I pt p ∧ (∀ j k, r.sVal I pt rs p j k lam = r'.sVal I pt rs p j k lam) ∧ (∀ j k, r.tVal I p j k lam = r'.tVal I p j k lam) ∧
    ∀ k, r.pVal I rs p k lam = r'.pVal I rs p k lam := by
  have e1 : r.key I p = r'.key I p := by unfold Rep.key; rw [hk, hp]
  have e2 : r.t I p = r'.t I p := by unfold Rep.t; rw [ht, hp]
  have e3 : r.aes I pt p = r'.aes I pt p := by unfold Rep.aes; rw [e1, e2]
  have e4 : ∀ i, r.elem I p lam i = r'.elem I p lam i := fun i => by unfold Rep.elem; rw [hp]
  refine ⟨e3, fun j k => ?_, fun j k => ?_, fun k => ?_⟩
  · unfold Rep.sVal; rw [e3, e4]
  · unfold Rep.tVal; rw [e2, e4]
  · unfold Rep.pVal
    rw [e4]
    by_cases h0 : p = 0
    · rw [hd h0]
    · simp only [h0, if_false]

/-- The conditions for the opened parties. -/
def Spec.OpenedOk (lam : Nat) (I : Instance) (pt : Bytes) (r : Rep) (rs : List W64) (R : W64) (bc : Nat → Bytes) (c : Nat → W64) (a b : Nat → Nat → W64) (p : Nat) : Prop :=
  bc p = (r.aes I pt p).2 ∧ EvalAt lam (2 * I.m2 + 1) (fun k => r.pVal I rs p k lam) R (c p) ∧
  (∀ j < I.m1, EvalAt lam (I.m2 + 1) (fun k => r.sVal I pt rs p j k lam) R (a p j)) ∧ ∀ j < I.m1, EvalAt lam (I.m2 + 1) (fun k => r.tVal I p j k lam) R (b p j)

theorem Spec.OpenedOk.congr {lam : Nat} {I : Instance} {pt : Bytes} {r r' : Rep} {rs : List W64} {R : W64} {bc : Nat → Bytes} {c : Nat → W64} {a b : Nat → Nat → W64} {p : Nat}
    (hk : r.keyDelta = r'.keyDelta) (ht : r.tDelta = r'.tDelta) (hp : r.tape p = r'.tape p) (hd : p = 0 → r.pDelta = r'.pDelta) (h : OpenedOk lam I pt r rs R bc c a b p) : OpenedOk lam I pt r' rs R bc c a b p := by
  obtain ⟨e1, e2, e3, e4⟩ := Rep.congr I hk ht hp hd pt rs lam
  obtain ⟨h1, h2, h3, h4⟩ := h
  refine ⟨e1 ▸ h1, ?_, fun j hj => ?_, fun j hj => ?_⟩
  · rwa [funext e4] at h2
  · have := h3 j hj
    rwa [funext (e2 j)] at this
  · have := h4 j hj
    rwa [funext (e3 j)] at this

theorem Spec.OpenedOk.values {lam : Nat} {I : Instance} {pt : Bytes} {r : Rep} {rs : List W64} {R : W64} {bc bc' : Nat → Bytes} {c c' : Nat → W64} {a b a' b' : Nat → Nat → W64} {p : Nat}
    (e1 : bc p = bc' p) (e2 : c p = c' p) (e3 : ∀ j < I.m1, a p j = a' p j ∧ b p j = b' p j) (h : OpenedOk lam I pt r rs R bc c a b p) : OpenedOk lam I pt r rs R bc' c' a' b' p := by
  obtain ⟨h1, h2, h3, h4⟩ := h
  exact ⟨e1 ▸ h1, e2 ▸ h2, fun j hj => (e3 j hj).1 ▸ h3 j hj, fun j hj => (e3 j hj).2 ▸ h4 j hj⟩

theorem Spec.Completes.opened {lam : Nat} {I : Instance} {pt ct : Bytes} {r : Rep} {m : Nat} {rs : List W64} {R cR : W64} {aR bR : List W64} {bc : Nat → Bytes} {c : Nat → W64} {a b : Nat → Nat → W64}
    (h : Completes lam I pt ct r m rs R cR aR bR bc c a b) {p : Nat} (hp : p < I.numParties) (hm : p ≠ m) : OpenedOk lam I pt r rs R bc c a b p :=
  ⟨h.bcOpened p hp hm, h.cOpened p hp hm, h.aOpened p hp hm, h.bOpened p hp hm⟩

/-- The conditions for another repetition, given those for its opened parties. -/
theorem Spec.Completes.move {lam : Nat} {I : Instance} {pt ct : Bytes} {r r' : Rep} {m m' : Nat} {rs : List W64} {R cR : W64} {aR bR : List W64} {bc : Nat → Bytes} {c : Nat → W64} {a b : Nat → Nat → W64}
    (h : Completes lam I pt ct r m rs R cR aR bR bc c a b) (hm : m' < I.numParties) (hl : (bc m').length = I.ctSize) (hr : Reduced lam (c m') ∧ ∀ j < I.m1, Reduced lam (a m' j) ∧ Reduced lam (b m' j))
    (ho : ∀ p < I.numParties, p ≠ m' → OpenedOk lam I pt r' rs R bc c a b p) : Completes lam I pt ct r' m' rs R cR aR bR bc c a b where
  bcOpened p hp hm := (ho p hp hm).1
  bcHidden := ⟨hl, h.bcHidden.2⟩
  cOpened p hp hm := (ho p hp hm).2.1
  cHidden := ⟨hr.1, h.cHidden.2⟩
  aOpened p hp hm := (ho p hp hm).2.2.1
  aHidden j hj := ⟨(hr.2 j hj).1, (h.aHidden j hj).2⟩
  bOpened p hp hm := (ho p hp hm).2.2.2
  bHidden j hj := ⟨(hr.2 j hj).2, (h.bHidden j hj).2⟩

section
variable {I : Instance} (hI : Consistent I)
include hI

theorem Spec.Completes.bc_length {lam : Nat} {pt ct : Bytes} {r : Rep} (hr : r.Sized I) {m : Nat} {rs : List W64} {R cR : W64} {aR bR : List W64} {bc : Nat → Bytes} {c : Nat → W64} {a b : Nat → Nat → W64}
    (h : Completes lam I pt ct r m rs R cR aR bR bc c a b) (p : Nat) (hp : p < I.numParties) : (bc p).length = I.ctSize := by
  by_cases hm : p = m
  · rw [hm]; exact h.bcHidden.1
  · rw [h.bcOpened p hp hm, ← r.aes_ctx hI hr]
    exact (out_length hI _ _ _).2

omit hI in
theorem Spec.Completes.reduced {lam : Nat} {pt ct : Bytes} {r : Rep} {m : Nat} {rs : List W64} {R cR : W64} {aR bR : List W64} {bc : Nat → Bytes} {c : Nat → W64} {a b : Nat → Nat → W64}
    (h : Completes lam I pt ct r m rs R cR aR bR bc c a b) (p : Nat) (hp : p < I.numParties) : Reduced lam (c p) ∧ ∀ j < I.m1, Reduced lam (a p j) ∧ Reduced lam (b p j) := by
  by_cases hm : p = m
  · rw [hm]; exact ⟨h.cHidden.1, fun j hj => ⟨(h.aHidden j hj).1, (h.bHidden j hj).1⟩⟩
  · exact ⟨(h.cOpened p hp hm).1, fun j hj => ⟨(h.aOpened p hp hm j hj).1, (h.bOpened p hp hm j hj).1⟩⟩

variable {X : Xof} {i2 pk msg : Bytes} {sig : Signature} {v : Values}

omit hI in
theorem Spec.VerifiedBy.length (h : VerifiedBy i2 X I pk msg sig v) : sig.proofs.length = I.numRounds := by
  have := h.hidden.1
  rwa [List.length_map] at this

omit hI in
theorem Spec.VerifiedBy.mem (h : VerifiedBy i2 X I pk msg sig v) {e : Nat} {pr : Proof} : (pr, e) ∈ sig.proofs.zipIdx ↔ e < I.numRounds ∧ pr = sig.proofs.getD e noProof := by
  rw [zipIdx_eq _ noProof, h.length, List.mem_map]
  constructor
  · rintro ⟨x, hx, heq⟩
    obtain ⟨rfl, rfl⟩ := Prod.mk.inj heq
    exact ⟨List.mem_range.1 hx, rfl⟩
  · rintro ⟨he, rfl⟩
    exact ⟨e, List.mem_range.2 he, rfl⟩

/-- The part of the first hash input for one repetition. -/
def part1 (X : Xof) (I : Instance) (sig : Signature) (bc : Nat → Nat → Bytes) (e : Nat) : Bytes :=
  ((List.range I.numParties).flatMap fun p =>
      (if p = (sig.proofs.getD e noProof).reveal.missing then (sig.proofs.getD e noProof).cE
        else digest X I (sig.salt ++ le16 e ++ le16 p ++ partySeedOf X I sig e (sig.proofs.getD e noProof) p)) ++ bc e p) ++ (sig.proofs.getD e noProof).skDelta ++ (sig.proofs.getD e noProof).tDelta

/-- The part of the third hash input for one repetition. -/
def part3 (I : Instance) (sig : Signature) (c : Nat → Nat → W64) (a b : Nat → Nat → Nat → W64) (e : Nat) : Bytes :=
  leDigits I.lambda (sig.proofs.getD e noProof).pAtR ++ ((List.range I.numParties).flatMap fun p => leDigits I.lambda (c e p)) ++
    (List.range I.m1).flatMap fun j => leDigits I.lambda ((sig.proofs.getD e noProof).sAtR.getD j 0) ++ leDigits I.lambda ((sig.proofs.getD e noProof).tAtR.getD j 0) ++
      (List.range I.numParties).flatMap fun p => leDigits I.lambda (a e p j) ++ leDigits I.lambda (b e p j)

omit hI in
theorem Spec.VerifiedBy.input1_eq (h : VerifiedBy i2 X I pk msg sig v) : input1 X I pk msg sig v.bc = 1 :: (sig.salt ++ pk ++ msg ++ (List.range I.numRounds).flatMap (part1 X I sig v.bc)) := by
  unfold input1
  rw [zipIdx_eq _ noProof, h.length, List.flatMap_map]
  rfl

omit hI in
theorem Spec.VerifiedBy.hashed3_eq (h : VerifiedBy i2 X I pk msg sig v) : hashed3By i2 X I sig v = 3 :: (sig.salt ++ digest X I i2 ++ (List.range I.numRounds).flatMap (part3 I sig v.c v.a v.b)) := by
  unfold hashed3By input3
  rw [zipIdx_eq _ noProof, h.length, List.flatMap_map]
  rfl

omit hI in
theorem Spec.Verified.hashed3_eq (h : Verified X I pk msg sig v) : hashed3 X I sig v = 3 :: (sig.salt ++ digest X I (input2 I sig) ++ (List.range I.numRounds).flatMap (part3 I sig v.c v.a v.b)) := VerifiedBy.hashed3_eq h

theorem Spec.VerifiedBy.part1_length (h : VerifiedBy i2 X I pk msg sig v) {ms : List Nat} (wf : SigWF I ms sig) {e : Nat} (he : e < I.numRounds) :
    (∀ p < I.numParties, (v.bc e p).length = I.ctSize) ∧ (part1 X I sig v.bc e).length = I.numParties * (I.digestSize + I.ctSize) + I.aes.keySize + I.aes.numSboxes := by
  have w := wf.get e (by rw [h.length]; exact he)
  have hc := fun p hp => (h.completes e _ (h.mem.2 ⟨he, rfl⟩)).bc_length hI (repOf_sized X sig e w) p hp
  refine ⟨hc, ?_⟩
  unfold part1
  rw [List.length_append, List.length_append, length_flatMap_range _ _ (I.digestSize + I.ctSize) fun p hp => ?_, w.skDelta, w.tDelta]
  rw [List.length_append, hc p hp]
  split
  · rw [w.cE]
  · rw [digest_length]

omit hI in
theorem part3_length (sig : Signature) (c : Nat → Nat → W64) (a b : Nat → Nat → Nat → W64) (e : Nat) :
    (part3 I sig c a b e).length = I.lambda + I.numParties * I.lambda + I.m1 * (I.lambda + I.lambda + I.numParties * (I.lambda + I.lambda)) := by
  unfold part3
  rw [List.length_append, List.length_append, length_leDigits, length_flatMap_range _ _ I.lambda fun p hp => length_leDigits _ _,
    length_flatMap_range _ _ (I.lambda + I.lambda + I.numParties * (I.lambda + I.lambda)) fun j hj => ?_]
  rw [List.length_append, List.length_append, length_leDigits, length_leDigits, length_flatMap_range _ _ (I.lambda + I.lambda) fun p hp => by rw [List.length_append, length_leDigits, length_leDigits]]

/-- What the first hash binds. -/
theorem Spec.VerifiedBy.first {X' : Xof} {i2' : Bytes} {sig' : Signature} {v' : Values} (h : VerifiedBy i2 X I pk msg sig v) (h' : VerifiedBy i2' X' I pk msg sig' v') {ms ms' : List Nat} (wf : SigWF I ms sig) (wf' : SigWF I ms' sig')
    (heq : input1 X I pk msg sig v.bc = input1 X' I pk msg sig' v'.bc) : sig.salt = sig'.salt ∧ ∀ e < I.numRounds,
      (sig.proofs.getD e noProof).skDelta = (sig'.proofs.getD e noProof).skDelta ∧ (sig.proofs.getD e noProof).tDelta = (sig'.proofs.getD e noProof).tDelta ∧
      ∀ p < I.numParties, v.bc e p = v'.bc e p ∧ commitOf X I sig e (sig.proofs.getD e noProof) p = commitOf X' I sig' e (sig'.proofs.getD e noProof) p := by
  rw [h.input1_eq, h'.input1_eq, List.append_assoc, List.append_assoc, List.append_assoc, List.append_assoc] at heq
  obtain ⟨hs, heq⟩ := List.append_inj (List.cons.inj heq).2 (wf.salt.trans wf'.salt.symm)
  refine ⟨hs, fun e he => ?_⟩
  have hall := flatMap_range_inj _ _ _ (fun e he => (h.part1_length hI wf he).2.trans (h'.part1_length hI wf' he).2.symm) (List.append_cancel_left (List.append_cancel_left heq)) e he
  have w := wf.get e (by rw [h.length]; exact he)
  have w' := wf'.get e (by rw [h'.length]; exact he)
  unfold part1 at hall
  obtain ⟨hall, ht⟩ := List.append_inj' hall (w.tDelta.trans w'.tDelta.symm)
  obtain ⟨hall, hk⟩ := List.append_inj' hall (w.skDelta.trans w'.skDelta.symm)
  have b1 := (h.part1_length hI wf he).1
  have b2 := (h'.part1_length hI wf' he).1
  have lf : ∀ (Y : Xof) (s : Bytes) (q : Prop) [Decidable q] (c : Bytes), c.length = I.digestSize → (if q then c else digest Y I s).length = I.digestSize := fun Y s q _ c hc => by
    split
    · exact hc
    · exact digest_length _ _ _
  refine ⟨hk, ht, fun p hp => ?_⟩
  have hp' := flatMap_range_inj _ _ _ (fun p hp => by rw [List.length_append, List.length_append, b1 p hp, b2 p hp, lf _ _ _ _ w.cE, lf _ _ _ _ w'.cE]) hall p hp
  obtain ⟨hc, hb⟩ := List.append_inj' hp' ((b1 p hp).trans (b2 p hp).symm)
  exact ⟨hb, hc⟩

/-- What the third hash binds. -/
theorem Spec.VerifiedBy.third {X' : Xof} {i2' : Bytes} {sig' : Signature} {v' : Values} (h : VerifiedBy i2 X I pk msg sig v) (h' : VerifiedBy i2' X' I pk msg sig' v') {ms ms' : List Nat} (wf : SigWF I ms sig) (wf' : SigWF I ms' sig')
    (heq : hashed3By i2 X I sig v = hashed3By i2' X' I sig' v') : digest X I i2 = digest X' I i2' ∧ ∀ e < I.numRounds,
      (sig.proofs.getD e noProof).pAtR = (sig'.proofs.getD e noProof).pAtR ∧
      (∀ j < I.m1, (sig.proofs.getD e noProof).sAtR.getD j 0 = (sig'.proofs.getD e noProof).sAtR.getD j 0 ∧ (sig.proofs.getD e noProof).tAtR.getD j 0 = (sig'.proofs.getD e noProof).tAtR.getD j 0) ∧
      ∀ p < I.numParties, v.c e p = v'.c e p ∧ ∀ j < I.m1, v.a e p j = v'.a e p j ∧ v.b e p j = v'.b e p j := by
  rw [h.hashed3_eq, h'.hashed3_eq, List.append_assoc, List.append_assoc] at heq
  obtain ⟨hs, heq⟩ := List.append_inj (List.cons.inj heq).2 (wf.salt.trans wf'.salt.symm)
  obtain ⟨h2, heq⟩ := List.append_inj heq ((digest_length _ _ _).trans (digest_length _ _ _).symm)
  refine ⟨h2, fun e he => ?_⟩
  have hall := flatMap_range_inj _ _ _ (fun e he => (part3_length _ _ _ _ _).trans (part3_length _ _ _ _ _).symm) heq e he
  have w := wf.get e (by rw [h.length]; exact he)
  have w' := wf'.get e (by rw [h'.length]; exact he)
  have r1 := (h.completes e _ (h.mem.2 ⟨he, rfl⟩)).reduced
  have r2 := (h'.completes e _ (h'.mem.2 ⟨he, rfl⟩)).reduced
  have red : ∀ {l : List W64}, Elements I.lambda I.m1 l → ∀ j < I.m1, Reduced I.lambda (l.getD j 0) := fun {l} hl j hj => by
    rw [getD_of_lt (by rw [hl.1]; exact hj)]
    exact hl.2 _ (List.getElem_mem _)
  unfold part3 at hall
  have ld : ∀ w w' : W64, (leDigits I.lambda w).length = (leDigits I.lambda w').length := fun w w' => (length_leDigits _ _).trans (length_leDigits _ _).symm
  rw [List.append_assoc, List.append_assoc] at hall
  obtain ⟨k1, hall⟩ := List.append_inj hall (ld _ _)
  obtain ⟨k2, hall⟩ := List.append_inj hall (by rw [length_flatMap_range _ _ I.lambda fun p hp => length_leDigits _ _, length_flatMap_range _ _ I.lambda fun p hp => length_leDigits _ _])
  have k2 := flatMap_range_inj _ _ _ (fun p hp => ld _ _) k2
  have k3 := flatMap_range_inj _ _ _ (fun j hj => by
    have l1 : ∀ f g : Nat → W64, ((List.range I.numParties).flatMap fun p => leDigits I.lambda (f p) ++ leDigits I.lambda (g p)).length = I.numParties * (I.lambda + I.lambda) :=
      fun f g => length_flatMap_range _ _ _ fun p hp => by rw [List.length_append, length_leDigits, length_leDigits]
    rw [List.length_append, List.length_append, List.length_append, List.length_append, length_leDigits, length_leDigits, length_leDigits, length_leDigits,
      l1 (fun p => v.a e p j) (fun p => v.b e p j), l1 (fun p => v'.a e p j) (fun p => v'.b e p j)]) hall
  have k4 : ∀ j < I.m1, ((sig.proofs.getD e noProof).sAtR.getD j 0 = (sig'.proofs.getD e noProof).sAtR.getD j 0 ∧ (sig.proofs.getD e noProof).tAtR.getD j 0 = (sig'.proofs.getD e noProof).tAtR.getD j 0) ∧
      ∀ p < I.numParties, v.a e p j = v'.a e p j ∧ v.b e p j = v'.b e p j := fun j hj => by
    have := k3 j hj
    rw [List.append_assoc, List.append_assoc] at this
    obtain ⟨q1, this⟩ := List.append_inj this (ld _ _)
    obtain ⟨q2, this⟩ := List.append_inj this (ld _ _)
    refine ⟨⟨leDigits_inj (red w.sAtR j hj) (red w'.sAtR j hj) q1, leDigits_inj (red w.tAtR j hj) (red w'.tAtR j hj) q2⟩, fun p hp => ?_⟩
    have q3 := flatMap_range_inj _ _ _ (fun p hp => by rw [List.length_append, List.length_append, length_leDigits, length_leDigits, length_leDigits, length_leDigits]) this p hp
    obtain ⟨q4, q5⟩ := List.append_inj q3 (ld _ _)
    exact ⟨leDigits_inj ((r1 p hp).2 j hj).1 ((r2 p hp).2 j hj).1 q4, leDigits_inj ((r1 p hp).2 j hj).2 ((r2 p hp).2 j hj).2 q5⟩
  refine ⟨leDigits_inj w.pAtR w'.pAtR k1, fun j hj => (k4 j hj).1, fun p hp => ⟨leDigits_inj (r1 p hp).1 (r2 p hp).1 (k2 p hp), fun j hj => (k4 j hj).2 p hp⟩⟩

omit hI in
theorem Spec.VerifiedBy.missing_lt (h : VerifiedBy i2 X I pk msg sig v) {e : Nat} (he : e < I.numRounds) : (sig.proofs.getD e noProof).reveal.missing < I.numParties := by
  obtain ⟨_, n, hn⟩ := h.hidden
  have hm : (sig.proofs.getD e noProof).reveal.missing ∈ sig.proofs.map (·.reveal.missing) := by
    refine List.mem_map_of_mem ?_
    rw [getD_of_lt (by rw [h.length]; exact he)]
    exact List.getElem_mem _
  rw [← hn] at hm
  have := (List.mem_filter.1 (List.mem_of_mem_take hm)).2
  simpa using this

theorem Spec.VerifiedBy.seed_length (h : VerifiedBy i2 X I pk msg sig v) {ms : List Nat} (wf : SigWF I ms sig) {e : Nat} (he : e < I.numRounds) {p : Nat} (hp : p < I.numParties)
    (hne : p ≠ (sig.proofs.getD e noProof).reveal.missing) : (partySeedOf X I sig e (sig.proofs.getD e noProof) p).length = I.seedSize := by
  have hml : ms.length = I.numRounds := by rw [wf.proofs.length_eq, h.length]
  have hs := wf.shaped (parties_bounds hI).2.2.2 hml
  exact openedSeed_length hI X sig.salt e (shaped_seeds ((shaped_facts hs).2.2.2.2 e he)) (h.missing_lt he) p hp hne

theorem Spec.VerifiedBy.input1_length (h : VerifiedBy i2 X I pk msg sig v) {ms : List Nat} (wf : SigWF I ms sig) : I.digestSize < (input1 X I pk msg sig v.bc).length := by
  rw [h.input1_eq]
  have h0 : 0 < I.numRounds := hI.rounds.1
  have hN := (parties_bounds hI).1
  obtain ⟨n, hn⟩ : ∃ n, I.numRounds = n + 1 := ⟨I.numRounds - 1, by omega⟩
  have l := (h.part1_length hI wf h0).2
  rw [hn, List.range_succ_eq_map, List.flatMap_cons]
  simp only [List.length_cons, List.length_append]
  rw [l]
  have : I.digestSize ≤ I.numParties * (I.digestSize + I.ctSize) := by
    calc I.digestSize ≤ I.digestSize + I.ctSize := Nat.le_add_right ..
      _ = 1 * (I.digestSize + I.ctSize) := (Nat.one_mul _).symm
      _ ≤ _ := Nat.mul_le_mul_right _ (by omega)
  omega

omit hI in
theorem hashed3_length : I.digestSize < (hashed3By i2 X I sig v).length := by
  unfold hashed3By input3
  simp only [List.length_cons, List.length_append, digest_length]
  omega

omit hI in
theorem input2_length {ms : List Nat} (wf : SigWF I ms sig) : I.digestSize < (input2 I sig).length := by
  unfold input2
  simp only [List.length_cons, List.length_append, wf.h1]
  omega

end

theorem challenge1_elements (X : Xof) (I : Instance) (hI : Consistent I) (h1 : Bytes) (e : Nat) : Elements I.lambda I.m1 (challenge1 X I h1 e) := by
  refine ⟨by unfold challenge1; simp, fun w hw => ?_⟩
  unfold challenge1 at hw
  obtain ⟨j, _, rfl⟩ := List.mem_map.1 hw
  exact reduced_blockElem (by rcases hI.lambda with h | h | h | h <;> omega) (squeeze_len _ _ _)

theorem challenge2_reduced {X : Xof} {I : Instance} (hI : Consistent I) {h : Bytes} {Rs : List W64} (k : IsChallenge2 X I h Rs) {e : Nat} (he : e < I.numRounds) : Reduced I.lambda (Rs.getD e 0) := by
  obtain ⟨hl, n, hn⟩ := k
  have hm : Rs.getD e 0 ∈ Rs := by
    rw [getD_of_lt (by omega)]
    exact List.getElem_mem _
  generalize Rs.getD e 0 = R at hm
  rw [← hn] at hm
  obtain ⟨b, hb, rfl⟩ := List.mem_map.1 (List.mem_filter.1 (List.mem_of_mem_take hm)).1
  unfold streamBlocks at hb
  obtain ⟨i, _, rfl⟩ := List.mem_map.1 hb
  exact reduced_blockElem (by rcases hI.lambda with h | h | h | h <;> omega) (squeeze_len _ _ _)

/-- The repetition with tapes from both signatures can be opened for both hidden parties. -/
theorem fork_merge (X X' : Xof) (I : Instance) (hI : Consistent I) (pk : Bytes) (msg : Bytes) (sig sig' : Signature) (ms ms' : List Nat) (wf : SigWF I ms sig) (wf' : SigWF I ms' sig')
    (v v' : Values) (h : Verified X I pk msg sig v) (h' : Verified X' I pk msg sig' v') (hX : ∀ k s, s ≠ sig.h3 → X' k s = X k s) (e : Nat) (hN : e < I.numRounds) (hs : sig.salt = sig'.salt)
    (hk : (sig.proofs.getD e noProof).skDelta = (sig'.proofs.getD e noProof).skDelta) (ht : (sig.proofs.getD e noProof).tDelta = (sig'.proofs.getD e noProof).tDelta)
    (f1 : ∀ p < I.numParties, v.bc e p = v'.bc e p ∧ commitOf X I sig e (sig.proofs.getD e noProof) p = commitOf X' I sig' e (sig'.proofs.getD e noProof) p)
    (f3 : ∀ p < I.numParties, v.c e p = v'.c e p ∧ ∀ j < I.m1, v.a e p j = v'.a e p j ∧ v.b e p j = v'.b e p j) (rs : List W64) (R : W64)
    (k1 : Completes I.lambda I (slice pk 0 I.ctSize) (slice pk I.ctSize I.ctSize) (repOf X I sig e (sig.proofs.getD e noProof)) (sig.proofs.getD e noProof).reveal.missing rs R
      (sig.proofs.getD e noProof).pAtR (sig.proofs.getD e noProof).sAtR (sig.proofs.getD e noProof).tAtR (v.bc e) (v.c e) (v.a e) (v.b e))
    (k2 : Completes I.lambda I (slice pk 0 I.ctSize) (slice pk I.ctSize I.ctSize) (repOf X' I sig' e (sig'.proofs.getD e noProof)) (sig'.proofs.getD e noProof).reveal.missing rs R
      (sig'.proofs.getD e noProof).pAtR (sig'.proofs.getD e noProof).sAtR (sig'.proofs.getD e noProof).tAtR (v'.bc e) (v'.c e) (v'.a e) (v'.b e))
    (hne : (sig.proofs.getD e noProof).reveal.missing ≠ (sig'.proofs.getD e noProof).reveal.missing) :
    Committed X I sig e (sig.proofs.getD e noProof) (merge X X' I sig sig' e (sig.proofs.getD e noProof) (sig'.proofs.getD e noProof)) ∧
      Opens I.lambda I (slice pk 0 I.ctSize) (slice pk I.ctSize I.ctSize) (merge X X' I sig sig' e (sig.proofs.getD e noProof) (sig'.proofs.getD e noProof)) rs R
        (sig.proofs.getD e noProof).reveal.missing (sig'.proofs.getD e noProof).reveal.missing := by
  have hd : ∀ s, s ≠ sig.h3 → digest X' I s = digest X I s := fun s hs => by unfold digest; rw [hX _ _ hs]
  have w := wf.get e (by rw [h.length]; exact hN)
  have m1 := h.missing_lt hN
  have m2 := h'.missing_lt hN
  have s1 := fun p hp => h.seed_length hI wf hN (p := p) hp
  have s2 := fun p hp => h'.seed_length hI wf' hN (p := p) hp
  have s16 : I.seedSize ≠ 36 := by rw [hI.seed]; rcases hI.aes with g | g | g <;> simp only [Prod.mk.injEq] at g <;> omega
  have hprod := h.product (sig.proofs.getD e noProof) (by rw [getD_of_lt (by rw [h.length]; exact hN)]; exact List.getElem_mem _)
  generalize sig.proofs.getD e noProof = pr at hk ht f1 k1 hne w m1 s1 hprod ⊢
  generalize sig'.proofs.getD e noProof = pr' at hk ht f1 k2 hne m2 s2 ⊢
  -- the opened parties
  have t1 : ∀ p, p = pr.reveal.missing → (merge X X' I sig sig' e pr pr').tape p = (repOf X' I sig' e pr').tape p := fun p hm => by unfold merge; dsimp only; rw [if_pos hm]
  have t2 : ∀ p, p ≠ pr.reveal.missing → (merge X X' I sig sig' e pr pr').tape p = (repOf X I sig e pr).tape p := fun p hm => by unfold merge; dsimp only; rw [if_neg hm]
  have d1 : pr.reveal.missing = 0 → (merge X X' I sig sig' e pr pr').pDelta = (repOf X' I sig' e pr').pDelta := fun hm => by unfold merge; dsimp only; rw [if_pos hm]; rfl
  have d2 : pr.reveal.missing ≠ 0 → (merge X X' I sig sig' e pr pr').pDelta = (repOf X I sig e pr).pDelta := fun hm => by unfold merge; dsimp only; rw [if_neg hm]; rfl
  have g1 : (merge X X' I sig sig' e pr pr').keyDelta = (repOf X I sig e pr).keyDelta := rfl
  have g2 : (merge X X' I sig sig' e pr pr').tDelta = (repOf X I sig e pr).tDelta := rfl
  have g3 : (repOf X' I sig' e pr').keyDelta = (merge X X' I sig sig' e pr pr').keyDelta := hk.symm
  have g4 : (repOf X' I sig' e pr').tDelta = (merge X X' I sig sig' e pr pr').tDelta := ht.symm
  have o : ∀ p < I.numParties, OpenedOk I.lambda I (slice pk 0 I.ctSize) (merge X X' I sig sig' e pr pr') rs R (v.bc e) (v.c e) (v.a e) (v.b e) p := by
    intro p hp
    by_cases hm : p = pr.reveal.missing
    · have k := k2.opened hp (by rw [hm]; exact hne)
      have k := OpenedOk.congr g3 g4 (t1 p hm).symm (fun h0 => (d1 (by rw [← hm, h0])).symm) k
      exact OpenedOk.values (f1 p hp).1.symm (f3 p hp).1.symm (fun j hj => ⟨((f3 p hp).2 j hj).1.symm, ((f3 p hp).2 j hj).2.symm⟩) k
    · exact OpenedOk.congr g1.symm g2.symm (t2 p hm).symm (fun h0 => (d2 (by rw [← h0]; exact Ne.symm hm)).symm) (k1.opened hp hm)
  have sz := repOf_sized X sig e w
  have bl := fun p hp => k1.bc_length hI sz p hp
  have rd := fun p hp => k1.reduced (p := p) hp
  have op : Opens I.lambda I (slice pk 0 I.ctSize) (slice pk I.ctSize I.ctSize) (merge X X' I sig sig' e pr pr') rs R pr.reveal.missing pr'.reveal.missing :=
    ⟨_, _, _, _, _, _, _, k1.move m1 (bl _ m1) (rd _ m1) fun p hp _ => o p hp, k1.move m2 (bl _ m2) (rd _ m2) fun p hp _ => o p hp, hprod⟩
  refine ⟨⟨rfl, rfl, fun p hp => ?_⟩, op⟩
  · by_cases hm : p = pr.reveal.missing
    · have hm' : p ≠ pr'.reveal.missing := by rw [hm]; exact hne
      have hl := s2 p hp hm'
      refine ⟨partySeedOf X' I sig' e pr' p, hl, ?_, (t1 p hm).trans ?_⟩
      · refine (f1 p hp).2.trans ((if_neg hm').trans ?_)
        rw [← hs]
        refine hd _ fun heq => ?_
        have := congrArg List.length heq
        simp only [List.length_append, hl, wf.salt, wf.h3, hI.digest, le16_length] at this
        omega
      · unfold repOf
        dsimp only
        rw [← hs, hX _ _ fun heq => ?_]
        have := congrArg List.length heq
        simp only [List.length_append, hl, wf.salt, wf.h3, hI.digest, le16_length] at this
        omega
    · exact ⟨partySeedOf X I sig e pr p, s1 p hp hm, if_neg hm, t2 p hm⟩

/-- Without collision, the tapes are those of the commitments and the repetition can be opened for both hidden parties. -/
theorem fork_opens (X X' : Xof) (I : Instance) (hI : Consistent I) (pk : Bytes) (msg : Bytes) (sig sig' : Signature) (ms ms' : List Nat) (wf : SigWF I ms sig) (wf' : SigWF I ms' sig')
    (v v' : Values) (h : Verified X I pk msg sig v) (h' : Verified X' I pk msg sig' v') (hX : ∀ k s, s ≠ sig.h3 → X' k s = X k s) (e1 : sig'.h1 = sig.h1) (e3 : sig'.h3 = sig.h3)
    (e : Nat) (pr pr' : Proof) (he : (pr, e) ∈ sig.proofs.zipIdx) (he' : (pr', e) ∈ sig'.proofs.zipIdx) (hne : pr.reveal.missing ≠ pr'.reveal.missing) (hcol : ¬ForkCollision X X' I pk msg sig sig' v v') :
    Committed X I sig e pr (merge X X' I sig sig' e pr pr') ∧
      Opens I.lambda I (slice pk 0 I.ctSize) (slice pk I.ctSize I.ctSize) (merge X X' I sig sig' e pr pr') (challenge1 X I sig.h1 e) (v.Rs.getD e 0) pr.reveal.missing pr'.reveal.missing := by
  obtain ⟨hN, rfl⟩ := h.mem.1 he
  obtain ⟨_, rfl⟩ := h'.mem.1 he'
  have hd : ∀ s, s ≠ sig.h3 → digest X' I s = digest X I s := fun s hs => by unfold digest; rw [hX _ _ hs]
  have hlen : ∀ s : Bytes, I.digestSize < s.length → s ≠ sig.h3 := fun s hs heq => by rw [heq, wf.h3] at hs; exact lt_irrefl _ hs
  unfold ForkCollision Collide at hcol
  push Not at hcol
  obtain ⟨n1, n2, n3, n4⟩ := hcol
  have h2' : digest X' I (input2 I sig') = digest X I (input2 I sig') := hd _ (hlen _ (input2_length wf'))
  -- the inputs of the hashes are equal
  have q1 : input1 X I pk msg sig v.bc = input1 X' I pk msg sig' v'.bc := by
    by_contra hq
    refine n1 hq ?_
    change digest X I _ = digest X I _
    rw [← h.hash1, ← hd _ (hlen _ (h'.input1_length hI wf')), ← h'.hash1, e1]
  have q3 : hashed3 X I sig v = hashed3 X' I sig' v' := by
    by_contra hq
    refine n2 hq ?_
    change digest X I _ = digest X I _
    rw [← h.hash3, ← hd _ (hlen _ hashed3_length), ← h'.hash3, e3]
  obtain ⟨hs, f1⟩ := h.first hI h' wf wf' q1
  obtain ⟨f2, f3⟩ := h.third hI h' wf wf' q3
  obtain ⟨hk, ht, f1⟩ := f1 e hN
  obtain ⟨p1, p2, f3⟩ := f3 e hN
  -- the challenges are equal
  have d1 : sig.h1 ≠ sig.h3 := fun heq => by
    refine n3 (fun hq => ?_) (show digest X I _ = digest X I _ by rw [← h.hash1, ← h.hash3, heq])
    rw [h.input1_eq, h.hashed3_eq] at hq
    exact absurd (List.cons.inj hq).1 (by decide)
  have d2 : digest X I (input2 I sig) ≠ sig.h3 := fun heq => by
    refine n4 (fun hq => ?_) (show digest X I _ = digest X I _ by rw [heq, ← h.hash3])
    rw [h.hashed3_eq] at hq
    unfold input2 at hq
    exact absurd (List.cons.inj hq).1 (by decide)
  have c1 : challenge1 X' I sig'.h1 e = challenge1 X I sig.h1 e := by
    rw [e1]
    unfold challenge1
    rw [hX _ _ d1]
  have c2 : v'.Rs = v.Rs := by
    refine challenge2_unique hI (X := X) (h := digest X I (input2 I sig)) ?_ h.challenges
    have := h'.challenges
    rw [← f2] at this
    unfold IsChallenge2 at this ⊢
    rwa [hX _ _ d2] at this
  have k1 := h.completes e _ he
  have k2 := h'.completes e _ he'
  rw [c1, c2] at k2
  have w := wf.get e (by rw [h.length]; exact hN)
  have w' := wf'.get e (by rw [h'.length]; exact hN)
  have m1 := h.missing_lt hN
  have m2 := h'.missing_lt hN
  have s1 := fun p hp => h.seed_length hI wf hN (p := p) hp
  have s2 := fun p hp => h'.seed_length hI wf' hN (p := p) hp
  have s16 : I.seedSize ≠ 36 := by rw [hI.seed]; rcases hI.aes with g | g | g <;> simp only [Prod.mk.injEq] at g <;> omega
  exact fork_merge X X' I hI pk msg sig sig' ms ms' wf wf' v v' h h' hX e hN hs hk ht f1 f3 _ _ k1 k2 hne

/-- A repetition that can be opened twice shares a key, or a challenge is one of few. -/
theorem fork_luck {I : Instance} (hI : Consistent I) {pk : Bytes} (hpk : pk.length = 2 * I.ctSize) {r : Rep} (hr : r.Sized I) (hpd : Elements I.lambda (I.m2 + 1) r.pDelta) {rs : List W64} (hrs : Elements I.lambda I.m1 rs)
    {R : W64} (hR : Reduced I.lambda R) {m m' : Nat} (hm : m < I.numParties) (hm' : m' < I.numParties) (hne : m ≠ m') (op : Opens I.lambda I (slice pk 0 I.ctSize) (slice pk I.ctSize I.ctSize) r rs R m m') :
    KeyPair I (r.wholeKey I) pk ∨ (rs ∈ lucky1 I pk r ∧ (lucky1 I pk r).ncard ≤ (2 ^ (8 * I.lambda)) ^ (I.m1 - 1)) ∨ (R ∈ lucky2 I pk r rs ∧ (lucky2 I pk r rs).ncard ≤ 2 * I.m2) := by
  by_cases hkey : KeyPair I (r.wholeKey I) pk
  · exact Or.inl hkey
  refine Or.inr ?_
  by_cases hlt : 2 * I.m2 < (lucky2 I pk r rs).ncard
  · exact Or.inl ⟨⟨hrs, _, hpd, hlt⟩, C52_repetition I hI pk hpk r hr.1 hr.2 hr.3 hkey⟩
  · exact Or.inr ⟨⟨hR, _, _, hm, hm', hne, op⟩, not_lt.1 hlt⟩

theorem verified_of_verify {X : Xof} {fuel : Nat} {I : Instance} (hI : Consistent I) {pk msg : Bytes} (hpk : 2 * I.ctSize ≤ pk.length) {sig : Signature} {ms : List Nat} (wf : SigWF I ms sig)
    (h : verify X fuel I pk sig msg = .ok true) : ∃ v, Verified X I pk msg sig v := by
  obtain ⟨Rs, bc, c, a, b, k1, k2, k3, k4, k5, k6⟩ := (C19_acceptable X I hI pk hpk msg ms sig wf).1 ⟨fuel, h⟩
  exact ⟨⟨Rs, bc, c, a, b⟩, k1, k2, k3, k4, k5, k6⟩

end Banquet
