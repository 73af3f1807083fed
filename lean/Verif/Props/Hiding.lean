import Verif.Proofs.Hiding
import Verif.Props.Sign
import Mathlib.Data.Set.Finite.List
import Mathlib.Data.Set.Card

/-! C47: what is opened of one repetition does not depend on the secret key. -/

namespace Banquet.Props

open Spec FieldOk Spec.Aes

section
variable {I : Instance} (hI : Consistent I) {F : FieldState} [FieldOk F] (hb : F.byteSize = I.lambda) {pk : Bytes} {rs : List W64} (hrs : AllRed F.byteSize rs) {R : W64} (hR : Reduced F.byteSize R)
  {tapes : List Bytes} (hl : tapes.length = I.numParties) (ht : ∀ t ∈ tapes, t.length = I.tapeSize) {m : Nat} (hm : m < I.numParties)

include hI hrs hl ht in
theorem hiding_facts {sk : Bytes} (hk : KeyPair I sk pk) {t : Bytes} (hlt : t.length = I.tapeSize) (R : W64) (tree : SeedTree) (com : List Bytes) :
    ∃ c : Ctx, c.tape = tapeFun I (tapes.set m t) ∧ Honest F I sk (slice pk 0 I.ctSize) (aesSave I.aes.keySize sk (slice pk 0 I.ctSize)).2 rs c ∧
      repView F I sk (slice pk 0 I.ctSize) rs R tree com (tapes.set m t) = .ok (c.view F I (slice pk 0 I.ctSize) rs R) := by
  obtain ⟨h1, h2, h3, h4⟩ := KeyPair.facts hI hk
  refine repView_honest hI h1 h3 hrs R tree com _ (by rw [List.length_set, hl]) fun x hx => ?_
  rcases List.mem_or_eq_of_mem_set hx with h | h
  · exact ht x h
  · rw [h, hlt]

include hl hm in
omit [FieldOk F] in
theorem hiding_agree {c c' : Ctx} {t t' : Bytes} (h : c.tape = tapeFun I (tapes.set m t)) (h' : c'.tape = tapeFun I (tapes.set m t')) (e1 : c.skDelta = c'.skDelta) (e2 : c.tDelta = c'.tDelta)
    (e3 : c.pDelta = c'.pDelta) : Ctx.Agree I m c c' := by
  refine ⟨e1, e2, e3, fun p hp => ?_⟩
  rw [h, h', tapeFun_set (by omega), tapeFun_set (by omega), if_neg hp.2, if_neg hp.2]

include hI hrs hR hl ht hm in
theorem hiding_view {sk sk' : Bytes} (hk : KeyPair I sk pk) (hk' : KeyPair I sk' pk) {t t' : Bytes} (hlt : t.length = I.tapeSize) (hlt' : t'.length = I.tapeSize) {tree tree' : SeedTree} {com com' : List Bytes}
    {v v' : RepView} (h : repView F I sk (slice pk 0 I.ctSize) rs R tree com (tapes.set m t) = .ok v) (h' : repView F I sk' (slice pk 0 I.ctSize) rs R tree' com' (tapes.set m t') = .ok v')
    (hs : v.sent F.byteSize = v'.sent F.byteSize) : v = v' := by
  obtain ⟨c, t1, c1, w⟩ := hiding_facts hI hrs hl ht (m := m) hk hlt R tree com
  obtain ⟨c', t1', c1', w'⟩ := hiding_facts hI hrs hl ht (m := m) hk' hlt' R tree' com'
  rw [w] at h
  rw [w'] at h'
  obtain rfl := Except.ok.inj h
  obtain rfl := Except.ok.inj h'
  obtain ⟨e1, e2, e3, e4, e5⟩ := sent_parts c1 c1' hR hs
  exact view_determined hI c1 c1' hrs hR hm (hiding_agree hl hm t1 t1' e1 e2 e3) ((KeyPair.facts hI hk).2.2.2.symm.trans (KeyPair.facts hI hk').2.2.2) e4 e5

include hI hb hrs hR hl ht hm in
theorem hiding_uniform (hR' : R ∉ F.firstN I.m2) {sk : Bytes} (hk : KeyPair I sk pk) (tree : SeedTree) (com : List Bytes) :
    ∃ φ : Bytes → Bytes, Set.BijOn φ {t | t.length = I.tapeSize} {u | u.length = I.tapeSize} ∧
      ∀ t, t.length = I.tapeSize → ∃ v, repView F I sk (slice pk 0 I.ctSize) rs R tree com (tapes.set m t) = .ok v ∧ v.sent F.byteSize = φ t := by
  have : Nonempty Ctx := ⟨⟨[], [], [], fun _ => []⟩⟩
  choose! c t1 c1 w using fun (t : Bytes) (hlt : t.length = I.tapeSize) => hiding_facts (m := m) hI hrs hl ht hk hlt R tree com
  have hmaps : Set.MapsTo (fun t => ((c t).view F I (slice pk 0 I.ctSize) rs R).sent F.byteSize) {t | t.length = I.tapeSize} {u | u.length = I.tapeSize} := fun t hlt => sent_length hb (c1 t hlt) R
  have hinj : Set.InjOn (fun t => ((c t).view F I (slice pk 0 I.ctSize) rs R).sent F.byteSize) {t | t.length = I.tapeSize} := by
    intro t hlt t' hlt' hs
    obtain ⟨e1, e2, e3, e4, e5⟩ := sent_parts (c1 t hlt) (c1 t' hlt') hR hs
    have := tape_determined hI hb (c1 t hlt) (c1 t' hlt') hrs hR hR' hm (hiding_agree hl hm (t1 t hlt) (t1 t' hlt') e1 e2 e3) e4 e5
    rwa [t1 t hlt, t1 t' hlt', tapeFun_set (by omega), tapeFun_set (by omega), if_pos rfl, if_pos rfl] at this
  have : Finite Byte := Finite.of_injective BitVec.toFin fun a b h => BitVec.eq_of_toFin_eq h
  have hfin : {t : Bytes | t.length = I.tapeSize}.Finite := List.finite_length_eq _ _
  refine ⟨fun t => ((c t).view F I (slice pk 0 I.ctSize) rs R).sent F.byteSize, ⟨hmaps, hinj, ?_⟩, fun t hlt => ⟨_, w t hlt, rfl⟩⟩
  exact (Set.eq_of_subset_of_ncard_le hmaps.image_subset hinj.ncard_image.ge hfin).ge

end

section
variable {I : Instance} (hI : Consistent I) {F : FieldState} (hF : initExtensionField I.lambda = .ok F) {pk : Bytes} {rs : List W64} (hrs : ∀ r ∈ rs, Reduced I.lambda r) {R : W64} (hR : Reduced I.lambda R)
  {tapes : List Bytes} (hl : tapes.length = I.numParties) (ht : ∀ t ∈ tapes, t.length = I.tapeSize) {m : Nat} (hm : m < I.numParties)
include hI hF hrs hR hl ht hm

/-- C47: the view is determined by the values sent, the public key and the tapes of the other parties. -/
theorem C47_view {sk sk' : Bytes} (hk : KeyPair I sk pk) (hk' : KeyPair I sk' pk) {t t' : Bytes} (hlt : t.length = I.tapeSize) (hlt' : t'.length = I.tapeSize) {tree tree' : SeedTree} {com com' : List Bytes}
    {v v' : RepView} (h : repView F I sk (slice pk 0 I.ctSize) rs R tree com (tapes.set m t) = .ok v) (h' : repView F I sk' (slice pk 0 I.ctSize) rs R tree' com' (tapes.set m t') = .ok v')
    (hs : v.sent I.lambda = v'.sent I.lambda) : v = v' := by
  obtain ⟨hok, hb, _⟩ := initExtensionField_ok hF
  rw [← hb] at hrs hR hs
  exact hiding_view hI hrs hR hl ht hm hk hk' hlt hlt' h h' hs

/-- C47: for each key the values sent are a bijective function of the tape of the hidden party: if that tape is uniformly distributed, so are the values sent. -/
theorem C47_uniform (hR' : R ∉ F.firstN I.m2) {sk : Bytes} (hk : KeyPair I sk pk) (tree : SeedTree) (com : List Bytes) :
    ∃ φ : Bytes → Bytes, Set.BijOn φ {t | t.length = I.tapeSize} {u | u.length = I.tapeSize} ∧
      ∀ t, t.length = I.tapeSize → ∃ v, repView F I sk (slice pk 0 I.ctSize) rs R tree com (tapes.set m t) = .ok v ∧ v.sent I.lambda = φ t := by
  obtain ⟨hok, hb, _⟩ := initExtensionField_ok hF
  rw [← hb] at hrs hR
  simp only [← hb]
  exact hiding_uniform hI hb hrs hR hl ht hm hR' hk tree com

/-- C47: there is a simulator that does not know the key. Applied to uniformly distributed bytes, it has the same distribution as the view for a uniformly distributed tape of the hidden party. -/
theorem C47_simulated (hR' : R ∉ F.firstN I.m2) : ∃ sim : Bytes → RepView, ∀ sk, KeyPair I sk pk → ∀ tree com, ∃ φ : Bytes → Bytes,
    Set.BijOn φ {t | t.length = I.tapeSize} {u | u.length = I.tapeSize} ∧
      ∀ t, t.length = I.tapeSize → repView F I sk (slice pk 0 I.ctSize) rs R tree com (tapes.set m t) = .ok (sim (φ t)) := by
  classical
  let sim : Bytes → RepView := fun u =>
    if h : ∃ v sk t tree com, KeyPair I sk pk ∧ t.length = I.tapeSize ∧ repView F I sk (slice pk 0 I.ctSize) rs R tree com (tapes.set m t) = .ok v ∧ v.sent I.lambda = u then h.choose
    else ⟨[], [], [], [], ⟨0, [], [], [], [], []⟩⟩
  refine ⟨sim, fun sk hk tree com => ?_⟩
  obtain ⟨φ, h1, h2⟩ := C47_uniform hI hF hrs hR hl ht hm hR' hk tree com
  refine ⟨φ, h1, fun t hlt => ?_⟩
  obtain ⟨v, hv, hs⟩ := h2 t hlt
  have hex : ∃ v sk t' tree com, KeyPair I sk pk ∧ t'.length = I.tapeSize ∧ repView F I sk (slice pk 0 I.ctSize) rs R tree com (tapes.set m t') = .ok v ∧ v.sent I.lambda = φ t :=
    ⟨v, sk, t, tree, com, hk, hlt, hv, hs⟩
  obtain ⟨sk', t', tree', com', hk', hlt', hv', hs'⟩ := hex.choose_spec
  have e : sim (φ t) = hex.choose := dif_pos hex
  rw [hv, e]
  exact congrArg _ (C47_view hI hF hrs hR hl ht hm hk hk' hlt hlt' hv hv' (hs.trans hs'.symm))

/-- C47: for two keys with the same public key there is a bijection between the tapes of the hidden party that preserves the view. -/
theorem C47_hiding (hR' : R ∉ F.firstN I.m2) {sk sk' : Bytes} (hk : KeyPair I sk pk) (hk' : KeyPair I sk' pk) (tree tree' : SeedTree) (com com' : List Bytes) :
    ∃ φ : Bytes → Bytes, Set.BijOn φ {t | t.length = I.tapeSize} {t | t.length = I.tapeSize} ∧ ∀ t, t.length = I.tapeSize → ∃ v,
      repView F I sk (slice pk 0 I.ctSize) rs R tree com (tapes.set m t) = .ok v ∧ repView F I sk' (slice pk 0 I.ctSize) rs R tree' com' (tapes.set m (φ t)) = .ok v := by
  obtain ⟨sim, h⟩ := C47_simulated hI hF hrs hR hl ht hm (pk := pk) hR'
  obtain ⟨φ, b1, h1⟩ := h sk hk tree com
  obtain ⟨ψ, b2, h2⟩ := h sk' hk' tree' com'
  have hi := b2.invOn_invFunOn
  have hbi : Set.BijOn (Function.invFunOn ψ {t | t.length = I.tapeSize}) {u | u.length = I.tapeSize} {t | t.length = I.tapeSize} := b2.symm hi.symm
  refine ⟨Function.invFunOn ψ {t | t.length = I.tapeSize} ∘ φ, hbi.comp b1, fun t hlt => ⟨_, h1 t hlt, ?_⟩⟩
  have hm' : φ t ∈ {u : Bytes | u.length = I.tapeSize} := b1.1 hlt
  rw [Function.comp_apply, h2 _ (hbi.1 hm')]
  exact congrArg (fun u => Except.ok (sim u)) (hi.2 hm')

end

/-- A concrete case: the key of the known answer test, two parties, all challenges 1, `R = 0x01010101`, the second party hidden, and the first one with a tape of sevens. -/
example : ∃ F, initExtensionField smallInstance.lambda = .ok F ∧ ∃ sim : Bytes → RepView, ∀ sk, KeyPair smallInstance sk katPk → ∀ tree com, ∃ φ : Bytes → Bytes,
    Set.BijOn φ {t | t.length = smallInstance.tapeSize} {u | u.length = smallInstance.tapeSize} ∧ ∀ t, t.length = smallInstance.tapeSize →
      repView F smallInstance sk (slice katPk 0 smallInstance.ctSize) (List.replicate 10 1) 0x01010101 tree com ((List.replicate 2 (List.replicate smallInstance.tapeSize 7)).set 1 t) = .ok (sim (φ t)) := by
  obtain ⟨F, hF⟩ := init_supported small_consistent.lambda
  refine ⟨F, hF, C47_simulated small_consistent hF (fun r hr => ?_) ?_ rfl (fun t ht => ?_) (by decide) ?_⟩
  · rw [List.eq_of_mem_replicate hr]
    unfold Reduced
    decide
  · unfold Reduced
    decide
  · rw [List.eq_of_mem_replicate ht]
    simp
  · have h : (initExtensionField 4 >>= fun F => .ok (decide ((0x01010101 : W64) ∉ F.firstN smallInstance.m2))) = .ok true := by decide +kernel
    have hF' : initExtensionField 4 = .ok F := hF
    rw [hF', ok_bind] at h
    exact of_decide_eq_true (Except.ok.inj h)

example : KeyPair smallInstance katKey katPk := kat_pair _ rfl

/-- The seed of a party of the signer. -/
def signerSeed (X : Xof) (I : Instance) (sk pk msg : Bytes) (e p : Nat) : Bytes := seedAt X (genSeed X I sk pk msg e) (genSalt X I sk pk msg) e (leafNode I.numParties p)

/-- C47: a signature consists of the salt, hashes of the views and of the commitments, the values sent, the commitments of the hidden parties and the seeds of the others. -/
theorem C47_sign (X : Xof) (fuel : Nat) (I : Instance) (hI : Consistent I) (sk pk msg : Bytes) (hk : KeyPair I sk pk) (sig : Signature) (h : sign X fuel I sk pk msg = .ok sig) :
    ∃ (F : FieldState) (Rs : List W64) (ms : List Nat) (views : Nat → RepView), initExtensionField I.lambda = .ok F ∧ Rs.length = I.numRounds ∧ (∀ R ∈ Rs, Reduced I.lambda R ∧ R ∉ F.firstN I.m2) ∧
      (∀ e, ∀ r ∈ (phase1Expand X F I sig.h1).getD e [], Reduced I.lambda r) ∧ ms.length = I.numRounds ∧ (∀ m ∈ ms, m < I.numParties) ∧
      (∀ e < I.numRounds, ∃ tree, SeedTree.ofSeed X (genSeed X I sk pk msg e) I.numParties sig.salt e = .ok tree ∧
        repView F I sk (slice pk 0 I.ctSize) ((phase1Expand X F I sig.h1).getD e []) (Rs.getD e 0) tree ((List.range I.numParties).map fun p => commitSingle X I (signerSeed X I sk pk msg e p) sig.salt e p)
          ((List.range I.numParties).map fun p => genTape X I.tapeSize (signerSeed X I sk pk msg e p) sig.salt e p) = .ok (views e) ∧
        sig.proofs[e]? = some ⟨tree.revealAllBut (ms.getD e 0), commitSingle X I (signerSeed X I sk pk msg e (ms.getD e 0)) sig.salt e (ms.getD e 0), (views e).keyDelta, (views e).tDelta, (views e).pDelta,
          (views e).values.c, (views e).values.a, (views e).values.b⟩) ∧
      sig.h1 = phase1Commit X I sig.salt pk msg ((List.range I.numRounds).map fun e =>
        ⟨(List.range I.numParties).map fun p => commitSingle X I (signerSeed X I sk pk msg e p) sig.salt e p, (views e).broadcasts, (views e).keyDelta, (views e).tDelta⟩) ∧
      phase2Expand X fuel F I (phase2Commit X F I sig.salt sig.h1 ((List.range I.numRounds).map fun e => (views e).pDelta)) (F.firstN I.m2) = .ok Rs ∧
      sig.h3 = phase3Commit X F I sig.salt (phase2Commit X F I sig.salt sig.h1 ((List.range I.numRounds).map fun e => (views e).pDelta)) ((List.range I.numRounds).map fun e => (views e).values) ∧
      phase3Expand X fuel I sig.h3 = .ok ms := by
  obtain ⟨F, hF⟩ := init_supported hI.lambda
  obtain ⟨hok, hb, _⟩ := initExtensionField_ok hF
  obtain ⟨h1, h2, h3, h4⟩ := KeyPair.facts hI hk
  unfold sign at h
  rw [hF, ok_bind] at h
  obtain ⟨runs, hr, heq⟩ := signWith_eq hI (F := F) X fuel sk pk msg h1 h2.ge h3
  rw [heq] at h
  generalize hh2 : proverH2 X F I (genSalt X I sk pk msg) (proverH1 X I (genSalt X I sk pk msg) pk msg runs) runs = h2' at h
  generalize hh1 : proverH1 X I (genSalt X I sk pk msg) pk msg runs = h1' at h hh2
  cases hRs : phase2Expand X fuel F I h2' (F.firstN I.m2) with
  | error e => rw [hRs] at h; cases h
  | ok Rs =>
  rw [hRs] at h
  obtain ⟨Rl, hRr⟩ := phase2Expand_spec X fuel I _ _ Rs hRs
  change (phase3Expand X fuel I _).bind _ = _ at h
  generalize hh3 : proverH3 X F I (slice pk 0 I.ctSize) (genSalt X I sk pk msg) h1' h2' runs Rs = h3' at h
  cases hms : phase3Expand X fuel I h3' with
  | error e => rw [hms] at h; cases h
  | ok ms =>
  rw [hms] at h
  obtain ⟨ml, mlt⟩ := phase3Expand_spec X _ fuel I h3' ms hms
  obtain rfl := Except.ok.inj h
  have hseed : ∀ e p, signerSeed X I sk pk msg e p = partySeed X I (genSalt X I sk pk msg) (runs e).root e p := fun e p => by rw [hr.run e]; rfl
  have hred : ∀ e, AllRed F.byteSize ((phase1Expand X F I h1').getD e []) := phase1Expand_red X h1'
  have hview : ∀ e tree com, repView F I sk (slice pk 0 I.ctSize) ((phase1Expand X F I h1').getD e []) (Rs.getD e 0) tree com
      ((List.range I.numParties).map fun p => genTape X I.tapeSize (signerSeed X I sk pk msg e p) (genSalt X I sk pk msg) e p) =
      .ok (((runs e).ctx X I (genSalt X I sk pk msg) e).view F I (slice pk 0 I.ctSize) ((phase1Expand X F I h1').getD e []) (Rs.getD e 0)) := by
    intro e tree com
    have hf := hr.fits e
    rw [hh1] at hf
    refine repView_of hI h1 h3 (hred e) _ tree com _ (fun p => squeeze_len _ _ _) (funext fun p => ?_) ?_ ?_ hf
    · rw [hseed]; rfl
    · rw [hr.run e]; rfl
    · rw [hr.run e]; rfl
  refine ⟨F, Rs, ms, fun e => ((runs e).ctx X I (genSalt X I sk pk msg) e).view F I (slice pk 0 I.ctSize) ((phase1Expand X F I h1').getD e []) (Rs.getD e 0), hF, Rl,
    fun R h => ⟨hb ▸ (hRr R h).1, fun hm => by
      obtain ⟨k, hk, rfl⟩ := List.getElem_of_mem hm
      rw [length_firstN] at hk
      exact (hRr _ h).2 k hk (getD_of_lt (by rwa [length_firstN])).symm⟩, fun e r h => hb ▸ hred e r h, ml, mlt, fun e he => ?_, ?_, ?_, ?_, hms⟩
  · obtain ⟨tree, ht, _⟩ := signTree hI X (genSalt X I sk pk msg) (genSeed X I sk pk msg e) e (squeeze_len _ _ _)
    refine ⟨tree, ht, hview e tree _, ?_⟩
    have hme : ms.getD e 0 < I.numParties := by
      rw [getD_of_lt (by omega)]
      exact mlt _ (List.getElem_mem _)
    change ((List.range I.numRounds).map _)[e]? = _
    rw [List.getElem?_map, List.getElem?_range he, revealAllBut_revealOf hI X _ _ e ht hme, hseed]
    have hroot : genSeed X I sk pk msg e = (runs e).root := by rw [hr.run e]; rfl
    rw [hroot]
    rfl
  · change h1' = _
    rw [← hh1]
    unfold proverH1
    simp only [hseed]
    rfl
  · change phase2Expand X fuel F I (proverH2 X F I (genSalt X I sk pk msg) h1' runs) _ = _
    rw [hh2, hRs]
  · change h3' = phase3Commit X F I _ (proverH2 X F I (genSalt X I sk pk msg) h1' runs) _
    rw [hh2, ← hh3]
    rfl

example : ∃ sig, sign onesXof 1 smallInstance katKey katPk [1, 2, 3] = .ok sig ∧ ∃ F v tree com tapes, repView F smallInstance katKey (slice katPk 0 smallInstance.ctSize)
    ((phase1Expand onesXof F smallInstance sig.h1).getD 0 []) 0x01010101 tree com tapes = .ok v ∧ (sig.proofs[0]?).map (·.pDelta) = some v.pDelta := by
  obtain ⟨sig, h, _⟩ := kat_signs [1, 2, 3]
  obtain ⟨F, Rs, ms, views, hF, _, _, _, _, _, hv, _, hp, _⟩ := C47_sign onesXof 1 smallInstance small_consistent katKey katPk [1, 2, 3] (kat_pair _ rfl) sig h
  obtain ⟨tree, _, h1, h2⟩ := hv 0 (by decide)
  rw [(ones_loops hF).1] at hp
  obtain rfl := Except.ok.inj hp
  exact ⟨sig, h, F, _, _, _, _, h1, by rw [h2]; rfl⟩

end Banquet.Props
