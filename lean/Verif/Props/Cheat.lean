import Verif.Spec.Cheat
import Verif.Spec.Key
import Verif.Proofs.Accept
import Verif.Props.Soundness
import Verif.Props.Aes
import Verif.Props.Sign
import Mathlib.Data.Set.Finite.List

/-! C52: soundness of one repetition. -/

namespace Banquet.Props

open Spec Polynomial FieldOk

/-- What follows from two openings: the broadcasts of all parties and the values of all parties are as computed from their tapes. -/
theorem opens_true {I : Instance} (hI : Consistent I) {F : FieldState} [FieldOk F] {r : Rep} (hm2 : 2 * I.m2 + 1 ≤ 21845) {pt ct : Bytes} {rs : List W64} (hrs : AllRed F.byteSize rs) (hd : AllRed F.byteSize r.pDelta) (hb : F.byteSize = I.lambda) (hr : r.Sized I)
    {R : W64} (hR : Reduced F.byteSize R) {m m' : Nat} (hne : m ≠ m') (h : Opens F.byteSize I pt ct r rs R m m') :
    xorOf I.ctSize ((List.range I.numParties).map fun p => (r.ctx.out I pt p).2) = ct ∧ (r.ctx.prodPoly F I pt rs).eval (val F.byteSize R) = (r.ctx.polyP F I rs).eval (val F.byteSize R) := by
  obtain ⟨cR, aR, bR, bc, c, a, b, h1, h2, h3⟩ := h
  have hbc : ∀ p < I.numParties, bc p = (r.ctx.out I pt p).2 := by
    intro p hp
    rw [r.aes_ctx hI hr]
    by_cases hpm : p = m
    · exact h2.bcOpened p hp (by rw [hpm]; exact hne)
    · exact h1.bcOpened p hp hpm
  have hc : ∀ p < I.numParties, c p = r.ctx.pc F I rs R p := by
    intro p hp
    refine evalAt_unique hm2 ?_ (Rep.evalAt_c hb hm2 hrs hd hR p) fun _ _ => rfl
    by_cases hpm : p = m
    · exact h2.cOpened p hp (by rw [hpm]; exact hne)
    · exact h1.cOpened p hp hpm
  have ha : ∀ p < I.numParties, ∀ j < I.m1, a p j = r.ctx.a F I pt rs R p j := by
    intro p hp j hj
    refine evalAt_unique (by omega) ?_ (Rep.evalAt_a hb hI hr hm2 hrs pt hR p hj) fun _ _ => rfl
    by_cases hpm : p = m
    · exact h2.aOpened p hp (by rw [hpm]; exact hne) j hj
    · exact h1.aOpened p hp hpm j hj
  have hbb : ∀ p < I.numParties, ∀ j < I.m1, b p j = r.ctx.b F I R p j := by
    intro p hp j hj
    refine evalAt_unique (by omega) ?_ (Rep.evalAt_b hb hr hm2 hR p hj) fun _ _ => rfl
    by_cases hpm : p = m
    · exact h2.bOpened p hp (by rw [hpm]; exact hne) j hj
    · exact h1.bOpened p hp hpm j hj
  constructor
  · rw [← h1.bcHidden.2]
    congr 1
    exact List.map_congr_left fun p hp => (hbc p (List.mem_range.1 hp)).symm
  · have sc : val F.byteSize cR = (r.ctx.polyP F I rs).eval (val F.byteSize R) := by
      rw [← (Ctx.val_sumC I r.ctx rs R hR hrs hd).2, ← h1.cHidden.2]
      unfold Ctx.sumC
      rw [val_sum_range, val_zero, zero_add]
      exact Finset.sum_congr rfl fun p hp => by rw [hc p (Finset.mem_range.1 hp)]
    have sa : ∀ j < I.m1, val F.byteSize (aR.getD j 0) = (r.ctx.polyS F I pt rs j).eval (val F.byteSize R) := by
      intro j hj
      rw [← (Ctx.val_sumA I pt r.ctx rs R hR hj).2, ← (h1.aHidden j hj).2]
      unfold Ctx.sumA
      rw [val_sum_range, val_zero, zero_add]
      exact Finset.sum_congr rfl fun p hp => by rw [ha p (Finset.mem_range.1 hp) j hj]
    have sb : ∀ j < I.m1, val F.byteSize (bR.getD j 0) = (r.ctx.polyT F I j).eval (val F.byteSize R) := by
      intro j hj
      rw [← (Ctx.val_sumB I r.ctx R hR hj).2, ← (h1.bHidden j hj).2]
      unfold Ctx.sumB
      rw [val_sum_range, val_zero, zero_add]
      exact Finset.sum_congr rfl fun p hp => by rw [hbb p (Finset.mem_range.1 hp) j hj]
    rw [← sc, ← h3]
    unfold Ctx.prodPoly
    rw [eval_finsetSum]
    exact Finset.sum_congr rfl fun j hj => by rw [eval_mul, sa j (Finset.mem_range.1 hj), sb j (Finset.mem_range.1 hj)]

/-- C52: if the key shared by the parties is not a key for the public key, then except for `|F|^(m1 - 1)` of the `|F|^m1` challenges `r`, whatever corrections of `P` are sent, except for `2 m2` challenges `R`
no values and shares can be opened for two different hidden parties. -/
theorem C52_repetition (I : Instance) (hI : Consistent I) (pk : Bytes) (hpk : pk.length = 2 * I.ctSize) (r : Rep)
    (h1 : r.keyDelta.length = I.aes.keySize) (h2 : r.tDelta.length = I.aes.numSboxes) (h3 : ∀ p, (r.tape p).length = I.tapeSize) (hk : ¬ KeyPair I (r.wholeKey I) pk) :
    {rs : List W64 | Elements I.lambda I.m1 rs ∧ ∃ d, Elements I.lambda (I.m2 + 1) d ∧
      2 * I.m2 < {R : W64 | Reduced I.lambda R ∧ ∃ m m', m < I.numParties ∧ m' < I.numParties ∧ m ≠ m' ∧
        Opens I.lambda I (slice pk 0 I.ctSize) (slice pk I.ctSize I.ctSize) { r with pDelta := d } rs R m m'}.ncard}.ncard ≤ (2 ^ (8 * I.lambda)) ^ (I.m1 - 1) := by
  obtain ⟨F, hF⟩ := init_supported hI.lambda
  obtain ⟨hok, hb, _⟩ := initExtensionField_ok hF
  obtain ⟨hv, e4, h16⟩ := consistent_variant hI
  have hF' : initExtensionField F.byteSize = .ok F := by rw [hb]; exact hF
  rw [← hb]
  have hm2 := hI.points
  have hN : 0 < I.numParties := by have := (parties_bounds hI).1; omega
  have hr : ∀ d, ({ r with pDelta := d } : Rep).Sized I := fun d => ⟨h1, h2, h3⟩
  have gk : ∀ p, (r.ctx.key I p).length = I.aes.keySize := fun p => by rw [r.key_ctx ⟨h1, h2, h3⟩]; simp [Rep.key]
  have gt : ∀ p, (r.ctx.t I p).length = I.aes.numSboxes := fun p => by rw [r.t_ctx ⟨h1, h2, h3⟩]; simp [Rep.t]
  obtain ⟨a1, a2⟩ := Ctx.all_eq hI r.ctx (slice pk 0 I.ctSize) gk gt
  have ewk : xorOf I.aes.keySize ((List.range I.numParties).map (r.ctx.key I)) = r.wholeKey I := by
    unfold Rep.wholeKey
    rw [List.map_congr_left fun p _ => r.key_ctx ⟨h1, h2, h3⟩ p]
  rw [ewk] at a1 a2
  by_cases hct : xorOf I.ctSize ((List.range I.numParties).map fun p => (r.ctx.out I (slice pk 0 I.ctSize) p).2) = slice pk I.ctSize I.ctSize
  · -- some S-box is wrong
    obtain ⟨i, hi, hbad⟩ : ∃ i < I.m1 * I.m2, Spec.Aes.mul (r.ctx.sAll I (slice pk 0 I.ctSize) i) (r.ctx.tAll I i) ≠ 1 := by
      by_contra hcon
      push Not at hcon
      have hs : ∀ i < I.aes.numSboxes, Spec.Aes.mul ((aesParty I.aes.keySize true (r.wholeKey I) (xorOf I.aes.numSboxes ((List.range I.numParties).map (r.ctx.t I))) (slice pk 0 I.ctSize)).1.getD i 0)
          ((xorOf I.aes.numSboxes ((List.range I.numParties).map (r.ctx.t I))).getD i 0) = 1 := by
        intro i hi
        rw [← a1, getD_xorOf _ _ hi, getD_xorOf _ _ hi]
        exact hcon i (by rw [hI.sboxes]; exact hi)
      have hrel := C49_relation _ _ _ hv (r.wholeKey I) (xorOf I.aes.numSboxes ((List.range I.numParties).map (r.ctx.t I))) (slice pk 0 I.ctSize) _ _ (by rw [e4]) hs
      rw [← a2, hct] at hrel
      refine hk ⟨length_xorOf _ _, slice pk 0 I.ctSize, ?_, slice_length (by omega), hrel.2⟩
      rw [← hrel.1]
      unfold slice
      rw [List.drop_zero, List.take_of_length_le (l := pk.drop I.ctSize) (by rw [List.length_drop]; omega), List.take_append_drop]
    refine le_trans (Set.ncard_le_ncard ?_ ?_) (C46_poly hF' I.m1 I.m2 (r.ctx.sAll I (slice pk 0 I.ctSize)) (r.ctx.tAll I) i hi hbad)
    · rintro rs ⟨hrs, d, hd, hlt⟩
      refine ⟨hrs, Ctx.polyS F I (slice pk 0 I.ctSize) ({ r with pDelta := d } : Rep).ctx rs, Ctx.polyT F I ({ r with pDelta := d } : Rep).ctx, Ctx.polyP F I ({ r with pDelta := d } : Rep).ctx rs, fun j hj k hk => ⟨?_, ?_⟩, fun k hk => ?_, ?_⟩
      · refine ((Ctx.polyS_interp (F := F) I _ ({ r with pDelta := d } : Rep).ctx rs hm2 hrs.2 hj).2 k (by omega)).trans ?_
        exact (if_pos hk).trans rfl
      · refine ((Ctx.polyT_interp (F := F) I ({ r with pDelta := d } : Rep).ctx hm2 hj).2 k (by omega)).trans ?_
        exact (if_pos hk).trans rfl
      · refine ((Ctx.polyP_interp (F := F) I ({ r with pDelta := d } : Rep).ctx rs hm2 hN hrs.2 hd.2).2 k (by omega)).trans ?_
        exact if_pos hk
      · by_contra hne
        refine absurd hlt (not_lt.2 (le_trans (words_card fun R hR => ?_) (agree_card
          (degree_sum_mul (fun j hj => (Ctx.polyS_interp (F := F) I (slice pk 0 I.ctSize) ({ r with pDelta := d } : Rep).ctx rs hm2 hrs.2 hj).1)
            fun j hj => (Ctx.polyT_interp (F := F) I ({ r with pDelta := d } : Rep).ctx hm2 hj).1) (Ctx.polyP_interp (F := F) I ({ r with pDelta := d } : Rep).ctx rs hm2 hN hrs.2 hd.2).1 (Ne.symm hne))))
        obtain ⟨hR, m, m', hm, _, hmm, ho⟩ := hR
        exact ⟨hR, (opens_true (r := { r with pDelta := d }) hI hm2 hrs.2 hd.2 hb (hr d) hR hmm ho).2⟩
    · have : Finite W64 := Finite.of_injective BitVec.toFin fun a b h => BitVec.eq_of_toFin_eq h
      exact (List.finite_length_eq W64 I.m1).subset fun rs h => h.1.1
  · -- the broadcasts do not add up to the ciphertext
    refine le_trans (le_of_eq ?_) (Nat.zero_le _)
    refine (congrArg Set.ncard (Set.eq_empty_iff_forall_notMem.2 ?_)).trans (Set.ncard_empty _)
    rintro rs ⟨hrs, d, hd, hlt⟩
    refine absurd hlt (not_lt.2 (le_of_eq_of_le ((congrArg Set.ncard (Set.eq_empty_iff_forall_notMem.2 ?_)).trans (Set.ncard_empty _)) (Nat.zero_le _)))
    · rintro R ⟨hR, m, m', hm, _, hmm, ho⟩
      exact hct (opens_true (r := { r with pDelta := d }) hI hm2 hrs.2 hd.2 hb (hr d) hR hmm ho).1

/-- Parties with zero tapes and zero corrections share the zero key, which is not the key of the test public key. -/
def zeroRep : Rep := ⟨List.replicate 16 0, List.replicate 200 0, [], fun _ => List.replicate smallInstance.tapeSize 0⟩

theorem zero_not_key : ¬KeyPair smallInstance (zeroRep.wholeKey smallInstance) katPk := by
  rintro ⟨_, pt, h, hl, _⟩
  have e : pt = katPk.take 16 := by
    rw [h, List.take_left' (show pt.length = 16 from hl)]
  rw [e] at h
  revert h
  decide +kernel

/-- At most `|F|^9` of the `|F|^10` challenges help the prover with the zero key. -/
example : {rs : List W64 | Elements 4 10 rs ∧ ∃ d, Elements 4 21 d ∧
      40 < {R : W64 | Reduced 4 R ∧ ∃ m m', m < 2 ∧ m' < 2 ∧ m ≠ m' ∧ Opens 4 smallInstance (slice katPk 0 16) (slice katPk 16 16) { zeroRep with pDelta := d } rs R m m'}.ncard}.ncard ≤ (2 ^ 32) ^ 9 :=
  C52_repetition smallInstance small_consistent katPk rfl zeroRep List.length_replicate List.length_replicate (fun _ => List.length_replicate) zero_not_key

end Banquet.Props
