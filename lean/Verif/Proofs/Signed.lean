import Verif.Spec.Signed
import Verif.Proofs.SignFull
import Verif.Proofs.AcceptHash
import Verif.Proofs.Fuel

/-! The closed form of `signWith` in terms of the specification of a signature. -/

namespace Banquet

open Polynomial Spec FieldOk Spec.Aes

section
variable {F : FieldState} [hF : FieldOk F] {I : Instance} (hI : Consistent I) (hb : F.byteSize = I.lambda) {r : Rep} (hr : r.Sized I) (hm2 : 2 * I.m2 + 1 ≤ 21845) {pt : Bytes} {rs : List W64} (hrs : AllRed F.byteSize rs)
include hb hm2

include hI hr hrs in
theorem whole_s {j : Nat} (hj : j < I.m1) : Interpolates F.byteSize (I.m2 + 1) (r.wholeSVal F.byteSize I pt rs j) (r.ctx.polyS F I pt rs j) :=
  interpolates_congr (interpolates_sum _ _ fun p _ => interpPoly_ok (by omega) _) fun k hk => Finset.sum_congr rfl fun p _ => Rep.sVal_ctx hb hI hr hrs pt p hj k hk

include hr in
theorem whole_t {j : Nat} (hj : j < I.m1) : Interpolates F.byteSize (I.m2 + 1) (r.wholeTVal F.byteSize I j) (r.ctx.polyT F I j) :=
  interpolates_congr (interpolates_sum _ _ fun p _ => interpPoly_ok (by omega) _) fun k hk => Finset.sum_congr rfl fun p _ => Rep.tVal_ctx hb hr p hj k hk

include hrs in
theorem whole_p (hd : AllRed F.byteSize r.pDelta) : Interpolates F.byteSize (2 * I.m2 + 1) (r.wholePVal F.byteSize I rs) (r.ctx.polyP F I rs) :=
  interpolates_congr (interpolates_sum _ _ fun _ _ => interpPoly_ok hm2 _) fun k hk => Finset.sum_congr rfl fun p _ => Rep.pVal_ctx hb hrs hd p k hk

end

section
variable {I : Instance} (hI : Consistent I) {F : FieldState} [hF : FieldOk F] (hb : F.byteSize = I.lambda) (X : Xof) {sk pk : Bytes} (msg : Bytes) (hsk : sk.length = I.aes.keySize)
  (h0 : 0 ∉ sboxInputs (I.aes.keySize / 4) I.aes.numBlocks sk (slice pk 0 I.ctSize)) {runs : Nat → Run} (hr : SignerRuns X F I sk pk msg runs)

/-- The repetition of the signer. -/
theorem ownRep_ctx (pr : Proof) (e : Nat) (hroot : (runs e).root = genSeed X I sk pk msg e) (h1 : pr.skDelta = (runs e).skDelta) (h2 : pr.tDelta = (runs e).tDelta) (h3 : pr.pDelta = (runs e).pDelta) :
    (ownRep X I sk pk msg e pr).ctx = (runs e).ctx X I (genSalt X I sk pk msg) e := by
  unfold ownRep Rep.ctx Run.ctx
  rw [h1, h2, h3, Ctx.mk.injEq]
  refine ⟨rfl, rfl, rfl, funext fun p => ?_⟩
  have hl : (partySeed X I (genSalt X I sk pk msg) (runs e).root e p).length = I.seedSize := by
    unfold partySeed
    rw [seedAt_length, hroot]
    exact squeeze_len _ _ _
  unfold genTape tapeStream
  rw [hl, hroot]
  rfl

include hI hsk h0 hr hb in
/-- The corrections of the signer are honest. -/
theorem ownRep_honest (hct : slice pk I.ctSize I.ctSize = encrypt (I.aes.keySize / 4) I.aes.numBlocks sk (slice pk 0 I.ctSize)) (pr : Proof) (e : Nat) (h1 : pr.skDelta = (runs e).skDelta) (h2 : pr.tDelta = (runs e).tDelta) (h3 : pr.pDelta = (runs e).pDelta) :
    (ownRep X I sk pk msg e pr).Honest F.byteSize I sk (slice pk 0 I.ctSize) (slice pk I.ctSize I.ctSize) ((phase1Expand X F I (proverH1 X I (genSalt X I sk pk msg) pk msg runs)).getD e []) := by
  have hroot : (runs e).root = genSeed X I sk pk msg e := by rw [hr.run e]; rfl
  have hc := ownRep_ctx X msg pr e hroot h1 h2 h3
  have hs := hr.sized e
  have hsz : (ownRep X I sk pk msg e pr).Sized I := ⟨(congrArg List.length h1).trans hs.skDelta, (congrArg List.length h2).trans hs.tDelta, fun _ => squeeze_len _ _ _⟩
  have hrs := phase1Expand_red (I := I) (F := F) X (proverH1 X I (genSalt X I sk pk msg) pk msg runs) e
  obtain ⟨saved, es, hsl, hparty, hmul⟩ := saved_facts hI sk (slice pk 0 I.ctSize) h0
  have hsums := honest_sums hI X sk saved.2 (slice pk 0 I.ctSize) (genSalt X I sk pk msg) (genSeed X I sk pk msg e) e (runs e).pDelta hsk hsl
  have hkey : xorOf I.aes.keySize ((List.range I.numParties).map (((signRun X I sk saved.2 (genSalt X I sk pk msg) (genSeed X I sk pk msg e) e (runs e).pDelta).ctx X I (genSalt X I sk pk msg) e).key I)) = sk :=
    xorOf_fix (by have := (parties_bounds hI).1; omega) sk hsk _ fun p => (tape_facts X _ _ e p).1
  have hrun : signRun X I sk saved.2 (genSalt X I sk pk msg) (genSeed X I sk pk msg e) e (runs e).pDelta = runs e := by rw [← es]; exact (hr.run e).symm
  rw [hrun, ← hc] at hsums hkey
  rw [hparty] at hsums
  have eS : (ownRep X I sk pk msg e pr).wholeS I (slice pk 0 I.ctSize) = saved.1 := by
    rw [← hsums.2.1]
    unfold Rep.wholeS
    exact congrArg _ (List.map_congr_left fun p _ => by rw [Rep.aes_ctx hI hsz])
  have eT : (ownRep X I sk pk msg e pr).wholeT I = saved.2 := by
    refine Eq.trans ?_ hsums.1
    unfold Rep.wholeT
    exact congrArg _ (List.map_congr_left fun p _ => by rw [Rep.t_ctx hsz])
  refine ⟨?_, ?_, ?_, ?_⟩
  · refine Eq.trans ?_ hkey
    unfold Rep.wholeKey
    exact congrArg _ (List.map_congr_left fun p _ => by rw [Rep.key_ctx hsz])
  · intro i hi
    rw [eS, eT, ← aesMul_eq]
    exact hmul i hi
  · rw [hct]
    refine Eq.trans ?_ hsums.2.2
    unfold Rep.wholeCt
    exact congrArg _ (List.map_congr_left fun p _ => by rw [Rep.aes_ctx hI hsz])
  · intro S T P hS hT hP
    have hm2 := hI.points
    rw [interpolates_unique hm2 hP (whole_p hb hm2 hrs (show AllRed F.byteSize pr.pDelta by rw [h3]; exact hr.red e)) fun _ _ => rfl]
    have hfit := hr.fits e
    rw [← hc] at hfit
    have hpd : (ownRep X I sk pk msg e pr).ctx.pDelta = (runs e).pDelta := h3
    rw [← hpd] at hfit
    rw [← honest_poly hm2 (by have := (parties_bounds hI).1; omega) hrs hfit ?_]
    · unfold Ctx.prodPoly
      refine Finset.sum_congr rfl fun j hj => ?_
      have hj := Finset.mem_range.1 hj
      rw [interpolates_unique (by omega) (hS j hj) (whole_s hI hb hsz hm2 hrs hj) fun _ _ => rfl, interpolates_unique (by omega) (hT j hj) (whole_t hb hsz hm2 hj) fun _ _ => rfl]
    · intro i hi
      rw [hI.sboxes] at hi
      have g1 : (ownRep X I sk pk msg e pr).ctx.sAll I (slice pk 0 I.ctSize) i = saved.1.getD i 0 := by
        rw [← hsums.2.1, getD_xorOf _ _ hi]
        rfl
      have g2 : (ownRep X I sk pk msg e pr).ctx.tAll I i = saved.2.getD i 0 := by
        refine Eq.trans ?_ (congrArg (fun l => List.getD l i 0) hsums.1)
        rw [getD_xorOf _ _ hi]
        rfl
      rw [g1, g2]
      exact hmul i hi

end

/-! ## The corrections are determined by the tapes -/

/-- The correction is determined by the sum. -/
theorem delta_unique {n N : Nat} (hN : 0 < N) (f : Nat → Nat → Byte) {d d' : Bytes} (hd : d.length = n) (hd' : d'.length = n)
    (h : xorOf n ((List.range N).map fun p => (List.range n).map fun i => f p i ^^^ (if p = 0 then d.getD i 0 else 0)) =
      xorOf n ((List.range N).map fun p => (List.range n).map fun i => f p i ^^^ (if p = 0 then d'.getD i 0 else 0))) : d = d' := by
  refine ext_getD (n := n) 0 hd hd' fun i hi => ?_
  have key : ∀ d : Bytes, (xorOf n ((List.range N).map fun p => (List.range n).map fun i => f p i ^^^ (if p = 0 then d.getD i 0 else 0))).getD i 0 =
      d.getD i 0 ^^^ (List.range N).foldl (fun a p => a ^^^ f p i) 0 := by
    intro d
    rw [getD_xorOf _ _ hi, ← fold_fix_first N hN]
    refine foldl_congr_mem _ _ _ (fun acc p _ => ?_) _
    rw [getD_range_map _ _ _ _ hi]
    split
    · rw [BitVec.xor_comm (f p i)]
    · exact congrArg _ BitVec.xor_zero
  have := congrArg (fun l : Bytes => l.getD i 0) h
  simp only [key] at this
  exact (BitVec.xor_left_inj _).1 this

section
variable {I : Instance} (hI : Consistent I) {F : FieldState} [hF : FieldOk F] (hb : F.byteSize = I.lambda) {r r' : Rep} (hr : r.Sized I) (hr' : r'.Sized I) (ht : r.tape = r'.tape) {sk pt ct : Bytes}
include hI hr hr' ht

theorem honest_unique {rs rs' : List W64} (h : r.Honest F.byteSize I sk pt ct rs) (h' : r'.Honest F.byteSize I sk pt ct rs') : r.keyDelta = r'.keyDelta ∧ r.tDelta = r'.tDelta := by
  have hN : 0 < I.numParties := by have := (parties_bounds hI).1; omega
  have hS : ∀ {r : Rep} {rs : List W64}, r.Sized I → r.Honest F.byteSize I sk pt ct rs → r.wholeS I pt = codeInputs (I.aes.keySize / 4) (nBlocks I.aes.keySize) sk pt := by
    intro r rs hr h
    have := (Ctx.all_eq hI r.ctx pt (fun p => by rw [r.key_ctx hr]; simp [Rep.key]) (fun p => by rw [r.t_ctx hr]; simp [Rep.t])).1
    have e1 : xorOf I.aes.keySize ((List.range I.numParties).map (r.ctx.key I)) = sk := by
      rw [← h.key]
      exact congrArg _ (List.map_congr_left fun p _ => r.key_ctx hr p)
    have e2 : xorOf I.aes.numSboxes ((List.range I.numParties).map (r.ctx.t I)) = r.wholeT I := congrArg _ (List.map_congr_left fun p _ => r.t_ctx hr p)
    have e3 : xorOf I.aes.numSboxes ((List.range I.numParties).map fun p => (r.ctx.out I pt p).1) = r.wholeS I pt := congrArg _ (List.map_congr_left fun p _ => by rw [r.aes_ctx hI hr])
    rw [e1, e2, e3] at this
    rw [this]
    refine (aesParty_conv _ (keySize_cases hI) sk (r.wholeT I) pt fun i hi => ?_).1
    rw [← this, aesMul_eq]
    exact h.sboxes i (by rw [sboxCount_eq hI]; exact hi)
  constructor
  · refine delta_unique hN (fun p i => (r.tape p).getD i 0) hr.keyDelta hr'.keyDelta ?_
    have e := h.key.trans h'.key.symm
    unfold Rep.wholeKey Rep.key at e
    rw [← ht] at e
    exact e
  · have hT : r.wholeT I = r'.wholeT I := by
      refine ext_getD (n := I.aes.numSboxes) 0 (length_xorOf _ _) (length_xorOf _ _) fun i hi => ?_
      have g := h.sboxes i hi
      have g' := h'.sboxes i hi
      rw [hS hr h, ← aesMul_eq] at g
      rw [hS hr' h', ← aesMul_eq] at g'
      have v := congrArg (fun b => val F.byteSize (F.lift b)) g
      have v' := congrArg (fun b => val F.byteSize (F.lift b)) g'
      simp only [val_lift_mul, val_lift_one] at v v'
      refine lift_inj (F := F) (val_inj (reduced_lift _) (reduced_lift _) ?_)
      have h0 : val F.byteSize (F.lift ((codeInputs (I.aes.keySize / 4) (nBlocks I.aes.keySize) sk pt).getD i 0)) ≠ 0 := fun h => by rw [h, zero_mul] at v; exact zero_ne_one v
      exact mul_left_cancel₀ h0 (v.trans v'.symm)
    refine delta_unique hN (fun p i => (r.tape p).getD (I.aes.keySize + i) 0) hr.tDelta hr'.tDelta ?_
    unfold Rep.wholeT Rep.t at hT
    rw [← ht] at hT
    exact hT

include hb in
theorem honest_unique_p {rs : List W64} (hrs : AllRed F.byteSize rs) (hk : r.keyDelta = r'.keyDelta) (htd : r.tDelta = r'.tDelta) (hd : Elements F.byteSize (I.m2 + 1) r.pDelta) (hd' : Elements F.byteSize (I.m2 + 1) r'.pDelta)
    (h : r.Honest F.byteSize I sk pt ct rs) (h' : r'.Honest F.byteSize I sk pt ct rs) : r.pDelta = r'.pDelta := by
  have hN : 0 < I.numParties := by have := (parties_bounds hI).1; omega
  have hm2 := hI.points
  have e := h.product _ _ _ (fun j hj => whole_s hI hb hr hm2 hrs hj) (fun j hj => whole_t hb hr hm2 hj) (whole_p hb hm2 hrs hd.2)
  have e' := h'.product _ _ _ (fun j hj => whole_s hI hb hr' hm2 hrs hj) (fun j hj => whole_t hb hr' hm2 hj) (whole_p hb hm2 hrs hd'.2)
  obtain ⟨kd, td, pd, tape⟩ := r
  obtain ⟨kd', td', pd', tape'⟩ := r'
  dsimp only at ht hk htd hd hd'
  subst ht hk htd
  have ee : Ctx.polyP F I (Rep.ctx ⟨kd, td, pd, tape⟩) rs = Ctx.polyP F I (Rep.ctx ⟨kd, td, pd', tape⟩) rs := e.trans e'.symm
  refine ext_getD (n := I.m2 + 1) 0 hd.1 hd'.1 fun k hk => val_inj (AllRed.getD (F := F) hd.2 k) (AllRed.getD (F := F) hd'.2 k) ?_
  have v := (Ctx.polyP_interp (F := F) I (Rep.ctx ⟨kd, td, pd, tape⟩) rs hm2 hN hrs hd.2).2 (I.m2 + k) (by omega)
  have v' := (Ctx.polyP_interp (F := F) I (Rep.ctx ⟨kd, td, pd', tape⟩) rs hm2 hN hrs hd'.2).2 (I.m2 + k) (by omega)
  rw [ee, v'] at v
  simp only [show ¬I.m2 + k < I.m2 by omega, if_false, show I.m2 + k - I.m2 = k by omega] at v
  exact (add_right_cancel v).symm

end

/-! ## More iterations do not change the signature -/

theorem bind_mono {α β : Type} {x y : M α} {f g : α → M β} (hx : ∀ a, x = .ok a → y = .ok a) (hf : ∀ a r, f a = .ok r → g a = .ok r) {r : β} (h : x >>= f = .ok r) : y >>= g = .ok r := by
  cases hxa : x with
  | error e => rw [hxa] at h; cases h
  | ok a =>
    rw [hxa] at h
    rw [hx a hxa]
    exact hf a r h

theorem sign_mono (X : Xof) {fuel fuel' : Nat} (hf : fuel ≤ fuel') (I : Instance) (sk pk msg : Bytes) (sig : Signature) (h : sign X fuel I sk pk msg = .ok sig) : sign X fuel' I sk pk msg = .ok sig := by
  unfold sign at h ⊢
  refine bind_mono (fun _ h => h) (fun F r h => ?_) h
  unfold signWith at h ⊢
  refine bind_mono (fun _ h => h) (fun _ r h => ?_) h
  refine bind_mono (fun _ h => h) (fun _ r h => ?_) h
  refine bind_mono (fun _ h => h) (fun _ r h => ?_) h
  refine bind_mono (fun _ h => h) (fun _ r h => ?_) h
  refine bind_mono (fun _ h => h) (fun _ r h => ?_) h
  refine bind_mono (fun _ h => h) (fun _ r h => ?_) h
  refine bind_mono (fun _ h => h) (fun _ r h => ?_) h
  refine bind_mono (fun Rs h => phase2Expand_mono X F I _ _ hf Rs h) (fun _ r h => ?_) h
  refine bind_mono (fun _ h => h) (fun _ r h => ?_) h
  exact bind_mono (fun ms h => phase3Expand_mono X I _ hf ms h) (fun _ r h => h) h

theorem sign_unique {X : Xof} {fuel fuel' : Nat} {I : Instance} {sk pk msg : Bytes} {sig sig' : Signature} (h : sign X fuel I sk pk msg = .ok sig) (h' : sign X fuel' I sk pk msg = .ok sig') : sig = sig' :=
  Except.ok.inj ((sign_mono X (le_max_left fuel fuel') I sk pk msg sig h).symm.trans (sign_mono X (le_max_right fuel fuel') I sk pk msg sig' h'))

end Banquet
