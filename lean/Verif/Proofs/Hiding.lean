import Verif.Spec.View
import Verif.Proofs.SignFull
import Verif.Proofs.Accept
import Verif.Proofs.ForgeAes

/-! One repetition of the signer for given tapes: the values sent determine the view, and the tape of the hidden party determines the values sent and conversely. -/

namespace Banquet

open Spec Polynomial FieldOk Spec.Aes

/-- The correction of the first share for the value `x`. -/
def tapeDelta (I : Instance) (tape : Nat → Bytes) (start len : Nat) (x : Bytes) : Bytes :=
  ((List.range I.numParties).map fun p => tapeBytes (tape p) start len).foldl (fun d s => xorBytes s d) x

/-- Corrections of an honest signer and the tapes. -/
def honestCtx (I : Instance) (sk t : Bytes) (tape : Nat → Bytes) (d : List W64) : Ctx :=
  ⟨tapeDelta I tape 0 I.aes.keySize sk, tapeDelta I tape I.aes.keySize I.aes.numSboxes t, d, tape⟩

theorem tapeBytes_len {tape : Bytes} {start len : Nat} (h : start + len ≤ tape.length) : (tapeBytes tape start len).length = len := by
  unfold tapeBytes slice
  rw [List.length_take, List.length_drop]
  omega

section
variable {I : Instance} {tape : Nat → Bytes} (ht : ∀ p, (tape p).length = I.tapeSize)
include ht

theorem tape_parts (p : Nat) : (tapeBytes (tape p) 0 I.aes.keySize).length = I.aes.keySize ∧ (tapeBytes (tape p) I.aes.keySize I.aes.numSboxes).length = I.aes.numSboxes := by
  have := ht p
  unfold Instance.tapeSize at this
  exact ⟨tapeBytes_len (by omega), tapeBytes_len (by omega)⟩

omit ht in
theorem tapeDelta_length (start len : Nat) (x : Bytes) (hx : x.length = len) (h : ∀ p, (tapeBytes (tape p) start len).length = len) : (tapeDelta I tape start len x).length = len := by
  have hm : ∀ b ∈ (List.range I.numParties).map (fun p => tapeBytes (tape p) start len), b.length = len := by
    intro b hb
    obtain ⟨p, _, rfl⟩ := List.mem_map.1 hb
    exact h p
  unfold tapeDelta
  rw [List.foldl_map, foldl_xorBytes_swap _ _ h x hx]
  exact foldl_xorBytes_length _ x hx hm

/-- What the shares add up to. -/
theorem honestCtx_sums (hI : Consistent I) (sk t pt : Bytes) (d : List W64) (hsk : sk.length = I.aes.keySize) (hts : t.length = I.aes.numSboxes) :
    xorOf I.aes.numSboxes ((List.range I.numParties).map ((honestCtx I sk t tape d).t I)) = t ∧
    xorOf I.aes.numSboxes ((List.range I.numParties).map fun p => ((honestCtx I sk t tape d).out I pt p).1) = (aesParty I.aes.keySize true sk t pt).1 ∧
    xorOf I.ctSize ((List.range I.numParties).map fun p => ((honestCtx I sk t tape d).out I pt p).2) = (aesParty I.aes.keySize true sk t pt).2 := by
  have hN : 0 < I.numParties := by have := (parties_bounds hI).1; omega
  have f1 := fun p => (tape_parts ht p).1
  have f2 := fun p => (tape_parts ht p).2
  have l1 := tapeDelta_length (I := I) 0 I.aes.keySize sk hsk f1
  have l2 := tapeDelta_length (I := I) I.aes.keySize I.aes.numSboxes t hts f2
  have k1 : xorOf I.aes.keySize ((List.range I.numParties).map ((honestCtx I sk t tape d).key I)) = sk := xorOf_fix hN sk hsk _ f1
  have k2 : xorOf I.aes.numSboxes ((List.range I.numParties).map ((honestCtx I sk t tape d).t I)) = t := xorOf_fix hN t hts _ f2
  have g1 : ∀ p, ((honestCtx I sk t tape d).key I p).length = I.aes.keySize := by
    intro p
    unfold Ctx.key
    split
    · rw [length_xorBytes]
      exact (congrArg₂ min l1 (f1 p)).trans (Nat.min_self _)
    · exact f1 p
  have g2 : ∀ p, ((honestCtx I sk t tape d).t I p).length = I.aes.numSboxes := by
    intro p
    unfold Ctx.t
    split
    · rw [length_xorBytes]
      exact (congrArg₂ min l2 (f2 p)).trans (Nat.min_self _)
    · exact f2 p
  have := Ctx.all_eq hI (honestCtx I sk t tape d) pt g1 g2
  rw [k1, k2] at this
  exact ⟨k2, this⟩

end

/-- The tapes as a function, with zero tapes for further parties. -/
def tapeFun (I : Instance) (tapes : List Bytes) (p : Nat) : Bytes := tapes.getD p (List.replicate I.tapeSize 0)

theorem tapeFun_length {I : Instance} {tapes : List Bytes} (h : ∀ t ∈ tapes, t.length = I.tapeSize) (p : Nat) : (tapeFun I tapes p).length = I.tapeSize := by
  unfold tapeFun
  rw [List.getD_eq_getElem?_getD]
  cases hp : tapes[p]? with
  | none => simp
  | some t => exact h t (List.mem_of_getElem? hp)

theorem tapeFun_range {I : Instance} {tapes : List Bytes} (h : tapes.length = I.numParties) : (List.range I.numParties).map (tapeFun I tapes) = tapes := by
  refine List.ext_getElem (by simp [h]) fun i h1 h2 => ?_
  rw [List.getElem_map, List.getElem_range]
  unfold tapeFun
  rw [getD_of_lt h2]

theorem tapeFun_set {I : Instance} {tapes : List Bytes} {m : Nat} (hm : m < tapes.length) (t : Bytes) (p : Nat) : tapeFun I (tapes.set m t) p = if p = m then t else tapeFun I tapes p := by
  unfold tapeFun
  rw [List.getD_eq_getElem?_getD, List.getD_eq_getElem?_getD, List.getElem?_set]
  by_cases h : m = p
  · subst h
    rw [if_pos rfl, if_pos hm, if_pos rfl]
    rfl
  · rw [if_neg h, if_neg (Ne.symm h)]

section
variable {F : FieldState} [hF : FieldOk F] {I : Instance} (hI : Consistent I)
include hI

/-- The view of a repetition. -/
theorem repView_ok {sk pt : Bytes} (hsk : sk.length = I.aes.keySize) (h0 : 0 ∉ sboxInputs (I.aes.keySize / 4) I.aes.numBlocks sk pt) {rs : List W64} (hrs : AllRed F.byteSize rs) (R : W64)
    (tree : SeedTree) (com tapes : List Bytes) (hl : tapes.length = I.numParties) (ht : ∀ t ∈ tapes, t.length = I.tapeSize) :
    ∃ (saved : Saved) (d : List W64), (aesSave I.aes.keySize sk pt).2 = saved ∧ FitsDelta F I pt (honestCtx I sk saved.2 (tapeFun I tapes) d) rs d ∧
    (∀ i < I.m1 * I.m2, (honestCtx I sk saved.2 (tapeFun I tapes) d).sAll I pt i = saved.1.getD i 0) ∧ (∀ i < I.m1 * I.m2, (honestCtx I sk saved.2 (tapeFun I tapes) d).tAll I i = saved.2.getD i 0) ∧
    (∀ i < I.m1 * I.m2, aesMul (saved.1.getD i 0) (saved.2.getD i 0) = 1) ∧ saved.2.length = I.aes.numSboxes ∧
    xorOf I.ctSize ((List.range I.numParties).map fun p => ((honestCtx I sk saved.2 (tapeFun I tapes) d).out I pt p).2) = encrypt (I.aes.keySize / 4) I.aes.numBlocks sk pt ∧
    repView F I sk pt rs R tree com tapes = .ok ⟨tapeDelta I (tapeFun I tapes) 0 I.aes.keySize sk, tapeDelta I (tapeFun I tapes) I.aes.keySize I.aes.numSboxes saved.2,
      (List.range I.numParties).map (fun p => ((honestCtx I sk saved.2 (tapeFun I tapes) d).out I pt p).2), d, (honestCtx I sk saved.2 (tapeFun I tapes) d).hash3 F I pt rs R⟩ := by
  obtain ⟨saved, s1, s2, s3, s4⟩ := saved_facts hI sk pt h0
  have hsums := fun d => honestCtx_sums (tapeFun_length ht) hI sk saved.2 pt d hsk s2
  rw [s3] at hsums
  have hsA : ∀ d, ∀ i < I.m1 * I.m2, (honestCtx I sk saved.2 (tapeFun I tapes) d).sAll I pt i = saved.1.getD i 0 := by
    intro d i hi
    rw [hI.sboxes] at hi
    rw [← (hsums d).2.1, getD_xorOf _ _ hi]
    rfl
  have htA : ∀ d, ∀ i < I.m1 * I.m2, (honestCtx I sk saved.2 (tapeFun I tapes) d).tAll I i = saved.2.getD i 0 := by
    intro d i hi
    rw [hI.sboxes] at hi
    refine Eq.trans ?_ (congrArg (fun l => List.getD l i 0) (hsums d).1)
    rw [getD_xorOf _ _ hi]
    rfl
  obtain ⟨lastSq, hlast, vlast⟩ := (isVec_last (F := F) I).mul (isVec_last I)
  choose st sl tl hprods hvec using fun j => signProducts_ok (F := F) I hI.points saved j
  have hr1 : signShares I sk pt saved.2 tree com tapes = ⟨tree, (List.range I.numParties).map (tapeFun I tapes), com, tapeDelta I (tapeFun I tapes) 0 I.aes.keySize sk,
      tapeDelta I (tapeFun I tapes) I.aes.keySize I.aes.numSboxes saved.2, (List.range I.numParties).map ((honestCtx I sk saved.2 (tapeFun I tapes) []).t I),
      (List.range I.numParties).map (fun p => ((honestCtx I sk saved.2 (tapeFun I tapes) []).out I pt p).1),
      (List.range I.numParties).map (fun p => ((honestCtx I sk saved.2 (tapeFun I tapes) []).out I pt p).2)⟩ := by
    have hmpc := mpcAes_eq I (honestCtx I sk saved.2 (tapeFun I tapes) []) pt
    rw [show (honestCtx I sk saved.2 (tapeFun I tapes) []).tape = tapeFun I tapes from rfl] at hmpc
    unfold signShares
    dsimp only
    have raw : ∀ a b, rawShares tapes a b = (List.range I.numParties).map fun p => tapeBytes (tapeFun I tapes p) a b := by
      intro a b
      conv_lhs => rw [← tapeFun_range hl]
      rw [rawShares_range]
    have k1 : (rawShares tapes 0 I.aes.keySize).foldl (fun d s => xorBytes s d) sk = tapeDelta I (tapeFun I tapes) 0 I.aes.keySize sk := by
      rw [raw]
      rfl
    have k2 : (rawShares tapes I.aes.keySize I.aes.numSboxes).foldl (fun d s => xorBytes s d) saved.2 = tapeDelta I (tapeFun I tapes) I.aes.keySize I.aes.numSboxes saved.2 := by
      rw [raw]
      rfl
    rw [k1, k2]
    rw [tapeFun_range hl] at hmpc
    rw [show (honestCtx I sk saved.2 (tapeFun I tapes) []).skDelta = tapeDelta I (tapeFun I tapes) 0 I.aes.keySize sk from rfl,
      show (honestCtx I sk saved.2 (tapeFun I tapes) []).tDelta = tapeDelta I (tapeFun I tapes) I.aes.keySize I.aes.numSboxes saved.2 from rfl] at hmpc
    rw [hmpc, List.map_map, List.map_map, tapeFun_range hl]
    have k3 : fixFirst (tapeDelta I (tapeFun I tapes) I.aes.keySize I.aes.numSboxes saved.2) (rawShares tapes I.aes.keySize I.aes.numSboxes) =
        (List.range I.numParties).map ((honestCtx I sk saved.2 (tapeFun I tapes) []).t I) := by
      rw [raw, fixFirst_range]
      rfl
    rw [k3]
    rfl
  obtain ⟨d, hfit, hrep2⟩ := signRep2_ok (F := F) (I := I) (pt := pt) (saved := saved) (rs := rs) hI.points hrs (hsA []) (htA []) vlast
    (prods := (List.range I.m1).map fun j => (st j, sl j, tl j)) (fun j hj => by
      rw [getD_range_map _ _ _ _ hj]
      exact hvec j) (signShares I sk pt saved.2 tree com tapes) (by rw [hr1]; rfl) (by rw [hr1]) (by rw [hr1])
  refine ⟨saved, d, s1, ⟨hfit.len, hfit.red, hfit.vals⟩, hsA d, htA d, fun i hi => s4 i (by rwa [hI.sboxes] at hi), s2, (hsums d).2.2, ?_⟩
  unfold repView
  dsimp only
  rw [s1, hlast, ok_bind, mapM_ok _ _ (fun j => (st j, sl j, tl j)) fun j _ => hprods j, ok_bind, hrep2, ok_bind,
    signRep3_ok (c := honestCtx I sk saved.2 (tapeFun I tapes) d) (pt := pt) (rs := rs) R _ rfl rfl rfl, ok_bind, hr1]
  rfl

/-- What `repView_ok` says about corrections and tapes. -/
structure Honest (F : FieldState) [FieldOk F] (I : Instance) (sk pt : Bytes) (saved : Saved) (rs : List W64) (c : Ctx) : Prop where
  key : xorOf I.aes.keySize ((List.range I.numParties).map (c.key I)) = sk
  t : xorOf I.aes.numSboxes ((List.range I.numParties).map (c.t I)) = saved.2
  sAll : ∀ i < I.m1 * I.m2, c.sAll I pt i = saved.1.getD i 0
  tAll : ∀ i < I.m1 * I.m2, c.tAll I i = saved.2.getD i 0
  mul : ∀ i < I.m1 * I.m2, aesMul (saved.1.getD i 0) (saved.2.getD i 0) = 1
  fits : FitsDelta F I pt c rs c.pDelta
  ct : xorOf I.ctSize ((List.range I.numParties).map fun p => (c.out I pt p).2) = encrypt (I.aes.keySize / 4) I.aes.numBlocks sk pt
  keyLen : c.skDelta.length = I.aes.keySize
  tLen : c.tDelta.length = I.aes.numSboxes
  tapes : ∀ p, (c.tape p).length = I.tapeSize

/-- The view for given corrections and tapes. -/
def Ctx.view (F : FieldState) (I : Instance) (pt : Bytes) (rs : List W64) (R : W64) (c : Ctx) : RepView :=
  ⟨c.skDelta, c.tDelta, (List.range I.numParties).map (fun p => (c.out I pt p).2), c.pDelta, c.hash3 F I pt rs R⟩

/-- `P(R)` of an honest signer. -/
theorem Honest.prod {sk pt : Bytes} {saved : Saved} {rs : List W64} {c : Ctx} (h : Honest F I sk pt saved rs c) (hrs : AllRed F.byteSize rs) {R : W64} (hR : Reduced F.byteSize R) :
    c.sumC F I rs R = sumProducts F I ((List.range I.m1).map (c.sumA F I pt rs R)) ((List.range I.m1).map (c.sumB F I R)) := by
  have hN : 0 < I.numParties := by have := (parties_bounds hI).1; omega
  rw [eq_comm, Ctx.sumProducts_iff _ _ _ _ _ hR hrs h.fits.red]
  have := honest_poly (F := F) (I := I) (pt := pt) (c := c) (rs := rs) hI.points hN hrs h.fits (fun i hi => by
    rw [h.sAll i hi, h.tAll i hi]
    exact h.mul i hi)
  exact congrArg (fun P => P.eval (val F.byteSize R)) this

/-- The view is determined by the values sent, the public key and the other tapes. -/
theorem view_determined {sk sk' pt : Bytes} {saved saved' : Saved} {rs : List W64} {c c' : Ctx} (h : Honest F I sk pt saved rs c) (h' : Honest F I sk' pt saved' rs c') (hrs : AllRed F.byteSize rs)
    {R : W64} (hR : Reduced F.byteSize R) {m : Nat} (hm : m < I.numParties) (ha : Ctx.Agree I m c c')
    (hct : encrypt (I.aes.keySize / 4) I.aes.numBlocks sk pt = encrypt (I.aes.keySize / 4) I.aes.numBlocks sk' pt)
    (hA : ∀ j < I.m1, c.sumA F I pt rs R j = c'.sumA F I pt rs R j) (hB : ∀ j < I.m1, c.sumB F I R j = c'.sumB F I R j) : c.view F I pt rs R = c'.view F I pt rs R := by
  have eA : (List.range I.m1).map (c.sumA F I pt rs R) = (List.range I.m1).map (c'.sumA F I pt rs R) := List.map_congr_left fun j hj => hA j (List.mem_range.1 hj)
  have eB : (List.range I.m1).map (c.sumB F I R) = (List.range I.m1).map (c'.sumB F I R) := List.map_congr_left fun j hj => hB j (List.mem_range.1 hj)
  have eC : c.sumC F I rs R = c'.sumC F I rs R := by rw [h.prod hI hrs hR, h'.prod hI hrs hR, eA, eB]
  have key : ∀ f f' : Nat → W64, (∀ p, p < I.numParties ∧ p ≠ m → f p = f' p) → (List.range I.numParties).foldl (fun a p => a ^^^ f p) 0 = (List.range I.numParties).foldl (fun a p => a ^^^ f' p) 0 →
      ∀ p < I.numParties, f p = f' p := by
    intro f f' hf hs p hp
    by_cases hpm : p = m
    · subst hpm
      rw [← fold_complete _ _ hm f, ← fold_complete _ _ hm f', hs]
      exact foldl_congr_mem _ _ _ (fun acc q hq => by rw [hf q (filter_lt hq)]) _
    · exact hf p ⟨hp, hpm⟩
  have e1 : (List.range I.numParties).map (fun p => (c.out I pt p).2) = (List.range I.numParties).map (fun p => (c'.out I pt p).2) := by
    refine List.map_congr_left fun p hp => ?_
    have hp := List.mem_range.1 hp
    by_cases hpm : p = m
    · subst hpm
      rw [← bytes_complete hm (fun p => (c.out I pt p).2) fun p => (out_length hI _ _ _).2, ← bytes_complete hm (fun p => (c'.out I pt p).2) fun p => (out_length hI _ _ _).2, h.ct, h'.ct, hct]
      exact foldl_congr_mem _ _ _ (fun acc q hq => by rw [ha.out I pt q (filter_lt hq)]) _
    · rw [ha.out I pt p ⟨hp, hpm⟩]
  have e2 : (List.range I.numParties).map (c.pc F I rs R) = (List.range I.numParties).map (c'.pc F I rs R) :=
    List.map_congr_left fun p hp => key _ _ (fun p hp => ha.pc I F rs R p hp) eC p (List.mem_range.1 hp)
  have e3 : (List.range I.numParties).map (fun p => (List.range I.m1).map (c.a F I pt rs R p)) = (List.range I.numParties).map (fun p => (List.range I.m1).map (c'.a F I pt rs R p)) :=
    List.map_congr_left fun p hp => List.map_congr_left fun j hj => key (fun p => c.a F I pt rs R p j) (fun p => c'.a F I pt rs R p j) (fun p hp => ha.a I F pt rs R p j hp) (hA j (List.mem_range.1 hj)) p (List.mem_range.1 hp)
  have e4 : (List.range I.numParties).map (fun p => (List.range I.m1).map (c.b F I R p)) = (List.range I.numParties).map (fun p => (List.range I.m1).map (c'.b F I R p)) :=
    List.map_congr_left fun p hp => List.map_congr_left fun j hj => key (fun p => c.b F I R p j) (fun p => c'.b F I R p j) (fun p hp => ha.b I F R p j hp) (hB j (List.mem_range.1 hj)) p (List.mem_range.1 hp)
  unfold Ctx.view Ctx.hash3
  rw [ha.skDelta, ha.tDelta, ha.pDelta, e1, e2, e3, e4, eA, eB, eC]

omit hI in
/-- Two sums which differ in one summand at most. -/
theorem sum_one {n m : Nat} (hm : m < n) {f g : Nat → GF F.byteSize} (hs : ∑ p ∈ Finset.range n, f p = ∑ p ∈ Finset.range n, g p) (h : ∀ p, p < n ∧ p ≠ m → f p = g p) : f m = g m := by
  rw [← Finset.add_sum_erase _ f (Finset.mem_range.2 hm), ← Finset.add_sum_erase _ g (Finset.mem_range.2 hm)] at hs
  rw [Finset.sum_congr rfl fun p hp => h p ⟨Finset.mem_range.1 (Finset.mem_of_mem_erase hp), Finset.ne_of_mem_erase hp⟩] at hs
  exact add_right_cancel hs

omit hI in
/-- A polynomial is determined by its values at the first `n` points and at another one. -/
theorem determined_at {n : Nat} (hn : n + 1 ≤ 21845) {y y' : Nat → GF F.byteSize} {P P' : (GF F.byteSize)[X]} (h : Interpolates F.byteSize (n + 1) y P) (h' : Interpolates F.byteSize (n + 1) y' P')
    (hy : ∀ k < n, y k = y' k) {x : GF F.byteSize} (hx : ∀ k < n, x ≠ point F.byteSize k) (he : P.eval x = P'.eval x) : P = P' := by
  refine Polynomial.eq_of_degrees_lt_of_eval_index_eq (Finset.range (n + 1)) (v := fun k => if k < n then point F.byteSize k else x) ?_ (by simpa using h.1) (by simpa using h'.1) ?_
  · intro i hi j hj hij
    simp only [Finset.coe_range, Set.mem_Iio] at hi hj
    dsimp only at hij
    by_cases h1 : i < n <;> by_cases h2 : j < n
    · rw [if_pos h1, if_pos h2] at hij
      exact point_inj (F := F) (by omega) (by omega) hij
    · rw [if_pos h1, if_neg h2] at hij
      exact absurd hij.symm (hx i h1)
    · rw [if_neg h1, if_pos h2] at hij
      exact absurd hij (hx j h2)
    · omega
  · intro k hk
    split
    · rename_i hlt
      rw [h.2 k (by omega), h'.2 k (by omega), hy k hlt]
    · exact he

omit hI in
theorem fromBytes_inj {a b : Bytes} (ha : a.length = F.byteSize) (hb : b.length = F.byteSize) (h : val F.byteSize (F.fromBytes a) = val F.byteSize (F.fromBytes b)) : a = b := by
  have := val_inj (reduced_fromBytes _) (reduced_fromBytes _) h
  rw [← toBytes_fromBytes ha, this, toBytes_fromBytes hb]

omit hI in
theorem getD_tapeBytes (bs : Bytes) (start len : Nat) {i : Nat} (hi : i < len) : (tapeBytes bs start len).getD i 0 = bs.getD (start + i) 0 := by
  unfold tapeBytes slice
  rw [List.getD_eq_getElem?_getD, List.getD_eq_getElem?_getD, List.getElem?_take, if_pos hi, List.getElem?_drop]

omit hF hI in
/-- A tape is determined by its parts. -/
theorem tape_ext (hl : 0 < I.lambda) {t t' : Bytes} (h : t.length = I.tapeSize) (h' : t'.length = I.tapeSize) (e1 : tapeBytes t 0 I.aes.keySize = tapeBytes t' 0 I.aes.keySize)
    (e2 : tapeBytes t I.aes.keySize I.aes.numSboxes = tapeBytes t' I.aes.keySize I.aes.numSboxes) (e3 : ∀ j < I.m1, tapeBytes t (I.pointPos j) I.lambda = tapeBytes t' (I.pointPos j) I.lambda)
    (e4 : ∀ j < I.m1, tapeBytes t (I.pointPos j + I.lambda) I.lambda = tapeBytes t' (I.pointPos j + I.lambda) I.lambda)
    (e5 : ∀ k < I.m2 + 1, tapeBytes t (I.pPos + k * I.lambda) I.lambda = tapeBytes t' (I.pPos + k * I.lambda) I.lambda) : t = t' := by
  refine ext_getD 0 h h' fun i hi => ?_
  have use : ∀ {start len : Nat}, tapeBytes t start len = tapeBytes t' start len → start ≤ i → i < start + len → t.getD i 0 = t'.getD i 0 := by
    intro start len e h1 h2
    have := congrArg (fun l => List.getD l (i - start) 0) e
    rw [getD_tapeBytes _ _ _ (by omega), getD_tapeBytes _ _ _ (by omega), show start + (i - start) = i by omega] at this
    exact this
  by_cases h1 : i < I.aes.keySize
  · exact use e1 (by omega) (by omega)
  by_cases h2 : i < I.aes.keySize + I.aes.numSboxes
  · exact use e2 (by omega) (by omega)
  obtain ⟨q, r, hr, hq⟩ : ∃ q r, r < I.lambda ∧ i = I.aes.keySize + I.aes.numSboxes + q * I.lambda + r := by
    refine ⟨(i - (I.aes.keySize + I.aes.numSboxes)) / I.lambda, (i - (I.aes.keySize + I.aes.numSboxes)) % I.lambda, Nat.mod_lt _ hl, ?_⟩
    have := Nat.div_add_mod' (i - (I.aes.keySize + I.aes.numSboxes)) I.lambda
    omega
  by_cases h3 : q < 2 * I.m1
  · rcases Nat.mod_two_eq_zero_or_one q with hp | hp
    · have e : I.pointPos (q / 2) = I.aes.keySize + I.aes.numSboxes + q * I.lambda := by
        unfold Instance.pointPos
        rw [show q / 2 * 2 = q by omega]
      exact use (e3 (q / 2) (by omega)) (by omega) (by omega)
    · have e : I.pointPos (q / 2) + I.lambda = I.aes.keySize + I.aes.numSboxes + q * I.lambda := by
        unfold Instance.pointPos
        rw [Nat.add_assoc, ← Nat.succ_mul, show (q / 2 * 2).succ = q by omega]
      exact use (e4 (q / 2) (by omega)) (by omega) (by omega)
  · have e : I.pPos + (q - 2 * I.m1) * I.lambda = I.aes.keySize + I.aes.numSboxes + q * I.lambda := by
      unfold Instance.pPos
      rw [Nat.add_assoc, ← Nat.add_mul, show I.m1 * 2 + (q - 2 * I.m1) = q by omega]
    have hk : q - 2 * I.m1 < I.m2 + 1 := by
      by_contra hc
      have : (2 * I.m1 + (I.m2 + 1)) * I.lambda ≤ q * I.lambda := Nat.mul_le_mul_right _ (by omega)
      unfold Instance.tapeSize at hi
      rw [Nat.add_mul] at this
      omega
    exact use (e5 _ hk) (by omega) (by omega)

/-- For a given key the tape of the hidden party is determined by the values sent and the other tapes. -/
theorem tape_determined {sk pt : Bytes} {saved : Saved} {rs : List W64} {c c' : Ctx} (hb : F.byteSize = I.lambda) (h : Honest F I sk pt saved rs c) (h' : Honest F I sk pt saved rs c')
    (hrs : AllRed F.byteSize rs) {R : W64} (hR : Reduced F.byteSize R) (hR' : R ∉ F.firstN I.m2) {m : Nat} (hm : m < I.numParties) (ha : Ctx.Agree I m c c')
    (hA : ∀ j < I.m1, c.sumA F I pt rs R j = c'.sumA F I pt rs R j) (hB : ∀ j < I.m1, c.sumB F I R j = c'.sumB F I R j) : c.tape m = c'.tape m := by
  have hlam : 0 < I.lambda := by rw [← hb]; exact pos
  have htl := h.tapes m
  have htl' := h'.tapes m
  have hm2 := hI.points
  have f1 := fun p => (tape_parts h.tapes p).1
  have f2 := fun p => (tape_parts h.tapes p).2
  have f1' := fun p => (tape_parts h'.tapes p).1
  have f2' := fun p => (tape_parts h'.tapes p).2
  have hx : ∀ k < I.m2, val F.byteSize R ≠ point F.byteSize k := by
    intro k hk he
    rw [point_eq hk] at he
    refine hR' ?_
    rw [val_inj hR ((allRed_firstN _).getD k) he, getD_of_lt (by rw [length_firstN]; exact hk)]
    exact List.getElem_mem _
  -- key and S-box outputs
  have kl : ∀ (c : Ctx), c.skDelta.length = I.aes.keySize → (∀ p, (tapeBytes (c.tape p) 0 I.aes.keySize).length = I.aes.keySize) → ∀ p, (c.key I p).length = I.aes.keySize := by
    intro c l1 l2 p
    unfold Ctx.key
    split
    · rw [length_xorBytes]
      exact (congrArg₂ min l1 (l2 p)).trans (Nat.min_self _)
    · exact l2 p
  have tl : ∀ (c : Ctx), c.tDelta.length = I.aes.numSboxes → (∀ p, (tapeBytes (c.tape p) I.aes.keySize I.aes.numSboxes).length = I.aes.numSboxes) → ∀ p, (c.t I p).length = I.aes.numSboxes := by
    intro c l1 l2 p
    unfold Ctx.t
    split
    · rw [length_xorBytes]
      exact (congrArg₂ min l1 (l2 p)).trans (Nat.min_self _)
    · exact l2 p
  have k1 : c.key I m = c'.key I m := by
    rw [← bytes_complete hm (c.key I) (kl c h.keyLen f1), ← bytes_complete hm (c'.key I) (kl c' h'.keyLen f1'), h.key, h'.key]
    exact foldl_congr_mem _ _ _ (fun acc q hq => by rw [ha.key I q (filter_lt hq)]) _
  have k2 : c.t I m = c'.t I m := by
    rw [← bytes_complete hm (c.t I) (tl c h.tLen f2), ← bytes_complete hm (c'.t I) (tl c' h'.tLen f2'), h.t, h'.t]
    exact foldl_congr_mem _ _ _ (fun acc q hq => by rw [ha.t I q (filter_lt hq)]) _
  have cancel : ∀ {d a b : Bytes}, d.length = a.length → d.length = b.length → xorBytes d a = xorBytes d b → a = b := by
    intro d a b l1 l2 e
    have e' := congrArg (fun x => xorBytes x d) e
    rw [xorBytes_comm d a, xorBytes_comm d b, xorBytes_cancel l1.symm, xorBytes_cancel l2.symm] at e'
    exact e'
  have g1 : tapeBytes (c.tape m) 0 I.aes.keySize = tapeBytes (c'.tape m) 0 I.aes.keySize := by
    unfold Ctx.key at k1
    split at k1
    · rw [← ha.skDelta] at k1
      exact cancel (h.keyLen.trans (f1 m).symm) (h.keyLen.trans (f1' m).symm) k1
    · exact k1
  have g2 : tapeBytes (c.tape m) I.aes.keySize I.aes.numSboxes = tapeBytes (c'.tape m) I.aes.keySize I.aes.numSboxes := by
    unfold Ctx.t at k2
    split at k2
    · rw [← ha.tDelta] at k2
      exact cancel (h.tLen.trans (f2 m).symm) (h.tLen.trans (f2' m).symm) k2
    · exact k2
  -- polynomials
  have pS : ∀ j < I.m1, c.polyS F I pt rs j = c'.polyS F I pt rs j := by
    intro j hj
    refine determined_at (by omega) (Ctx.polyS_interp I pt c rs hm2 hrs hj) (Ctx.polyS_interp I pt c' rs hm2 hrs hj) (fun k hk => ?_) hx ?_
    · rw [if_pos hk, if_pos hk, h.sAll _ (col_lt hj hk), h'.sAll _ (col_lt hj hk)]
    · rw [← (Ctx.val_sumA I pt c rs R hR hj).2, ← (Ctx.val_sumA I pt c' rs R hR hj).2, hA j hj]
  have pT : ∀ j < I.m1, c.polyT F I j = c'.polyT F I j := by
    intro j hj
    refine determined_at (by omega) (Ctx.polyT_interp I c hm2 hj) (Ctx.polyT_interp I c' hm2 hj) (fun k hk => ?_) hx ?_
    · rw [if_pos hk, if_pos hk, h.tAll _ (col_lt hj hk), h'.tAll _ (col_lt hj hk)]
    · rw [← (Ctx.val_sumB I c R hR hj).2, ← (Ctx.val_sumB I c' R hR hj).2, hB j hj]
  have pP : c.prodPoly F I pt rs = c'.prodPoly F I pt rs := by
    unfold Ctx.prodPoly
    exact Finset.sum_congr rfl fun j hj => by rw [pS j (Finset.mem_range.1 hj), pT j (Finset.mem_range.1 hj)]
  have pos1 : ∀ j < I.m1, I.pointPos j + I.lambda + I.lambda ≤ I.tapeSize := by
    intro j hj
    have : (j * 2 + 2) * I.lambda ≤ I.m1 * 2 * I.lambda := Nat.mul_le_mul_right _ (by omega)
    unfold Instance.pointPos Instance.tapeSize
    ring_nf at this ⊢
    omega
  have pos2 : ∀ k < I.m2 + 1, I.pPos + k * I.lambda + I.lambda ≤ I.tapeSize := by
    intro k hk
    have : (k + 1) * I.lambda ≤ (I.m2 + 1) * I.lambda := Nat.mul_le_mul_right _ (by omega)
    unfold Instance.pPos Instance.tapeSize
    ring_nf at this ⊢
    omega
  refine tape_ext hlam htl htl' g1 g2 (fun j hj => ?_) (fun j hj => ?_) fun k hk => ?_
  · have := pos1 j hj
    refine fromBytes_inj (F := F) ((tapeBytes_len (by omega)).trans hb.symm) ((tapeBytes_len (by omega)).trans hb.symm) ?_
    refine sum_one (f := fun p => val F.byteSize (c.sExtra I F p j)) (g := fun p => val F.byteSize (c'.sExtra I F p j)) hm ?_ fun p hp => ?_
    · have e := (Ctx.polyS_interp I pt c rs hm2 hrs hj).2 I.m2 (by omega)
      have e' := (Ctx.polyS_interp I pt c' rs hm2 hrs hj).2 I.m2 (by omega)
      dsimp only at e e'
      rw [if_neg (by omega)] at e e'
      rw [← e, ← e', pS j hj]
    · dsimp only [Ctx.sExtra]
      rw [ha.tape p hp]
  · have := pos1 j hj
    refine fromBytes_inj (F := F) ((tapeBytes_len (by omega)).trans hb.symm) ((tapeBytes_len (by omega)).trans hb.symm) ?_
    refine sum_one (f := fun p => val F.byteSize (c.tExtra I F p j)) (g := fun p => val F.byteSize (c'.tExtra I F p j)) hm ?_ fun p hp => ?_
    · have e := (Ctx.polyT_interp (F := F) I c hm2 hj).2 I.m2 (by omega)
      have e' := (Ctx.polyT_interp (F := F) I c' hm2 hj).2 I.m2 (by omega)
      dsimp only at e e'
      rw [if_neg (by omega)] at e e'
      rw [← e, ← e', pT j hj]
    · dsimp only [Ctx.tExtra]
      rw [ha.tape p hp]
  · have := pos2 k hk
    refine fromBytes_inj (F := F) ((tapeBytes_len (by omega)).trans hb.symm) ((tapeBytes_len (by omega)).trans hb.symm) ?_
    refine sum_one (f := fun p => val F.byteSize (c.pExtra I F p k)) (g := fun p => val F.byteSize (c'.pExtra I F p k)) hm ?_ fun p hp => ?_
    · have e := h.fits.vals k hk
      rw [ha.pDelta, h'.fits.vals k hk, pP] at e
      exact (add_left_cancel e).symm
    · dsimp only [Ctx.pExtra]
      rw [ha.tape p hp]

omit hI in
theorem elements_inj {l l' : List W64} (hl : l.length = l'.length) (h : AllRed F.byteSize l) (h' : AllRed F.byteSize l') (e : l.flatMap (leDigits F.byteSize) = l'.flatMap (leDigits F.byteSize)) : l = l' := by
  refine flatMap_inj (leDigits F.byteSize) (Reduced F.byteSize) F.byteSize (fun x _ => by simp [leDigits]) (fun x y hx hy exy => ?_) l l' h h' hl e
  rw [← toBytes_eq, ← toBytes_eq] at exy
  rw [← fromBytes_toBytes hx, exy, fromBytes_toBytes hy]

omit hF hI in
theorem elements_length (n : Nat) (l : List W64) : (l.flatMap (leDigits n)).length = l.length * n := length_flatMap_const l _ n fun _ _ => by simp [leDigits]

omit hI in
/-- The values sent can be read off. -/
theorem sent_parts {sk sk' pt : Bytes} {saved saved' : Saved} {rs : List W64} {c c' : Ctx} (h : Honest F I sk pt saved rs c) (h' : Honest F I sk' pt saved' rs c') {R : W64} (hR : Reduced F.byteSize R)
    (e : (c.view F I pt rs R).sent F.byteSize = (c'.view F I pt rs R).sent F.byteSize) : c.skDelta = c'.skDelta ∧ c.tDelta = c'.tDelta ∧ c.pDelta = c'.pDelta ∧
    (∀ j < I.m1, c.sumA F I pt rs R j = c'.sumA F I pt rs R j) ∧ ∀ j < I.m1, c.sumB F I R j = c'.sumB F I R j := by
  unfold RepView.sent Ctx.view Ctx.hash3 at e
  dsimp only at e
  have lp := h.fits.len.trans h'.fits.len.symm
  obtain ⟨e, e5⟩ := List.append_inj' e (by rw [elements_length, elements_length, List.length_map, List.length_map])
  obtain ⟨e, e4⟩ := List.append_inj' e (by rw [elements_length, elements_length, List.length_map, List.length_map])
  obtain ⟨e, e3⟩ := List.append_inj' e (by rw [elements_length, elements_length, lp])
  obtain ⟨e1, e2⟩ := List.append_inj e (h.keyLen.trans h'.keyLen.symm)
  have r1 : ∀ c : Ctx, AllRed F.byteSize ((List.range I.m1).map (c.sumA F I pt rs R)) := fun c => allRed_range fun j hj => (Ctx.val_sumA I pt c rs R hR hj).1
  have r2 : ∀ c : Ctx, AllRed F.byteSize ((List.range I.m1).map (c.sumB F I R)) := fun c => allRed_range fun j hj => (Ctx.val_sumB I c R hR hj).1
  have e4' := elements_inj (by simp) (r1 c) (r1 c') e4
  have e5' := elements_inj (by simp) (r2 c) (r2 c') e5
  exact ⟨e1, e2, elements_inj lp h.fits.red h'.fits.red e3, fun j hj => List.map_inj_left.1 e4' j (List.mem_range.2 hj), fun j hj => List.map_inj_left.1 e5' j (List.mem_range.2 hj)⟩

omit hI in
theorem sent_length {sk pt : Bytes} {saved : Saved} {rs : List W64} {c : Ctx} (hb : F.byteSize = I.lambda) (h : Honest F I sk pt saved rs c) (R : W64) :
    ((c.view F I pt rs R).sent F.byteSize).length = I.tapeSize := by
  unfold RepView.sent Ctx.view Ctx.hash3 Instance.tapeSize
  dsimp only
  simp only [List.length_append, elements_length, List.length_map, List.length_range, h.keyLen, h.tLen, h.fits.len, hb]
  ring

/-- The view of a repetition, in terms of `Honest`. -/
theorem repView_honest {sk pt : Bytes} (hsk : sk.length = I.aes.keySize) (h0 : 0 ∉ sboxInputs (I.aes.keySize / 4) I.aes.numBlocks sk pt) {rs : List W64} (hrs : AllRed F.byteSize rs) (R : W64)
    (tree : SeedTree) (com tapes : List Bytes) (hl : tapes.length = I.numParties) (ht : ∀ t ∈ tapes, t.length = I.tapeSize) :
    ∃ c : Ctx, c.tape = tapeFun I tapes ∧ Honest F I sk pt (aesSave I.aes.keySize sk pt).2 rs c ∧ repView F I sk pt rs R tree com tapes = .ok (c.view F I pt rs R) := by
  have hN : 0 < I.numParties := by have := (parties_bounds hI).1; omega
  obtain ⟨saved, d, s1, s2, s3, s4, s5, s6, s7, s8⟩ := repView_ok (F := F) hI hsk h0 hrs R tree com tapes hl ht
  have f1 := fun p => (tape_parts (tapeFun_length ht) p).1
  have f2 := fun p => (tape_parts (tapeFun_length ht) p).2
  refine ⟨honestCtx I sk saved.2 (tapeFun I tapes) d, rfl, ?_, s8⟩
  rw [s1]
  exact ⟨xorOf_fix hN sk hsk _ f1, xorOf_fix hN saved.2 s6 _ f2, s3, s4, s5, s2, s7, tapeDelta_length 0 _ sk hsk f1, tapeDelta_length _ _ saved.2 s6 f2, tapeFun_length ht⟩

omit hF hI in
/-- The view depends on the tapes of the parties only. -/
theorem view_congr {c c' : Ctx} (e1 : c.skDelta = c'.skDelta) (e2 : c.tDelta = c'.tDelta) (e3 : c.pDelta = c'.pDelta) (ht : ∀ p < I.numParties, c.tape p = c'.tape p) (pt : Bytes) (rs : List W64) (R : W64) :
    c.view F I pt rs R = c'.view F I pt rs R := by
  have ha : Ctx.Agree I I.numParties c c' := ⟨e1, e2, e3, fun p hp => ht p hp.1⟩
  have hp : ∀ p ∈ List.range I.numParties, p < I.numParties ∧ p ≠ I.numParties := fun p hp => ⟨List.mem_range.1 hp, (List.mem_range.1 hp).ne⟩
  have eA : (List.range I.m1).map (c.sumA F I pt rs R) = (List.range I.m1).map (c'.sumA F I pt rs R) := by
    refine List.map_congr_left fun j _ => foldl_congr_mem _ _ _ (fun acc p h => ?_) _
    rw [ha.a I F pt rs R p j (hp p h)]
  have eB : (List.range I.m1).map (c.sumB F I R) = (List.range I.m1).map (c'.sumB F I R) := by
    refine List.map_congr_left fun j _ => foldl_congr_mem _ _ _ (fun acc p h => ?_) _
    rw [ha.b I F R p j (hp p h)]
  have eC : c.sumC F I rs R = c'.sumC F I rs R := by
    refine foldl_congr_mem _ _ _ (fun acc p h => ?_) _
    rw [ha.pc I F rs R p (hp p h)]
  unfold Ctx.view Ctx.hash3
  rw [e1, e2, e3, eA, eB, eC]
  rw [List.map_congr_left fun p h => congrArg Prod.snd (ha.out I pt p (hp p h)), List.map_congr_left fun p h => ha.pc I F rs R p (hp p h),
    List.map_congr_left (f := fun p => (List.range I.m1).map (c.a F I pt rs R p)) fun p h => List.map_congr_left fun j _ => ha.a I F pt rs R p j (hp p h),
    List.map_congr_left (f := fun p => (List.range I.m1).map (c.b F I R p)) fun p h => List.map_congr_left fun j _ => ha.b I F R p j (hp p h)]

omit hI in
/-- The corrections of `P` are determined by the other corrections and the tapes. -/
theorem fits_unique {c c' : Ctx} (e1 : c.skDelta = c'.skDelta) (e2 : c.tDelta = c'.tDelta) (ht : ∀ p < I.numParties, c.tape p = c'.tape p) {pt : Bytes} {rs d d' : List W64}
    (h : FitsDelta F I pt c rs d) (h' : FitsDelta F I pt c' rs d') : d = d' := by
  have ha : Ctx.Agree I I.numParties { c with pDelta := [] } { c' with pDelta := [] } := ⟨e1, e2, rfl, fun p hp => ht p hp.1⟩
  have hp : ∀ p ∈ Finset.range I.numParties, p < I.numParties ∧ p ≠ I.numParties := fun p hp => ⟨Finset.mem_range.1 hp, (Finset.mem_range.1 hp).ne⟩
  have pP : c.prodPoly F I pt rs = c'.prodPoly F I pt rs := by
    unfold Ctx.prodPoly
    refine Finset.sum_congr rfl fun j _ => ?_
    have pS : c.polyS F I pt rs j = c'.polyS F I pt rs j := by
      unfold Ctx.polyS
      refine Finset.sum_congr rfl fun p h => ?_
      have : c.sPts F I pt rs p = c'.sPts F I pt rs p := by
        have e : c.out I pt p = c'.out I pt p := ha.out I pt p (hp p h)
        unfold Ctx.sPts
        rw [e, ht p (hp p h).1]
      rw [this]
    have pT : c.polyT F I j = c'.polyT F I j := by
      unfold Ctx.polyT
      refine Finset.sum_congr rfl fun p h => ?_
      have : c.tPts F I p = c'.tPts F I p := by
        have e : c.t I p = c'.t I p := ha.t I p (hp p h)
        unfold Ctx.tPts
        rw [e, ht p (hp p h).1]
      rw [this]
    rw [pS, pT]
  refine ext_getD 0 h.len h'.len fun k hk => val_inj (h.red.getD k) (h'.red.getD k) ?_
  rw [h.vals k hk, h'.vals k hk, pP, Finset.sum_congr rfl fun p h => by
    unfold Ctx.pExtra
    rw [ht p (hp p h).1]]
  rfl

/-- The view for the corrections and tapes of an honest signer. -/
theorem repView_of {sk pt : Bytes} (hsk : sk.length = I.aes.keySize) (h0 : 0 ∉ sboxInputs (I.aes.keySize / 4) I.aes.numBlocks sk pt) {rs : List W64} (hrs : AllRed F.byteSize rs) (R : W64)
    (tree : SeedTree) (com : List Bytes) (tape : Nat → Bytes) (ht : ∀ p, (tape p).length = I.tapeSize) {c : Ctx} (h1 : c.tape = tape) (h2 : c.skDelta = tapeDelta I tape 0 I.aes.keySize sk)
    (h3 : c.tDelta = tapeDelta I tape I.aes.keySize I.aes.numSboxes (aesSave I.aes.keySize sk pt).2.2) (h4 : FitsDelta F I pt c rs c.pDelta) :
    repView F I sk pt rs R tree com ((List.range I.numParties).map tape) = .ok (c.view F I pt rs R) := by
  have hf : ∀ p < I.numParties, tapeFun I ((List.range I.numParties).map tape) p = tape p := fun p hp => getD_range_map _ _ _ _ hp
  have hd : ∀ a b x, tapeDelta I (tapeFun I ((List.range I.numParties).map tape)) a b x = tapeDelta I tape a b x := by
    intro a b x
    unfold tapeDelta
    rw [List.map_congr_left fun p hp => by rw [hf p (List.mem_range.1 hp)]]
  obtain ⟨saved, d, s1, s2, s3, s4, s5, s6, s7, s8⟩ := repView_ok (F := F) hI hsk h0 hrs R tree com ((List.range I.numParties).map tape) (by simp) fun t h => by
    obtain ⟨p, _, rfl⟩ := List.mem_map.1 h
    exact ht p
  rw [s8]
  have e1 : (honestCtx I sk saved.2 (tapeFun I ((List.range I.numParties).map tape)) d).skDelta = c.skDelta := (hd _ _ _).trans h2.symm
  have e2 : (honestCtx I sk saved.2 (tapeFun I ((List.range I.numParties).map tape)) d).tDelta = c.tDelta := by
    rw [h3, s1]
    exact hd _ _ _
  have e4 : ∀ p < I.numParties, (honestCtx I sk saved.2 (tapeFun I ((List.range I.numParties).map tape)) d).tape p = c.tape p := fun p hp => by
    rw [h1]
    exact hf p hp
  exact congrArg _ (view_congr e1 e2 (fits_unique e1 e2 e4 s2 h4) e4 pt rs R)

end

end Banquet
