import Verif.Proofs.Accept
import Verif.Proofs.SignFull

/-! The hash inputs of the verifier in terms of the specification. -/

namespace Banquet

open Spec FieldOk

theorem zipIdx_eq {α : Type} (l : List α) (d : α) : l.zipIdx = (List.range l.length).map fun e => (l.getD e d, e) := by
  refine List.ext_getElem (by simp) fun i h1 h2 => ?_
  rw [List.getElem_zipIdx, List.getElem_map, List.getElem_range, getD_of_lt (by simpa using h1)]
  simp

section
variable {F : FieldState} {I : Instance}

theorem input2_eq (hb : F.byteSize = I.lambda) {sig : Signature} (hs : ∀ p ∈ sig.proofs, p.pDelta.length = I.m2 + 1) : phase2Input F I sig.salt sig.h1 (sig.proofs.map (·.pDelta)) = input2 I sig := by
  unfold phase2Input input2
  rw [List.flatMap_map]
  refine congrArg (fun z => 2 :: (sig.salt ++ sig.h1 ++ z)) (List.flatMap_congr fun p hp => ?_)
  have e : p.pDelta.take I.m2 = (List.range I.m2).map fun k => p.pDelta.getD k 0 := by
    refine List.ext_getElem (by rw [List.length_take, hs p hp]; simp) fun i h1 h2 => ?_
    rw [List.getElem_take, List.getElem_map, List.getElem_range, getD_of_lt]
  rw [e, List.flatMap_map]
  refine List.flatMap_congr fun k _ => ?_
  unfold gfHash
  rw [toBytes_eq, hb]

/-- The data of the verifier and of the specification agree except for the hidden party's tape. -/
theorem repOf_agree (hI : Consistent I) (X : Xof) (dummy : Bytes) (sig : Signature) (e : Nat) {pr : Proof} (hs : pr.shaped I = true) (hm : pr.reveal.missing < I.numParties) :
    Ctx.Agree I pr.reveal.missing (verCtx X I dummy sig.salt e pr) (repOf X I sig e pr).ctx := by
  refine ⟨rfl, rfl, rfl, fun p hp => ?_⟩
  have hl := openedSeed_length hI X sig.salt e (shaped_seeds hs) hm p hp.1 hp.2
  unfold verCtx verTape repOf Rep.ctx genTape tapeStream
  dsimp only
  rw [if_neg hp.2, hl]
  rfl

theorem repOf_sized (X : Xof) (sig : Signature) (e : Nat) {pr : Proof} {m : Nat} (wf : ProofWF I m pr) : (repOf X I sig e pr).Sized I :=
  ⟨wf.skDelta, wf.tDelta, fun _ => squeeze_len _ _ _⟩

theorem bytes1_eq (X : Xof) (pt ct : Bytes) (sig : Signature) (e : Nat) (pr : Proof) (c : Ctx) (bc : Nat → Bytes)
    (h : ∀ p < I.numParties, bc p = if p = pr.reveal.missing then c.ctMissing I pt ct pr.reveal.missing else (c.out I pt p).2) :
    (c.verHash1 I pt ct pr (fun p => commitSingle X I (openedSeed X I sig.salt e pr.reveal p) sig.salt e p) pr.reveal.missing).bytes I =
      ((List.range I.numParties).flatMap fun p =>
        (if p = pr.reveal.missing then pr.cE else digest X I (sig.salt ++ le16 e ++ le16 p ++ partySeedOf X I sig e pr p)) ++ bc p) ++ pr.skDelta ++ pr.tDelta := by
  unfold Rep1Hash.bytes Ctx.verHash1
  dsimp only
  refine congrArg (fun z => z ++ pr.skDelta ++ pr.tDelta) (List.flatMap_congr fun p hp => ?_)
  have hp := List.mem_range.1 hp
  rw [getD_range_map _ _ _ _ hp, getD_range_map _ _ _ _ hp, h p hp]
  rfl

theorem bytes3_eq (hb : F.byteSize = I.lambda) (pt : Bytes) (rs : List W64) (R : W64) (pr : Proof) (m : Nat) (ctx : Ctx) (c : Nat → W64) (a b : Nat → Nat → W64)
    (hc : ∀ p < I.numParties, c p = if p = m then ((List.range I.numParties).filter (· ≠ m)).foldl (fun acc q => gfAdd acc (ctx.pc F I rs R q)) pr.pAtR else ctx.pc F I rs R p)
    (ha : ∀ p < I.numParties, ∀ j < I.m1, a p j = if p = m then ((List.range I.numParties).filter (· ≠ m)).foldl (fun acc q => gfAdd acc (ctx.a F I pt rs R q j)) (pr.sAtR.getD j 0) else ctx.a F I pt rs R p j)
    (hb' : ∀ p < I.numParties, ∀ j < I.m1, b p j = if p = m then ((List.range I.numParties).filter (· ≠ m)).foldl (fun acc q => gfAdd acc (ctx.b F I R q j)) (pr.tAtR.getD j 0) else ctx.b F I R p j) :
    (ctx.verHash3 F I pt rs R pr m).bytes F I = leDigits I.lambda pr.pAtR ++ ((List.range I.numParties).flatMap fun p => leDigits I.lambda (c p)) ++
      (List.range I.m1).flatMap fun j => leDigits I.lambda (pr.sAtR.getD j 0) ++ leDigits I.lambda (pr.tAtR.getD j 0) ++
        (List.range I.numParties).flatMap fun p => leDigits I.lambda (a p j) ++ leDigits I.lambda (b p j) := by
  have hg : gfHash F = leDigits I.lambda := by funext x; unfold gfHash; rw [toBytes_eq, hb]
  unfold Rep3.bytes Ctx.verHash3
  rw [hg]
  dsimp only
  refine congrArg₂ (· ++ ·) (congrArg (leDigits I.lambda pr.pAtR ++ ·) (List.flatMap_congr fun p hp => ?_)) (List.flatMap_congr fun j hj => congrArg (leDigits I.lambda (pr.sAtR.getD j 0) ++ leDigits I.lambda (pr.tAtR.getD j 0) ++ ·)
    (List.flatMap_congr fun p hp => ?_))
  · have hp := List.mem_range.1 hp
    rw [getD_range_map _ _ _ _ hp, hc p hp]
  · have hp := List.mem_range.1 hp
    have hj := List.mem_range.1 hj
    rw [getD_range_map _ _ _ _ hp, getD_range_map _ _ _ _ hp, getD_range_map _ _ _ _ hj, getD_range_map _ _ _ _ hj, ha p hp j hj, hb' p hp j hj]

end

end Banquet
