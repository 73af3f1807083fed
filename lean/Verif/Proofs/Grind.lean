import Verif.Spec.Grind
import Verif.Proofs.Fork
import Verif.Proofs.Count
import Mathlib.Data.List.TakeWhile

/-! Reading the messages of the prover off the inputs of the hashes, and the three ways to forge. -/

namespace Banquet

open Spec FieldOk Props

theorem slice_at {A B C : Bytes} {o l : Nat} (ho : A.length = o) (hl : B.length = l) : slice (A ++ B ++ C) o l = B := by
  subst ho hl
  unfold slice
  rw [List.append_assoc, List.drop_left, List.take_left]

theorem slice_slice (s : Bytes) {o l o' l' : Nat} (h : o' + l' ≤ l) : slice (slice s o l) o' l' = slice s (o + o') l' := by
  unfold slice
  rw [List.drop_take, List.take_take, List.drop_drop, Nat.min_eq_left (by omega)]

theorem slice_flat {f : Nat → Bytes} {n k i : Nat} (h : ∀ i < n, (f i).length = k) (hi : i < n) : slice ((List.range n).flatMap f) (i * k) k = f i := by
  obtain ⟨m, rfl⟩ : ∃ m, n = i + (1 + m) := ⟨n - i - 1, by omega⟩
  rw [List.range_add, List.flatMap_append, List.range_add, List.map_append, List.flatMap_append, ← List.append_assoc]
  refine slice_at (length_flatMap_range _ _ _ fun j hj => h j (by omega)) ?_ |>.trans ?_
  · simp [h i hi]
  · simp

/-- Part of an element of the list. -/
theorem slice_flat_sub {f : Nat → Bytes} {n k i o l : Nat} (h : ∀ i < n, (f i).length = k) (hi : i < n) (hl : o + l ≤ k) : slice ((List.range n).flatMap f) (i * k + o) l = slice (f i) o l := by
  rw [← slice_slice _ hl, slice_flat h hi]

theorem getD_words {n j : Nat} (f : Nat → W64) (hj : j < n) : ((List.range n).map f).getD j 0 = f j := by
  rw [getD_of_lt (by simpa using hj), List.getElem_map, List.getElem_range]

theorem mem_before {Q : List Bytes} {x y : Bytes} : x ∈ before Q y → x ∈ Q ∧ x ≠ y := fun h => by
  unfold before at h
  exact ⟨(List.takeWhile_sublist _).subset h, by simpa using List.mem_takeWhile_imp h⟩

section
variable {I : Instance} (hI : Consistent I) {X : Xof} {i2 pk msg : Bytes} {sig : Signature} {v : Values} (h : VerifiedBy i2 X I pk msg sig v) {ms : List Nat} (wf : SigWF I ms sig)
include h wf

/-- Salt of the inputs of the first and third hash. -/
theorem saltAt_input1 : saltAt (input1 X I pk msg sig v.bc) = sig.salt := by
  rw [h.input1_eq, List.append_assoc, List.append_assoc]
  exact slice_at (A := [1]) rfl wf.salt

include hI

theorem part1At_eq {e : Nat} (he : e < I.numRounds) : part1At I (input1 X I pk msg sig v.bc) e = part1 X I sig v.bc e := by
  have hl : ∀ e < I.numRounds, (part1 X I sig v.bc e).length = length1 I := fun e he => (h.part1_length hI wf he).2
  have ha := length_flatMap_range _ _ _ hl
  unfold part1At
  rw [h.input1_eq, ← List.cons_append]
  generalize (1 :: (sig.salt ++ pk ++ msg) : Bytes) = A
  rw [List.length_append, ha, Nat.add_sub_cancel]
  have : e * length1 I + length1 I ≤ ((List.range I.numRounds).flatMap (part1 X I sig v.bc)).length := by
    rw [ha, ← Nat.succ_mul]
    exact Nat.mul_le_mul_right _ he
  rw [← slice_slice (l := ((List.range I.numRounds).flatMap (part1 X I sig v.bc)).length) _ this]
  have := slice_at (A := A) (B := (List.range I.numRounds).flatMap (part1 X I sig v.bc)) (C := []) rfl rfl
  rw [List.append_nil] at this
  rw [this, slice_flat hl he]

theorem first_eq {e : Nat} (he : e < I.numRounds) :
    keyDeltaAt I (input1 X I pk msg sig v.bc) e = (sig.proofs.getD e noProof).skDelta ∧ tDeltaAt I (input1 X I pk msg sig v.bc) e = (sig.proofs.getD e noProof).tDelta ∧
    ∀ p < I.numParties, comAt I (input1 X I pk msg sig v.bc) e p = commitOf X I sig e (sig.proofs.getD e noProof) p ∧ bcAt I (input1 X I pk msg sig v.bc) e p = v.bc e p := by
  have w := wf.get e (by rw [h.length]; exact he)
  have b1 := (h.part1_length hI wf he).1
  have lc : ∀ p, (commitOf X I sig e (sig.proofs.getD e noProof) p).length = I.digestSize := fun p => by
    unfold commitOf
    split
    · exact w.cE
    · exact digest_length _ _ _
  have hl : ∀ p < I.numParties, (commitOf X I sig e (sig.proofs.getD e noProof) p ++ v.bc e p).length = I.digestSize + I.ctSize := fun p hp => by rw [List.length_append, lc, b1 p hp]
  have ha := length_flatMap_range _ _ _ hl
  unfold keyDeltaAt tDeltaAt comAt bcAt
  rw [part1At_eq hI h wf he]
  have e0 : part1 X I sig v.bc e = ((List.range I.numParties).flatMap fun p => commitOf X I sig e (sig.proofs.getD e noProof) p ++ v.bc e p) ++ (sig.proofs.getD e noProof).skDelta ++ (sig.proofs.getD e noProof).tDelta := rfl
  have hp0 : ∀ p < I.numParties, p * (I.digestSize + I.ctSize) + (I.digestSize + I.ctSize) ≤ I.numParties * (I.digestSize + I.ctSize) := fun p hp => by
    rw [← Nat.succ_mul]
    exact Nat.mul_le_mul_right _ hp
  refine ⟨?_, ?_, fun p hp => ⟨?_, ?_⟩⟩
  · rw [e0]
    exact slice_at ha w.skDelta
  · rw [e0]
    have := slice_at (A := ((List.range I.numParties).flatMap fun p => commitOf X I sig e (sig.proofs.getD e noProof) p ++ v.bc e p) ++ (sig.proofs.getD e noProof).skDelta) (B := (sig.proofs.getD e noProof).tDelta) (C := [])
      (by rw [List.length_append, ha, w.skDelta]) w.tDelta
    rwa [List.append_nil] at this
  · have := hp0 p hp
    rw [e0, List.append_assoc, slice_append (by rw [ha]; omega)]
    have k := slice_flat_sub hl hp (o := 0) (l := I.digestSize) (by omega)
    rw [Nat.add_zero] at k
    rw [k]
    unfold slice
    rw [List.drop_zero, List.take_left' (lc p)]
  · have := hp0 p hp
    rw [e0, List.append_assoc, slice_append (by rw [ha]; omega), slice_flat_sub hl hp (by omega)]
    unfold slice
    rw [List.drop_left' (lc p), List.take_of_length_le (b1 p hp).le]

omit hI

theorem part3At_eq {e : Nat} (he : e < I.numRounds) : part3At I (hashed3By i2 X I sig v) e = part3 I sig v.c v.a v.b e := by
  have hl : ∀ e < I.numRounds, (part3 I sig v.c v.a v.b e).length = length3 I := fun e _ => part3_length _ _ _ _ _
  unfold part3At
  rw [h.hashed3_eq, ← List.cons_append]
  have hA : (3 :: (sig.salt ++ digest X I i2) : Bytes).length = 33 + I.digestSize := by rw [List.length_cons, List.length_append, wf.salt, digest_length]; omega
  generalize (3 :: (sig.salt ++ digest X I i2) : Bytes) = A at hA
  have ha := length_flatMap_range _ _ _ hl
  have : e * length3 I + length3 I ≤ ((List.range I.numRounds).flatMap (part3 I sig v.c v.a v.b)).length := by
    rw [ha, ← Nat.succ_mul]
    exact Nat.mul_le_mul_right _ he
  rw [← slice_slice (l := ((List.range I.numRounds).flatMap (part3 I sig v.c v.a v.b)).length) _ this]
  have := slice_at (A := A) (B := (List.range I.numRounds).flatMap (part3 I sig v.c v.a v.b)) (C := []) hA rfl
  rw [List.append_nil] at this
  rw [this, slice_flat hl he]

/-- The part of the third hash input for one product. -/
def product3 (I : Instance) (sig : Signature) (a b : Nat → Nat → Nat → W64) (e j : Nat) : Bytes :=
  leDigits I.lambda ((sig.proofs.getD e noProof).sAtR.getD j 0) ++ leDigits I.lambda ((sig.proofs.getD e noProof).tAtR.getD j 0) ++
    (List.range I.numParties).flatMap fun p => leDigits I.lambda (a e p j) ++ leDigits I.lambda (b e p j)

omit h wf in
theorem product3_length (a b : Nat → Nat → Nat → W64) (e j : Nat) : (product3 I sig a b e j).length = length3p I := by
  unfold product3
  rw [List.length_append, List.length_append, length_leDigits, length_leDigits, length_flatMap_range _ _ (I.lambda + I.lambda) fun p hp => by rw [List.length_append, length_leDigits, length_leDigits]]
  rfl

theorem productAt_eq {e j : Nat} (he : e < I.numRounds) (hj : j < I.m1) : productAt I (hashed3By i2 X I sig v) e j = product3 I sig v.a v.b e j := by
  unfold productAt
  rw [part3At_eq h wf he]
  have hl : ∀ j < I.m1, (product3 I sig v.a v.b e j).length = length3p I := fun j _ => product3_length _ _ _ _
  have e0 : part3 I sig v.c v.a v.b e = (leDigits I.lambda (sig.proofs.getD e noProof).pAtR ++ ((List.range I.numParties).flatMap fun p => leDigits I.lambda (v.c e p))) ++
      (List.range I.m1).flatMap (product3 I sig v.a v.b e) := rfl
  have hA : (leDigits I.lambda (sig.proofs.getD e noProof).pAtR ++ ((List.range I.numParties).flatMap fun p => leDigits I.lambda (v.c e p))).length = I.lambda + I.numParties * I.lambda := by
    rw [List.length_append, length_leDigits, length_flatMap_range _ _ I.lambda fun p hp => length_leDigits _ _]
  rw [e0]
  generalize leDigits I.lambda (sig.proofs.getD e noProof).pAtR ++ ((List.range I.numParties).flatMap fun p => leDigits I.lambda (v.c e p)) = A at hA
  have ha := length_flatMap_range _ _ _ hl
  have : j * length3p I + length3p I ≤ ((List.range I.m1).flatMap (product3 I sig v.a v.b e)).length := by
    rw [ha, ← Nat.succ_mul]
    exact Nat.mul_le_mul_right _ hj
  rw [← slice_slice (l := ((List.range I.m1).flatMap (product3 I sig v.a v.b e)).length) _ this]
  have := slice_at (A := A) (B := (List.range I.m1).flatMap (product3 I sig v.a v.b e)) (C := []) hA rfl
  rw [List.append_nil] at this
  rw [this, slice_flat hl hj]

theorem third_eq (s1 : Bytes) {e : Nat} (he : e < I.numRounds) :
    (openingAt I s1 (hashed3By i2 X I sig v) e).cR = (sig.proofs.getD e noProof).pAtR ∧
    (∀ j < I.m1, (openingAt I s1 (hashed3By i2 X I sig v) e).aR.getD j 0 = (sig.proofs.getD e noProof).sAtR.getD j 0 ∧ (openingAt I s1 (hashed3By i2 X I sig v) e).bR.getD j 0 = (sig.proofs.getD e noProof).tAtR.getD j 0) ∧
    ∀ p < I.numParties, (openingAt I s1 (hashed3By i2 X I sig v) e).c p = v.c e p ∧
      ∀ j < I.m1, (openingAt I s1 (hashed3By i2 X I sig v) e).a p j = v.a e p j ∧ (openingAt I s1 (hashed3By i2 X I sig v) e).b p j = v.b e p j := by
  have w := wf.get e (by rw [h.length]; exact he)
  have r1 := (h.completes e _ (h.mem.2 ⟨he, rfl⟩)).reduced
  have red : ∀ {l : List W64}, Elements I.lambda I.m1 l → ∀ j < I.m1, Reduced I.lambda (l.getD j 0) := fun {l} hl j hj => by
    rw [getD_of_lt (by rw [hl.1]; exact hj)]
    exact hl.2 _ (List.getElem_mem _)
  have ld : ∀ w : W64, (leDigits I.lambda w).length = I.lambda := fun w => length_leDigits _ _
  have l2 : ∀ j, ∀ p < I.numParties, (leDigits I.lambda (v.a e p j) ++ leDigits I.lambda (v.b e p j)).length = I.lambda + I.lambda := fun j p _ => by rw [List.length_append, ld, ld]
  have pj : ∀ j < I.m1, slice (product3 I sig v.a v.b e j) 0 I.lambda = leDigits I.lambda ((sig.proofs.getD e noProof).sAtR.getD j 0) ∧
      slice (product3 I sig v.a v.b e j) I.lambda I.lambda = leDigits I.lambda ((sig.proofs.getD e noProof).tAtR.getD j 0) ∧
      ∀ p < I.numParties, slice (product3 I sig v.a v.b e j) (I.lambda + I.lambda + p * (I.lambda + I.lambda)) I.lambda = leDigits I.lambda (v.a e p j) ∧
        slice (product3 I sig v.a v.b e j) (I.lambda + I.lambda + p * (I.lambda + I.lambda) + I.lambda) I.lambda = leDigits I.lambda (v.b e p j) := fun j hj => by
    unfold product3
    refine ⟨?_, slice_at (ld _) (ld _), fun p hp => ?_⟩
    · rw [List.append_assoc]
      exact slice_at (A := []) rfl (ld _)
    · have ha := length_flatMap_range _ _ _ (l2 j)
      have hp0 : p * (I.lambda + I.lambda) + (I.lambda + I.lambda) ≤ I.numParties * (I.lambda + I.lambda) := by
        rw [← Nat.succ_mul]
        exact Nat.mul_le_mul_right _ hp
      have hA : (leDigits I.lambda ((sig.proofs.getD e noProof).sAtR.getD j 0) ++ leDigits I.lambda ((sig.proofs.getD e noProof).tAtR.getD j 0)).length = I.lambda + I.lambda := by rw [List.length_append, ld, ld]
      have k := slice_at (C := []) hA ha
      rw [List.append_nil] at k
      constructor
      · rw [← slice_slice (l := I.numParties * (I.lambda + I.lambda)) _ (by omega), k]
        have := slice_flat_sub (l2 j) hp (o := 0) (l := I.lambda) (by omega)
        rw [Nat.add_zero] at this
        rw [this]
        unfold slice
        rw [List.drop_zero, List.take_left' (ld _)]
      · rw [Nat.add_assoc, ← slice_slice (l := I.numParties * (I.lambda + I.lambda)) _ (by omega), k, slice_flat_sub (l2 j) hp (by omega)]
        unfold slice
        rw [List.drop_left' (ld _), List.take_of_length_le (ld _).le]
  unfold openingAt
  dsimp only
  refine ⟨?_, fun j hj => ?_, fun p hp => ⟨?_, fun j hj => ?_⟩⟩
  · rw [part3At_eq h wf he]
    unfold part3
    rw [List.append_assoc]
    exact (congrArg blockElem (slice_at (A := []) rfl (ld _))).trans (blockElem_leDigits w.pAtR)
  · rw [getD_words _ hj, getD_words _ hj, productAt_eq h wf he hj, (pj j hj).1, (pj j hj).2.1,
      blockElem_leDigits (red w.sAtR j hj), blockElem_leDigits (red w.tAtR j hj)]
    exact ⟨rfl, rfl⟩
  · rw [part3At_eq h wf he]
    have hp0 : p * I.lambda + I.lambda ≤ I.numParties * I.lambda := by
      rw [← Nat.succ_mul]
      exact Nat.mul_le_mul_right _ hp
    have lc : ∀ p < I.numParties, (leDigits I.lambda (v.c e p)).length = I.lambda := fun p _ => ld _
    rw [← slice_slice (l := I.numParties * I.lambda) _ (by omega)]
    unfold part3
    rw [slice_at (ld _) (length_flatMap_range _ _ _ lc), slice_flat lc hp, blockElem_leDigits (r1 p hp).1]
  · rw [productAt_eq h wf he hj, ((pj j hj).2.2 p hp).1, ((pj j hj).2.2 p hp).2, blockElem_leDigits ((r1 p hp).2 j hj).1, blockElem_leDigits ((r1 p hp).2 j hj).2]
    exact ⟨rfl, rfl⟩

theorem pDeltaAt_eq {e : Nat} (he : e < I.numRounds) : pDeltaAt I (input2n (I.m2 + 1) I sig) e = (sig.proofs.getD e noProof).pDelta := by
  have wp : ∀ e < I.numRounds, Elements I.lambda (I.m2 + 1) (sig.proofs.getD e noProof).pDelta := fun e he => (wf.get e (by rw [h.length]; exact he)).pDelta
  have ld : ∀ w : W64, (leDigits I.lambda w).length = I.lambda := fun w => length_leDigits _ _
  let g : Nat → Bytes := fun e => (List.range (I.m2 + 1)).flatMap fun k => leDigits I.lambda ((sig.proofs.getD e noProof).pDelta.getD k 0)
  have hg : ∀ e < I.numRounds, (g e).length = (I.m2 + 1) * I.lambda := fun e _ => length_flatMap_range _ _ _ fun _ _ => ld _
  have e0 : (sig.proofs.flatMap fun pr => (pr.pDelta.take (I.m2 + 1)).flatMap (leDigits I.lambda)) = (List.range I.numRounds).flatMap g := by
    have : sig.proofs = (List.range I.numRounds).map fun e => sig.proofs.getD e noProof := by
      apply List.ext_getElem
      · simp [h.length]
      · intro i h1 h2
        rw [List.getElem_map, List.getElem_range, getD_of_lt h1]
    conv_lhs => rw [this]
    rw [List.flatMap_map]
    rw [List.flatMap_def, List.flatMap_def]
    congr 1
    refine List.map_congr_left fun e he => ?_
    have k := wp e (List.mem_range.1 he)
    show _ = (List.range (I.m2 + 1)).flatMap fun k => leDigits I.lambda ((sig.proofs.getD e noProof).pDelta.getD k 0)
    generalize (sig.proofs.getD e noProof).pDelta = l at k
    have hl : l = (List.range (I.m2 + 1)).map fun i => l.getD i 0 := by
      apply List.ext_getElem
      · simp [k.1]
      · intro i h1 h2
        rw [List.getElem_map, List.getElem_range, getD_of_lt h1]
    rw [List.take_of_length_le k.1.le]
    conv_lhs => rw [hl]
    rw [List.flatMap_map]
  have k := wp e he
  unfold pDeltaAt input2n
  rw [e0]
  apply List.ext_getElem
  · rw [List.length_map, List.length_range, k.1]
  intro i h1 h2
  have hi : i < I.m2 + 1 := by simpa using h1
  rw [List.getElem_map, List.getElem_range]
  have hA : (2 :: (sig.salt ++ sig.h1) : Bytes).length = 33 + I.digestSize := by rw [List.length_cons, List.length_append, wf.salt, wf.h1]; omega
  rw [← List.cons_append]
  have ha := length_flatMap_range _ _ _ hg
  have ka := slice_at (C := []) hA ha
  rw [List.append_nil] at ka
  have b1 : e * ((I.m2 + 1) * I.lambda) + (I.m2 + 1) * I.lambda ≤ I.numRounds * ((I.m2 + 1) * I.lambda) := by
    rw [← Nat.succ_mul]
    exact Nat.mul_le_mul_right _ he
  have b2 : i * I.lambda + I.lambda ≤ (I.m2 + 1) * I.lambda := by
    rw [← Nat.succ_mul]
    exact Nat.mul_le_mul_right _ hi
  rw [show (e * (I.m2 + 1) + i) * I.lambda = e * ((I.m2 + 1) * I.lambda) + i * I.lambda by ring, ← slice_slice (l := I.numRounds * ((I.m2 + 1) * I.lambda)) _ (by omega), ka, slice_flat_sub hg he b2,
    slice_flat (fun _ _ => ld _) hi, getD_of_lt h2]
  exact blockElem_leDigits (k.2 _ (List.getElem_mem _))

end

/-- A repetition is accepted for the values of the claimed opening, if those agree with others for which it is. -/
theorem Spec.Completes.values {lam : Nat} {I : Instance} {pt ct : Bytes} {r : Rep} {m : Nat} {rs : List W64} {R cR cR' : W64} {aR bR aR' bR' : List W64} {bc bc' : Nat → Bytes} {c c' : Nat → W64} {a b a' b' : Nat → Nat → W64}
    (k : Completes lam I pt ct r m rs R cR aR bR bc c a b) (hm : m < I.numParties) (hc : cR' = cR) (hR : ∀ j < I.m1, aR'.getD j 0 = aR.getD j 0 ∧ bR'.getD j 0 = bR.getD j 0)
    (hv : ∀ p < I.numParties, bc' p = bc p ∧ c' p = c p ∧ ∀ j < I.m1, a' p j = a p j ∧ b' p j = b p j) : Completes lam I pt ct r m rs R cR' aR' bR' bc' c' a' b' where
  bcOpened p hp hne := (hv p hp).1.trans (k.bcOpened p hp hne)
  bcHidden := ⟨by rw [(hv m hm).1]; exact k.bcHidden.1, by
    rw [← k.bcHidden.2]
    congr 1
    exact List.map_congr_left fun p hp => (hv p (List.mem_range.1 hp)).1⟩
  cOpened p hp hne := by rw [(hv p hp).2.1]; exact k.cOpened p hp hne
  cHidden := ⟨by rw [(hv m hm).2.1]; exact k.cHidden.1, by
    rw [hc, ← k.cHidden.2]
    exact Finset.sum_congr rfl fun p hp => by rw [(hv p (Finset.mem_range.1 hp)).2.1]⟩
  aOpened p hp hne j hj := by rw [((hv p hp).2.2 j hj).1]; exact k.aOpened p hp hne j hj
  aHidden j hj := ⟨by rw [((hv m hm).2.2 j hj).1]; exact (k.aHidden j hj).1, by
    rw [(hR j hj).1, ← (k.aHidden j hj).2]
    exact Finset.sum_congr rfl fun p hp => by rw [((hv p (Finset.mem_range.1 hp)).2.2 j hj).1]⟩
  bOpened p hp hne j hj := by rw [((hv p hp).2.2 j hj).2]; exact k.bOpened p hp hne j hj
  bHidden j hj := ⟨by rw [((hv m hm).2.2 j hj).2]; exact (k.bHidden j hj).1, by
    rw [(hR j hj).2, ← (k.bHidden j hj).2]
    exact Finset.sum_congr rfl fun p hp => by rw [((hv p (Finset.mem_range.1 hp)).2.2 j hj).2]⟩

/-- Without guesses, what a query contains the hash of was asked before. -/
theorem before_of_guess {X : Xof} {I : Instance} {Q : List Bytes} (hg : ¬GuessIn X I Q) {x y : Bytes} (hx : x ∈ Q) (hy : y ∈ Q) (h : digest X I x <:+: y) : x ∈ before Q y := by
  by_contra hn
  exact hg ⟨x, hx, y, hy, h, hn⟩

theorem infix_flatMap {f : Nat → Bytes} {n i : Nat} (hi : i < n) : f i <:+: (List.range n).flatMap f := by
  rw [List.flatMap_def]
  exact List.infix_of_mem_flatten (List.mem_map_of_mem (List.mem_range.2 hi))

section
variable {I : Instance} (hI : Consistent I) {X : Xof} {i2 pk msg : Bytes} {sig : Signature} {v : Values} (h : VerifiedBy i2 X I pk msg sig v) {ms : List Nat} (wf : SigWF I ms sig)
include h

/-- The commitments are part of the input of the first hash. -/
theorem commit_infix {e p : Nat} (he : e < I.numRounds) (hp : p < I.numParties) : commitOf X I sig e (sig.proofs.getD e noProof) p <:+: input1 X I pk msg sig v.bc := by
  rw [h.input1_eq]
  have k1 : commitOf X I sig e (sig.proofs.getD e noProof) p <:+: part1 X I sig v.bc e := by
    have e0 : part1 X I sig v.bc e = ((List.range I.numParties).flatMap fun p => commitOf X I sig e (sig.proofs.getD e noProof) p ++ v.bc e p) ++ ((sig.proofs.getD e noProof).skDelta ++ (sig.proofs.getD e noProof).tDelta) := by
      rw [← List.append_assoc]; rfl
    rw [e0]
    refine ((List.prefix_append _ _).isInfix.trans (infix_flatMap (f := fun p => commitOf X I sig e (sig.proofs.getD e noProof) p ++ v.bc e p) hp)).trans (List.prefix_append _ _).isInfix
  exact (k1.trans (infix_flatMap he)).trans ((List.suffix_append _ _).trans (List.suffix_cons _ _)).isInfix

include hI wf

/-- Without collisions and guesses, the seeds of the opened parties are found in the queries before the first hash. -/
theorem found {Q : List Bytes} (hQ : Asked I X pk msg sig v i2 Q) (hc : ¬CollisionIn X I Q) (hg : ¬GuessIn X I Q) {e p : Nat} (he : e < I.numRounds) (hp : p < I.numParties)
    (hne : p ≠ (sig.proofs.getD e noProof).reveal.missing) : foundSeed I X Q (input1 X I pk msg sig v.bc) e p = some (partySeedOf X I sig e (sig.proofs.getD e noProof) p) := by
  have hq := hQ.commitments e _ (h.mem.2 ⟨he, rfl⟩) p hp hne
  have hl := h.seed_length hI wf he hp hne
  have hco : commitOf X I sig e (sig.proofs.getD e noProof) p = digest X I (sig.salt ++ le16 e ++ le16 p ++ partySeedOf X I sig e (sig.proofs.getD e noProof) p) := if_neg hne
  have hb := before_of_guess hg hq hQ.first (by rw [← hco]; exact commit_infix h he hp)
  unfold foundSeed seedFor
  rw [saltAt_input1 h wf, ((first_eq hI h wf he).2.2 p hp).1, hco]
  generalize partySeedOf X I sig e (sig.proofs.getD e noProof) p = seed at hq hl hb
  have hA : (sig.salt ++ le16 e ++ le16 p).length = 36 := by simp only [List.length_append, wf.salt, le16_length]
  have hd : (sig.salt ++ le16 e ++ le16 p ++ seed).drop 36 = seed := List.drop_left' hA
  cases hf : (before Q (input1 X I pk msg sig v.bc)).find? fun q => decide (q.length = 36 + I.seedSize ∧ q.take 36 = sig.salt ++ le16 e ++ le16 p ∧ digest X I q = digest X I (sig.salt ++ le16 e ++ le16 p ++ seed)) with
  | none =>
    have := List.find?_eq_none.1 hf _ hb
    refine absurd ?_ this
    rw [decide_eq_true_eq, List.length_append, hA, hl, List.take_left' hA]
    exact ⟨rfl, rfl, rfl⟩
  | some q =>
    have h1 := List.find?_some hf
    have h2 := List.mem_of_find?_eq_some hf
    rw [decide_eq_true_eq] at h1
    have : q = sig.salt ++ le16 e ++ le16 p ++ seed := by
      by_contra hn
      exact hc ⟨q, (mem_before h2).1, _, hq, hn, h1.2.2⟩
    rw [this, Option.map_some, hd]

theorem extract_sized (Q : List Bytes) {e : Nat} (he : e < I.numRounds) : (extract I X Q (input1 X I pk msg sig v.bc) e).Sized I := by
  have w := wf.get e (by rw [h.length]; exact he)
  obtain ⟨k1, k2, _⟩ := first_eq hI h wf he
  refine ⟨?_, ?_, fun p => ?_⟩
  · exact (congrArg List.length k1).trans w.skDelta
  · exact (congrArg List.length k2).trans w.tDelta
  · unfold extract
    dsimp only
    split
    · exact squeeze_len _ _ _
    · exact List.length_replicate

/-- The repetition with the extracted tapes is accepted for the hidden party of the signature. -/
theorem extract_accepts {Q : List Bytes} (hQ : Asked I X pk msg sig v i2 Q) (hc : ¬CollisionIn X I Q) (hg : ¬GuessIn X I Q) {e : Nat} (he : e < I.numRounds) :
    RepAccepts I pk { extract I X Q (input1 X I pk msg sig v.bc) e with pDelta := (sig.proofs.getD e noProof).pDelta } (challenge1 X I sig.h1 e) (v.Rs.getD e 0)
      (openingAt I (input1 X I pk msg sig v.bc) (hashed3By i2 X I sig v) e) (sig.proofs.getD e noProof).reveal.missing := by
  obtain ⟨k1, k2, k3⟩ := first_eq hI h wf he
  obtain ⟨o1, o2, o3⟩ := third_eq h wf (input1 X I pk msg sig v.bc) he
  have g1 : (extract I X Q (input1 X I pk msg sig v.bc) e).keyDelta = (repOf X I sig e (sig.proofs.getD e noProof)).keyDelta := k1
  have g2 : (extract I X Q (input1 X I pk msg sig v.bc) e).tDelta = (repOf X I sig e (sig.proofs.getD e noProof)).tDelta := k2
  have hm := h.missing_lt he
  have w := wf.get e (by rw [h.length]; exact he)
  have k := h.completes e _ (h.mem.2 ⟨he, rfl⟩)
  have bl := fun p hp => k.bc_length hI (repOf_sized X sig e w) p hp
  have hprod := h.product (sig.proofs.getD e noProof) (by rw [getD_of_lt (by rw [h.length]; exact he)]; exact List.getElem_mem _)
  refine ⟨Completes.values (k.move hm (bl _ hm) (k.reduced _ hm) fun p hp hne => ?_) hm o1 o2 fun p hp => ⟨(k3 p hp).2, o3 p hp⟩, ?_⟩
  · have ht : (repOf X I sig e (sig.proofs.getD e noProof)).tape p = (extract I X Q (input1 X I pk msg sig v.bc) e).tape p := by
      unfold extract
      dsimp only
      rw [found hI h wf hQ hc hg he hp hne]
      dsimp only
      rw [saltAt_input1 h wf]
      rfl
    have hk := k.opened hp hne
    generalize extract I X Q (input1 X I pk msg sig v.bc) e = r at ht g1 g2 ⊢
    exact OpenedOk.congr (r' := { r with pDelta := (sig.proofs.getD e noProof).pDelta }) g1.symm g2.symm ht (fun _ => rfl) hk
  · rw [o1, ← hprod]
    exact Finset.sum_congr rfl fun j hj => by rw [(o2 j (Finset.mem_range.1 hj)).1, (o2 j (Finset.mem_range.1 hj)).2]

end

section
variable {I : Instance} (hI : Consistent I) {pk : Bytes} {r : Fin I.numRounds → Rep}
include hI

theorem count_bad1 (hpk : pk.length = 2 * I.ctSize) (hr : ∀ e, (r e).Sized I) (hk : ∀ e, ¬KeyPair I ((r e).wholeKey I) pk) (t : Nat) : (Bad1 I pk r t).ncard ≤ few1 I (t + 1) := by
  obtain ⟨F, hF⟩ := init_supported hI.lambda
  obtain ⟨hok, hb, _⟩ := initExtensionField_ok hF
  have hf : {rs : List W64 | Elements I.lambda I.m1 rs}.Finite := (List.finite_length_eq W64 I.m1).subset fun rs h => h.1
  have hc : {rs : List W64 | Elements I.lambda I.m1 rs}.ncard = (2 ^ (8 * I.lambda)) ^ I.m1 := by
    refine (count_lists (A := {w : W64 | Reduced I.lambda w}) I.m1).trans ?_
    rw [← hb, count_reduced]
  have k := count_bad hf (fun e => lucky1 I pk (r e)) (fun e => le_trans (Set.ncard_le_ncard Set.inter_subset_left (hf.subset fun _ h => h.1)) (C52_repetition I hI pk hpk (r e) (hr e).1 (hr e).2 (hr e).3 (hk e))) (t + 1)
  rw [hc] at k
  exact k

theorem count_bad2 {d : Fin I.numRounds → List W64} (hd : ∀ e, Elements I.lambda (I.m2 + 1) (d e)) {rs : Fin I.numRounds → List W64} (hrs : rs ∈ Round1 I) (t : Nat) : (Bad2 I pk r d rs t).ncard ≤ few2 I (t + 1) := by
  obtain ⟨F, hF⟩ := init_supported hI.lambda
  obtain ⟨hok, hb, _⟩ := initExtensionField_ok hF
  have hm2 := hI.points
  have k := count_bad (Set.toFinite {R : W64 | Reduced I.lambda R ∧ Fresh I.lambda I.m2 R}) (fun e => {R | rs e ∉ lucky1 I pk (r e) ∧ R ∈ lucky2 I pk { r e with pDelta := d e } (rs e)}) (b := 2 * I.m2) (fun e => by
    refine le_trans (Set.ncard_le_ncard Set.inter_subset_left (Set.toFinite _)) ?_
    by_cases he : rs e ∈ lucky1 I pk (r e)
    · rw [show {R | rs e ∉ lucky1 I pk (r e) ∧ R ∈ lucky2 I pk { r e with pDelta := d e } (rs e)} = ∅ from Set.eq_empty_iff_forall_notMem.2 fun R hR => hR.1 he, Set.ncard_empty]
      exact Nat.zero_le _
    · refine le_trans (Set.ncard_le_ncard (t := lucky2 I pk { r e with pDelta := d e } (rs e)) (fun R hR => hR.2) (Set.toFinite _)) ?_
      by_contra hlt
      exact he ⟨hrs e, d e, hd e, not_le.1 hlt⟩) (t + 1)
  rw [← hb, count_fresh (by omega), hb] at k
  exact k

theorem count_bad3 {known : Fin I.numRounds → Nat → Prop} {d : Fin I.numRounds → List W64} {rs : Fin I.numRounds → List W64} (hrs : rs ∈ Round1 I) {Rs : Fin I.numRounds → W64} (hRs : Rs ∈ Round2 I)
    (o : Fin I.numRounds → Opening) {t1 t2 : Nat} (h1 : rs ∉ Bad1 I pk r t1) (h2 : Rs ∉ Bad2 I pk r d rs t2) : (Bad3 I pk r known d rs Rs o).ncard ≤ I.numParties ^ (t1 + t2) := by
  refine le_trans (count_few (N := I.numParties) (fun e => {m | m < I.numParties ∧ RepAccepts I pk { r e with pDelta := d e } (rs e) (Rs e) (o e) m}) (fun e m hm => hm.1)
    ({e | rs e ∈ lucky1 I pk (r e)} ∪ {e | rs e ∉ lucky1 I pk (r e) ∧ Rs e ∈ lucky2 I pk { r e with pDelta := d e } (rs e)}) ?_ |> le_trans (Set.ncard_le_ncard ?_ ?_)) (Nat.pow_le_pow_right ?_ ?_)
  · exact fun ms h e => ⟨h.1 e, (h.2 e).1⟩
  · exact (Set.Finite.pi' fun e => (Set.finite_lt_nat I.numParties).subset fun m hm => hm.1)
  · intro e he m hm m' hm'
    by_contra hne
    refine he ?_
    by_cases he1 : rs e ∈ lucky1 I pk (r e)
    · exact Or.inl he1
    · exact Or.inr ⟨he1, (hRs e).1, m, m', hm.1, hm'.1, hne, (o e).cR, (o e).aR, (o e).bR, (o e).bc, (o e).c, (o e).a, (o e).b, hm.2.1, hm'.2.1, hm.2.2⟩
  · have := (parties_bounds hI).1; omega
  · refine le_trans (Set.ncard_union_le _ _) ?_
    have a1 : ¬ t1 < _ := fun hlt => h1 ⟨hrs, hlt⟩
    have a2 : ¬ t2 < _ := fun hlt => h2 ⟨hRs, hlt⟩
    omega

end

theorem challenge2_fresh {X : Xof} {I : Instance} {h : Bytes} {Rs : List W64} (k : IsChallenge2 X I h Rs) {e : Nat} (he : e < I.numRounds) : Fresh I.lambda I.m2 (Rs.getD e 0) := by
  obtain ⟨hl, n, hn⟩ := k
  have hm : Rs.getD e 0 ∈ Rs := by
    rw [getD_of_lt (by omega)]
    exact List.getElem_mem _
  generalize Rs.getD e 0 = R at hm
  rw [← hn] at hm
  simpa using (List.mem_filter.1 (List.mem_of_mem_take hm)).2

end Banquet
