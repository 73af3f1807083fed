import Verif.Proofs.Product

/-! The AES evaluation of all parties together. -/

namespace Banquet

open Spec

theorem getD_xorOf {n : Nat} (N : Nat) (f : Nat → Bytes) {i : Nat} (hi : i < n) : (xorOf n ((List.range N).map f)).getD i 0 = (List.range N).foldl (fun a p => a ^^^ (f p).getD i 0) 0 := by
  unfold xorOf
  rw [getD_range_map _ _ _ _ hi, List.map_map, List.foldl_map]
  rfl

theorem fold_fix_first {w : Nat} (N : Nat) (hN : 0 < N) (d : BitVec w) (f : Nat → BitVec w) :
    (List.range N).foldl (fun a p => a ^^^ (if p = 0 then d ^^^ f p else f p)) 0 = d ^^^ (List.range N).foldl (fun a p => a ^^^ f p) 0 := by
  obtain ⟨n, rfl⟩ : ∃ n, N = n + 1 := ⟨N - 1, by omega⟩
  rw [List.range_succ_eq_map, List.foldl_cons, List.foldl_cons, List.foldl_map, List.foldl_map]
  simp only [if_true, Nat.succ_ne_zero, if_false]
  rw [show (0 : BitVec w) ^^^ (d ^^^ f 0) = (0 ^^^ f 0) ^^^ d by rw [BitVec.xor_comm d, BitVec.xor_assoc], foldl_xor_acc, BitVec.xor_comm]

/-- The shares corrected in the first party add up to the corrected value. -/
theorem xorOf_fix {n N : Nat} (hN : 0 < N) (x : Bytes) (hx : x.length = n) (f : Nat → Bytes) (hf : ∀ p, (f p).length = n) :
    xorOf n ((List.range N).map fun p => if p = 0 then xorBytes (((List.range N).map f).foldl (fun d s => xorBytes s d) x) (f p) else f p) = x := by
  have hm : ∀ b ∈ (List.range N).map f, b.length = n := by
    intro b hb
    obtain ⟨p, _, rfl⟩ := List.mem_map.1 hb
    exact hf p
  have hfold : ((List.range N).map f).foldl (fun d s => xorBytes s d) x = ((List.range N).map f).foldl xorBytes x := by
    rw [List.foldl_map]
    exact foldl_xorBytes_swap _ f hf x hx
  rw [hfold]
  have hl := foldl_xorBytes_length _ x hx hm
  refine ext_getD (n := n) 0 (length_xorOf _ _) hx fun i hi => ?_
  rw [getD_xorOf _ _ hi]
  have e : ∀ p, (if p = 0 then xorBytes (((List.range N).map f).foldl xorBytes x) (f p) else f p).getD i 0 =
      if p = 0 then ((List.range N).map f |>.foldl xorBytes x).getD i 0 ^^^ (f p).getD i 0 else (f p).getD i 0 := by
    intro p
    split
    · rw [getD_xorBytes (by rw [hl, hf])]
    · rfl
  simp only [e]
  rw [fold_fix_first N hN, foldl_xorBytes_getD _ x hx hm, List.map_map, List.foldl_map]
  have e2 := foldl_xor_acc (List.range N) (fun p => (f p).getD i 0) 0 (x.getD i 0)
  rw [show (0 : Byte) ^^^ x.getD i 0 = x.getD i 0 from BitVec.zero_xor] at e2
  simp only [Function.comp] at e2 ⊢
  rw [e2, BitVec.xor_comm, ← BitVec.xor_assoc, BitVec.xor_self]
  exact BitVec.zero_xor

/-- The length of a part of a tape. -/
theorem tapeBytes_length (X : Xof) (I : Instance) (seed salt : Bytes) (e p : Nat) {start len : Nat} (h : start + len ≤ I.tapeSize) :
    (tapeBytes (genTape X I.tapeSize seed salt e p) start len).length = len := by
  unfold tapeBytes
  refine slice_length ?_
  unfold genTape
  rw [squeeze_len]
  exact h

namespace Ctx
variable {I : Instance} (hI : Consistent I) (c : Ctx) (pt : Bytes)
include hI

/-- Broadcasts and S-box inputs of all parties together. -/
theorem all_eq (hk : ∀ p, (c.key I p).length = I.aes.keySize) (ht : ∀ p, (c.t I p).length = I.aes.numSboxes) :
    xorOf I.aes.numSboxes ((List.range I.numParties).map fun p => (c.out I pt p).1) =
      (aesParty I.aes.keySize true (xorOf I.aes.keySize ((List.range I.numParties).map (c.key I))) (xorOf I.aes.numSboxes ((List.range I.numParties).map (c.t I))) pt).1 ∧
    xorOf I.ctSize ((List.range I.numParties).map fun p => (c.out I pt p).2) =
      (aesParty I.aes.keySize true (xorOf I.aes.keySize ((List.range I.numParties).map (c.key I))) (xorOf I.aes.numSboxes ((List.range I.numParties).map (c.t I))) pt).2 := by
  obtain ⟨n, hn⟩ : ∃ n, I.numParties = n + 1 := ⟨I.numParties - 1, by have := (parties_bounds hI).1; omega⟩
  have hr : ∀ {α : Type} (g : Nat → α), (List.range I.numParties).map g = g 0 :: (List.range n).map fun p => g (p + 1) := by
    intro α g
    rw [hn, List.range_succ_eq_map, List.map_cons, List.map_map]
    rfl
  have hmem : ∀ {m : Nat} (g : Nat → Bytes), (∀ p, (g p).length = m) → ∀ b ∈ (List.range n).map fun p => g (p + 1), b.length = m := by
    intro m g hg b hb
    obtain ⟨p, _, rfl⟩ := List.mem_map.1 hb
    exact hg _
  have h1 : ∀ p, (c.out I pt p).1.length = I.aes.numSboxes := fun p => (out_length hI c pt p).1
  have h2 : ∀ p, (c.out I pt p).2.length = I.ctSize := fun p => (out_length hI c pt p).2
  rw [hr, hr, hr, hr, xorOf_eq _ _ (h1 0) (hmem (fun p => (c.out I pt p).1) h1), xorOf_eq _ _ (h2 0) (hmem (fun p => (c.out I pt p).2) h2), xorOf_eq _ _ (hk 0) (hmem _ hk), xorOf_eq _ _ (ht 0) (hmem _ ht)]
  obtain ⟨e1, e2⟩ := parties_fold I.aes.keySize true pt ((List.range n).map fun p => (c.key I (p + 1), c.t I (p + 1))) (by
    intro q hq
    obtain ⟨p, _, rfl⟩ := List.mem_map.1 hq
    exact ⟨hk (p + 1), ht (p + 1)⟩) (c.key I 0) (c.t I 0) (hk 0) (ht 0)
  simp only [List.map_map, Function.comp_def] at e1 e2
  have e0 : c.out I pt 0 = aesParty I.aes.keySize true (c.key I 0) (c.t I 0) pt := rfl
  have es : ∀ p, c.out I pt (p + 1) = aesParty I.aes.keySize false (c.key I (p + 1)) (c.t I (p + 1)) pt := fun p => rfl
  rw [e1, e2, e0]
  simp only [es, and_self]

end Ctx

end Banquet
