import Verif.Proofs.Tree

/-!
C10–C13: seed trees. Node numbers, seeds and the co-path are those of `Spec/Tree.lean`. Trees have at most 2^29 leaves (the code
computes sizes with `int` shifts).
-/

namespace Banquet.Props

open Spec

/-- A function used in examples in place of SHAKE. -/
def toyXof : Xof := fun _ input => ⟨fun i => input.foldl (fun a b => a * 3 + b) (BitVec.ofNat 8 (7 * i))⟩

/-- C10: every leaf of a tree that the first constructor returns has a value, and it is the seed derived from the root along the path. -/
theorem C10_leaves (X : Xof) (root salt : Bytes) (rep n : Nat) (hn : 2 ≤ n) (hN : n ≤ 2 ^ 29) (t : SeedTree)
    (h : SeedTree.ofSeed X root n salt rep = .ok t) (i : Nat) (hi : i < n) :
    t.getLeaf i = some (seedAt X root salt rep (leafNode n i)) := by
  obtain ⟨f, _, hv⟩ := ofSeed_spec X root salt rep hn hN t h
  obtain ⟨v1, v2⟩ := hv _ (leaf_ex hn hN hi)
  have e : t.numTotal - t.numLeaves + i = leafNode n i := by rw [f.nt, f.nl, total_sub hn hN]; rfl
  unfold SeedTree.getLeaf
  simp only [e]
  rw [v1, v2]
  rfl

example : (SeedTree.ofSeed toyXof [1, 2] 7 [9] 3).map (fun t => t.getLeaf 6) = .ok (some (seedAt toyXof [1, 2] [9] 3 13)) := by decide +kernel
example : (SeedTree.ofSeed toyXof [1, 2] 7 [9] 3).map (fun t => t.getLeaf 6 = t.getLeaf 5) = .ok False := by
  have h : (SeedTree.ofSeed toyXof [1, 2] 7 [9] 3).map (fun t => decide (t.getLeaf 6 = t.getLeaf 5)) = .ok false := by decide +kernel
  revert h
  cases SeedTree.ofSeed toyXof [1, 2] 7 [9] 3 with
  | error e => exact fun h => by cases h
  | ok t =>
    intro h
    injection h with h
    show Except.ok (t.getLeaf 6 = t.getLeaf 5) = _
    rw [eq_false (of_decide_eq_false h)]

/-- C11: the tree rebuilt from the reveal list has the values of the original tree at all leaves but the hidden one, and none there. -/
theorem C11_rebuild (X : Xof) (root salt : Bytes) (rep n : Nat) (hn : 2 ≤ n) (hN : n ≤ 2 ^ 29) (t t' : SeedTree) (h : Nat) (hh : h < n)
    (ht : SeedTree.ofSeed X root n salt rep = .ok t) (ht' : SeedTree.ofReveal X (t.revealAllBut h) n salt rep = .ok t') (i : Nat) (hi : i < n) :
    t'.getLeaf i = if i = h then none else t.getLeaf i := by
  obtain ⟨f, hr, hv⟩ := ofSeed_spec X root salt rep hn hN t ht
  rw [C10_leaves X root salt rep n hn hN t ht i hi]
  rw [revealAllBut_eq hn hN hh f] at ht'
  have hlen : ∀ k < depth n, (((List.range (depth n)).map fun k => if (treeExists n).getD (sibling (ancestor (leafNode n h) k)) false then t.node (sibling (ancestor (leafNode n h) k)) else List.replicate root.length 0).getD k []).length = root.length := by
    intro k hk
    rw [List.getD_eq_getElem?_getD, List.getElem?_map, List.getElem?_range hk]
    simp only [Option.map_some, Option.getD_some]
    split
    · rename_i hc
      rw [(hv _ hc).2, seedAt_length]
    · exact List.length_replicate ..
  obtain ⟨_, s2⟩ := ofReveal_spec hn hN hh X salt rep root.length _ (List.length_pos_of_ne_nil hr) (by simp) hlen
  obtain ⟨f', s3⟩ := s2 t' ht'
  obtain ⟨b1, b2⟩ := s3 _ (leaf_ex hn hN hi)
  have e : t'.numTotal - t'.numLeaves + i = leafNode n i := by rw [f'.nt, f'.nl, total_sub hn hN]; rfl
  unfold SeedTree.getLeaf
  simp only [e]
  rw [leaf_offPath hn hN hh i hi] at b1 b2
  by_cases hc : i = h
  · rw [if_pos hc, if_neg]
    intro hx
    exact b1.1 hx hc
  · rw [if_neg hc, if_pos (b1.2 hc), b2 hc]
    rw [revealV_eq hn hN hh X root salt rep _ ?_ _ ((leaf_offPath hn hN hh i hi).2 hc) (leaf_ex hn hN hi)]
    intro k hk hex
    rw [List.getD_eq_getElem?_getD, List.getElem?_map, List.getElem?_range hk]
    simp only [Option.map_some, Option.getD_some]
    rw [if_pos hex, (hv _ hex).2]

/-- C11: rebuilding does not fail, for seeds up to 32 bytes (the largest of the supplied instances). -/
theorem C11_total (X : Xof) (root salt : Bytes) (rep n : Nat) (hn : 2 ≤ n) (hN : n ≤ 2 ^ 29) (t : SeedTree) (h : Nat) (hh : h < n)
    (hl : root.length ≤ 32) (ht : SeedTree.ofSeed X root n salt rep = .ok t) : ∃ t', SeedTree.ofReveal X (t.revealAllBut h) n salt rep = .ok t' := by
  obtain ⟨f, hr, hv⟩ := ofSeed_spec X root salt rep hn hN t ht
  rw [revealAllBut_eq hn hN hh f]
  refine (ofReveal_spec hn hN hh X salt rep root.length _ (List.length_pos_of_ne_nil hr) (by simp) ?_).1 hl
  intro k hk
  rw [List.getD_eq_getElem?_getD, List.getElem?_map, List.getElem?_range hk]
  simp only [Option.map_some, Option.getD_some]
  split
  · rename_i hc
    rw [(hv _ hc).2, seedAt_length]
  · exact List.length_replicate ..

/-- A concrete tree with 13 leaves (not a power of two), hidden leaf 12: leaf 11 is rebuilt, leaf 12 is not. -/
example : ((SeedTree.ofSeed toyXof [1, 2] 13 [9] 3).bind fun t => (SeedTree.ofReveal toyXof (t.revealAllBut 12) 13 [9] 3).map fun t' =>
    (decide (t'.getLeaf 11 = t.getLeaf 11), t'.getLeaf 12, (t.getLeaf 12).isSome)) = .ok (true, none, true) := by decide +kernel

/-- C12: the reveal list has one entry per level; entry `k` is the seed of the sibling of the `k`-th node on the path from the hidden leaf to the
root, or zeros if that sibling does not exist. -/
theorem C12_copath (X : Xof) (root salt : Bytes) (rep n : Nat) (hn : 2 ≤ n) (hN : n ≤ 2 ^ 29) (t : SeedTree) (h : Nat) (hh : h < n)
    (ht : SeedTree.ofSeed X root n salt rep = .ok t) :
    (t.revealAllBut h).missing = h ∧ (t.revealAllBut h).seeds.length = Nat.clog 2 n ∧
    ∀ k < Nat.clog 2 n,
      (Present n k (sibling (ancestor (leafNode n h) k)) → (t.revealAllBut h).seeds[k]? = some (seedAt X root salt rep (sibling (ancestor (leafNode n h) k)))) ∧
      (¬Present n k (sibling (ancestor (leafNode n h) k)) → (t.revealAllBut h).seeds[k]? = some (List.replicate root.length 0)) := by
  obtain ⟨f, _, hv⟩ := ofSeed_spec X root salt rep hn hN t ht
  rw [revealAllBut_eq hn hN hh f]
  refine ⟨rfl, by simp [depth], ?_⟩
  intro k hk
  have hk : k < depth n := hk
  have hiff := ex_sib_iff hn hN hh k hk
  simp only [List.getElem?_map, List.getElem?_range hk, Option.map_some]
  constructor
  · intro hp
    rw [if_pos (hiff.2 hp), (hv _ (hiff.2 hp)).2]
  · intro hp
    rw [if_neg (fun hc => hp (hiff.1 hc))]

/-- C12: no entry belongs to the hidden leaf or one of its ancestors. -/
theorem C12_hidden (n : Nat) (hn : 2 ≤ n) (hN : n ≤ 2 ^ 29) (h : Nat) (hh : h < n) (k : Nat) (hk : k < Nat.clog 2 n) (m : Nat) :
    sibling (ancestor (leafNode n h) k) ≠ ancestor (leafNode n h) m := sib_not_anc hn hN hh k hk m

/-- Both cases of `C12_copath` occur: leaf 4 of 5 has no sibling on the lowest two levels, and a sibling on the top level. -/
example : ¬Present 5 0 (sibling (ancestor (leafNode 5 4) 0)) ∧ ¬Present 5 1 (sibling (ancestor (leafNode 5 4) 1)) ∧ Present 5 2 (sibling (ancestor (leafNode 5 4) 2)) ∧
    sibling (ancestor (leafNode 5 4) 2) = 1 := by
  have hd : depth 5 = 3 := by
    have h1 : depth 5 ≤ 3 := Nat.clog_le_of_le_pow (by norm_num)
    have h2 : 2 < depth 5 := (Nat.lt_clog_iff_pow_lt (by norm_num)).2 (by norm_num)
    omega
  simp [Present, leafNode, hd, ancestor, sibling]

/-- C13: the claim, for seeds of the supported sizes and numbers of leaves for which the sizes fit an `int`. -/
def C13_statement : Prop := ∀ (X : Xof) (root salt : Bytes) (rep n : Nat), root ≠ [] → root.length ≤ 32 → 2 ≤ n → n ≤ 2 ^ 29 →
  ∃ t, SeedTree.ofSeed X root n salt rep = .ok t

/-- C13, exactly: for seeds of at most 32 bytes the first constructor stays inside its buffers if and only if fewer than 16 leaves are missing to the next power of
two. -/
theorem C13_safe_iff (X : Xof) (root salt : Bytes) (rep n : Nat) (hr : root ≠ []) (hl : root.length ≤ 32) (hn : 2 ≤ n) (hN : n ≤ 2 ^ 29) :
    (∃ t, SeedTree.ofSeed X root n salt rep = .ok t) ↔ 2 ^ Nat.clog 2 n < n + 16 := ofSeed_ok_iff X root salt rep hn hN hr hl

/-- C13 holds for powers of two. -/
theorem C13_partial (X : Xof) (root salt : Bytes) (rep e : Nat) (hr : root ≠ []) (hl : root.length ≤ 32) (he : 1 ≤ e) (he2 : e ≤ 29) :
    ∃ t, SeedTree.ofSeed X root (2 ^ e) salt rep = .ok t := ofSeed_ok X root salt rep he he2 hr hl

/-- C13 does not hold: 33 leaves. -/
theorem C13_violated : ¬C13_statement := by
  intro h
  have h1 := h toyXof [1] [] 0 33 (by decide) (by decide) (by norm_num) (by norm_num)
  rw [C13_safe_iff toyXof [1] [] 0 33 (by decide) (by decide) (by norm_num) (by norm_num)] at h1
  have h2 : 5 < Nat.clog 2 33 := (Nat.lt_clog_iff_pow_lt (by norm_num)).2 (by norm_num)
  have h3 : 2 ^ 6 ≤ 2 ^ Nat.clog 2 33 := Nat.pow_le_pow_right (by norm_num) h2
  omega

/-- The smallest failure and its neighbour, evaluated. -/
example : (match SeedTree.ofSeed toyXof [1] 33 [] 0 with | .error e => some e | .ok _ => none) = some Err.ub := by decide +kernel
example : (match SeedTree.ofSeed toyXof [1] 32 [] 0 with | .error e => some e | .ok _ => none) = none := by decide +kernel
example : (match SeedTree.ofSeed toyXof [1] 17 [] 0 with | .error e => some e | .ok _ => none) = none := by decide +kernel

end Banquet.Props
