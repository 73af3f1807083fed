import Verif.Proofs.CodeHash
import Verif.Proofs.Sign

/-! The seed trees the code computes, partly four hashes at a time, are those over SHAKE. -/

namespace Banquet.Code

open Spec

/-- Two loops that agree on states with an invariant. -/
theorem foldlM_eq {α σ : Type} (P : σ → Prop) (g g' : σ → α → M σ) (l : List α)
    (hg : ∀ x ∈ l, ∀ t, P t → g t x = g' t x ∧ ∀ t', g' t x = .ok t' → P t') (t : σ) (h : P t) :
    l.foldlM g t = l.foldlM g' t ∧ ∀ t', l.foldlM g' t = .ok t' → P t' := by
  induction l generalizing t with
  | nil => exact ⟨rfl, fun t' e => by injection e with e; exact e ▸ h⟩
  | cons x l ih =>
    obtain ⟨e, hp⟩ := hg x List.mem_cons_self t h
    rw [List.foldlM_cons, List.foldlM_cons, e]
    cases hx : g' t x with
    | error er => exact ⟨rfl, fun t' e => by cases e⟩
    | ok t1 => exact ih (fun y hy => hg y (List.mem_cons_of_mem _ hy)) t1 (hp t1 hx)

theorem bind_eq {α β : Type} {x y : M α} {g g' : α → M β} (h : x = y) (hg : ∀ a, y = .ok a → g a = g' a) : (x >>= g) = (y >>= g') := by
  rw [h]
  cases hy : y with
  | error e => rfl
  | ok a => exact hg a hy

/-- All nodes of the tree hold seeds of the seed size. -/
def Good (ss : Nat) (t : SeedTree) : Prop := t.seedSize = ss ∧ ∀ i, t.ex i = true → (t.node i).length = ss

theorem getD_set_length {l : List Bytes} {j i : Nat} {v : Bytes} {ss : Nat} (hv : v.length = ss) (h : (l.getD i []).length = ss) : ((l.set j v).getD i []).length = ss := by
  rw [List.getD_eq_getElem?_getD, List.getElem?_set]
  split
  · split
    · exact hv
    · rename_i h1 h2
      subst h1
      rw [List.getD_eq_getElem?_getD, List.getElem?_eq_none (by omega)] at h
      exact h
  · rw [← List.getD_eq_getElem?_getD]
    exact h

theorem good_put {ss : Nat} {t : SeedTree} (h : Good ss t) (i : Nat) (ch : Bytes × Bytes) (h1 : ch.1.length = ss) (h2 : ch.2.length = ss) : Good ss (t.putChildren i ch) := by
  refine ⟨?_, ?_⟩
  · unfold SeedTree.putChildren
    split <;> exact h.1
  · intro j hj
    have hj' : t.ex j = true := by
      revert hj
      unfold SeedTree.putChildren
      split <;> exact id
    unfold SeedTree.putChildren SeedTree.node
    split
    · exact getD_set_length h2 (getD_set_length h1 (h.2 j hj'))
    · exact getD_set_length h1 (h.2 j hj')

theorem active_ex {t : SeedTree} {nv : Bool} {i : Nat} (h : t.active nv i = true) : t.ex i = true := by
  unfold SeedTree.active at h
  exact (Bool.and_eq_true_iff.mp h).1

variable {f : St → St} {H : Hash} {v1 : H.one.State → St} {v4 : H.four.State → Fin 4 → St} (h1 : Snp f H.one v1) (h4 : PlSnp f H.four v4)

include h1 in
theorem expandOne_eq {ss : Nat} (hs : Small ss) (salt : Bytes) (hsalt : Small salt.length) (rep : Nat) (nv : Bool) (i : Nat) (t : SeedTree) (h : Good ss t) :
    expandOne H.one salt rep nv t i = SeedTree.expandOne (shake f) salt rep nv t i ∧ ∀ t', SeedTree.expandOne (shake f) salt rep nv t i = .ok t' → Good ss t' := by
  unfold expandOne SeedTree.expandOne
  split
  · rename_i ha
    have hl := h.2 i (active_ex ha)
    split
    · refine ⟨?_, ?_⟩
      · rw [expandSeed_eq h1 (t.node i) salt rep i (t.ex (2 * i + 2)) (by rw [hl]; exact hs) hsalt, ok_bind]
        unfold SeedTree.putChildren
        split <;> rename_i hx
        · rfl
        · rfl
      · intro t' e
        injection e with e
        rw [← e]
        exact good_put h i _ (by simp [Banquet.expandSeed, squeeze_len, hl]) (by simp [Banquet.expandSeed, squeeze_len, hl])
    · exact ⟨rfl, fun t' e => by cases e⟩
  · exact ⟨rfl, fun t' e => by injection e with e; exact e ▸ h⟩

include h4 in
theorem expandFour_eq {ss : Nat} (hs : Small ss) (dummy salt : Bytes) (hd : ss ≤ dummy.length) (hsalt : Small salt.length) (rep : Nat) (nv : Bool) (i : Nat) (t : SeedTree) (h : Good ss t) :
    expandFour H.four dummy salt rep nv t i = SeedTree.expandFour (shake f) salt rep nv t i ∧ ∀ t', SeedTree.expandFour (shake f) salt rep nv t i = .ok t' → Good ss t' := by
  have hss := h.1
  refine ⟨?_, ?_⟩
  · unfold expandFour SeedTree.expandFour
    refine bind_eq rfl fun _ _ => bind_eq rfl fun _ _ => bind_eq rfl fun _ _ => ?_
    rw [expandSeed4_eq h4 t.seedSize _ salt rep i (fun l => ?_) (by rw [hss]; exact hs) hsalt, ok_bind]
    · congr 1
      have e1 : List.finRange 4 = [0, 1, 2, 3] := by decide
      have e2 : List.range 4 = [0, 1, 2, 3] := by decide
      rw [e1, e2]
      simp only [List.foldl_cons, List.foldl_nil, Fin.isValue, Fin.val_zero, Fin.val_one, Fin.val_two, show ((3 : Fin 4) : Nat) = 3 from rfl, Nat.add_zero]
      cases t.active nv i <;> cases t.active nv (i + 1) <;> cases t.active nv (i + 2) <;> cases t.active nv (i + 3) <;> rfl
    · split
      · rename_i ha
        rw [h.2 _ (active_ex ha), hss]
      · rw [hss]; exact hd
  · intro t' e
    unfold SeedTree.expandFour at e
    cases hr : require .ub (nv || t.active nv i) with
    | error er => rw [hr] at e; cases e
    | ok _ =>
      rw [hr, ok_bind] at e
      cases hr : require .ub ((List.range 4).all fun j => !t.active nv (i + j) || decide (2 * (i + j) + 1 < t.numTotal)) with
      | error er => rw [hr] at e; cases e
      | ok _ =>
        rw [hr, ok_bind] at e
        cases hr : require .ub (decide (t.seedSize ≤ 32) || (List.range 4).all fun j => t.active nv (i + j) && t.ex (2 * (i + j) + 2)) with
        | error er => rw [hr] at e; cases e
        | ok _ =>
          rw [hr, ok_bind] at e
          injection e with e
          rw [← e]
          have key : ∀ (l : List Nat) (u : SeedTree), Good ss u → Good ss (l.foldl (fun u j =>
              if t.active nv (i + j) then u.putChildren (i + j) (expandSeedLane (shake f) t.seedSize (t.node (i + j)) salt rep (i + j)) else u) u) := by
            intro l
            induction l with
            | nil => exact fun u hu => hu
            | cons j l ih =>
              intro u hu
              rw [List.foldl_cons]
              apply ih
              split
              · exact good_put hu _ _ (by simp [expandSeedLane, squeeze_len, hss]) (by simp [expandSeedLane, squeeze_len, hss])
              · exact hu
          exact key _ t h

include h1 h4 in
theorem expandAll_eq {ss : Nat} (hs : Small ss) (dummy : Nat → Bytes) (hd : ∀ b, ss ≤ (dummy b).length) (salt : Bytes) (hsalt : Small salt.length) (rep : Nat) (nv : Bool) (t : SeedTree) (h : Good ss t) :
    expandAll H dummy salt rep nv t = SeedTree.expandAll (shake f) salt rep nv t ∧ ∀ t', SeedTree.expandAll (shake f) salt rep nv t = .ok t' → Good ss t' := by
  unfold expandAll SeedTree.expandAll
  simp only
  set first := min (getParent (t.numTotal - 1)) 2 + 1
  set blocks := (getParent (t.numTotal - 1) / 4 * 4 + 3 - first) / 4
  obtain ⟨e1, p1⟩ := foldlM_eq (Good ss) (expandOne H.one salt rep nv) (SeedTree.expandOne (shake f) salt rep nv) (List.range first)
    (fun i _ t ht => expandOne_eq h1 hs salt hsalt rep nv i t ht) t h
  have p2 := fun t1 (ht1 : Good ss t1) => foldlM_eq (Good ss) (fun t b => expandFour H.four (dummy b) salt rep nv t (first + 4 * b)) (fun t b => SeedTree.expandFour (shake f) salt rep nv t (first + 4 * b))
    (List.range blocks) (fun b _ t ht => expandFour_eq h4 hs (dummy b) salt (hd b) hsalt rep nv _ t ht) t1 ht1
  have p3 := fun t1 (ht1 : Good ss t1) => foldlM_eq (Good ss) (fun t d => expandOne H.one salt rep nv t (first + 4 * blocks + d)) (fun t d => SeedTree.expandOne (shake f) salt rep nv t (first + 4 * blocks + d))
    (List.range (getParent (t.numTotal - 1) + 1 - (first + 4 * blocks))) (fun d _ t ht => expandOne_eq h1 hs salt hsalt rep nv _ t ht) t1 ht1
  refine ⟨bind_eq e1 fun t1 ht1 => bind_eq (p2 t1 (p1 t1 ht1)).1 fun t2 ht2 => (p3 t2 ((p2 t1 (p1 t1 ht1)).2 t2 ht2)).1, ?_⟩
  intro t' e
  cases h1' : (List.range first).foldlM (SeedTree.expandOne (shake f) salt rep nv) t with
  | error er => rw [h1'] at e; cases e
  | ok t1 =>
    rw [h1', ok_bind] at e
    cases h2' : (List.range blocks).foldlM (fun t b => SeedTree.expandFour (shake f) salt rep nv t (first + 4 * b)) t1 with
    | error er => rw [h2'] at e; cases e
    | ok t2 =>
      rw [h2', ok_bind] at e
      exact (p3 t2 ((p2 t1 (p1 t1 h1')).2 t2 h2')).2 t' e

theorem treeExists_length (n : Nat) : (treeExists n).length = treeTotal n := by
  unfold treeExists
  simp only [List.length_set]
  have key : ∀ (l : List Nat) (ex : List Bool), (l.foldl (fun (ex : List Bool) d =>
      if ex.getD (2 * (treeTotal n - n - d) + 1) false || ex.getD (2 * (treeTotal n - n - d) + 2) false then ex.set (treeTotal n - n - d) true else ex) ex).length = ex.length := by
    intro l
    induction l with
    | nil => exact fun _ => rfl
    | cons d l ih =>
      intro ex
      rw [List.foldl_cons, ih]
      split <;> simp
  rw [key]
  simp

theorem good_init (n ss : Nat) (hv : List Bool) : Good ss ⟨List.replicate (treeTotal n) (List.replicate ss 0), treeExists n, hv, ss, n, treeTotal n⟩ := by
  refine ⟨rfl, fun i hi => ?_⟩
  have hi' : i < treeTotal n := by
    by_contra hc
    unfold SeedTree.ex at hi
    simp only at hi
    rw [List.getD_eq_getElem?_getD, List.getElem?_eq_none (by rw [treeExists_length]; omega)] at hi
    cases hi
  unfold SeedTree.node
  simp only
  rw [List.getD_eq_getElem?_getD, List.getElem?_replicate, if_pos hi']
  simp

include h1 h4 in
theorem ofSeed_eq (dummy : Nat → Bytes) (seed : Bytes) (hs : Small seed.length) (hd : ∀ b, seed.length ≤ (dummy b).length) (n : Nat) (salt : Bytes) (hsalt : Small salt.length) (rep : Nat) :
    ofSeed H dummy seed n salt rep = SeedTree.ofSeed (shake f) seed n salt rep := by
  unfold ofSeed SeedTree.ofSeed
  refine bind_eq rfl fun _ _ => bind_eq rfl fun _ _ => ?_
  refine (expandAll_eq h1 h4 hs dummy hd salt hsalt rep false _ ⟨rfl, fun i hi => ?_⟩).1
  exact getD_set_length rfl ((good_init n seed.length ((List.replicate (treeTotal n) false).set 0 true)).2 i hi)

theorem putRevealed_good {ss : Nat} (seeds : List Bytes) (p : Nat × Nat) (t : SeedTree) (h : Good ss t) : ∀ t', SeedTree.putRevealed seeds t p = .ok t' → Good ss t' := by
  intro t' e
  unfold SeedTree.putRevealed at e
  split at e
  · split at e
    · cases e
    · split at e
      · cases e
      · rename_i s _ hl
        injection e with e
        rw [← e]
        refine ⟨h.1, fun i hi => getD_set_length ?_ (h.2 i hi)⟩
        rw [← h.1]
        exact not_not.mp hl
  · injection e with e
    exact e ▸ h

include h1 h4 in
theorem ofReveal_eq (dummy : Nat → Bytes) (rl : RevealList) (ss : Nat) (hrl : ∀ s ∈ rl.seeds, s.length = ss) (hs : Small ss) (hd : ∀ b, ss ≤ (dummy b).length) (n : Nat) (salt : Bytes) (hsalt : Small salt.length) (rep : Nat) :
    ofReveal H dummy rl n salt rep = SeedTree.ofReveal (shake f) rl n salt rep ∧ ∀ t, SeedTree.ofReveal (shake f) rl n salt rep = .ok t → Good ss t := by
  unfold ofReveal SeedTree.ofReveal
  obtain ⟨seeds, missing⟩ := rl
  cases seeds with
  | nil =>
    refine ⟨rfl, fun t e => ?_⟩
    cases hr : require .ub (decide (2 ≤ n)) <;> rw [hr] at e <;> cases e
  | cons s0 seeds =>
    have e0 : s0.length = ss := hrl s0 List.mem_cons_self
    simp only [e0]
    have hp := foldlM_eq (Good ss) (SeedTree.putRevealed (s0 :: seeds)) (SeedTree.putRevealed (s0 :: seeds)) ((pathUp (treeTotal n - n + missing)).zipIdx)
      (fun p _ t ht => ⟨rfl, putRevealed_good (s0 :: seeds) p t ht⟩) _ (good_init n ss (List.replicate (treeTotal n) false))
    refine ⟨bind_eq rfl fun _ _ => bind_eq rfl fun _ _ => bind_eq rfl fun t ht => (expandAll_eq h1 h4 hs dummy hd salt hsalt rep true t (hp.2 t ht)).1, ?_⟩
    intro t e
    cases hr : require .ub (decide (2 ≤ n)) with
    | error er => rw [hr] at e; cases e
    | ok _ =>
      rw [hr, ok_bind] at e
      cases hr : require .ub (decide (s0 ≠ [])) with
      | error er => rw [hr] at e; cases e
      | ok _ =>
        rw [hr, ok_bind] at e
        cases hf : ((pathUp (treeTotal n - n + missing)).zipIdx).foldlM (SeedTree.putRevealed (s0 :: seeds))
            ⟨List.replicate (treeTotal n) (List.replicate ss 0), treeExists n, List.replicate (treeTotal n) false, ss, n, treeTotal n⟩ with
        | error er => rw [hf] at e; cases e
        | ok t1 =>
          rw [hf, ok_bind] at e
          exact (expandAll_eq h1 h4 hs dummy hd salt hsalt rep true t1 (hp.2 t1 hf)).2 t e

end Banquet.Code
