import Verif.Proofs.TreeShape

/-! Invariant of the loops that expand a seed tree. -/

namespace Banquet

open Spec

set_option linter.unusedSectionVars false

theorem squeeze_length (s : Stream) (off len : Nat) : (s.squeeze off len).length = len := by
  simp [Stream.squeeze]

/-- Loop rule for `foldlM` over a range: `S` is a condition under which no step fails. -/
theorem foldlM_range_inv {α : Type} (f : α → Nat → M α) (P : Nat → α → Prop) (S : Prop) (k : Nat)
    (h : ∀ i < k, ∀ t, P i t → (S → ∃ t', f t i = .ok t') ∧ ∀ t', f t i = .ok t' → P (i + 1) t') (t : α) (h0 : P 0 t) :
    (S → ∃ t', (List.range k).foldlM f t = .ok t') ∧ ∀ t', (List.range k).foldlM f t = .ok t' → P k t' := by
  induction k with
  | zero =>
    refine ⟨fun _ => ⟨t, rfl⟩, ?_⟩
    intro t' ht
    have : t = t' := by injection ht
    rw [← this]; exact h0
  | succ k ih =>
    obtain ⟨i1, i2⟩ := ih (fun i hi => h i (by omega))
    rw [List.range_succ, List.foldlM_append]
    cases hk : (List.range k).foldlM f t with
    | error e =>
      refine ⟨?_, ?_⟩
      · intro hS
        obtain ⟨t', ht'⟩ := i1 hS
        rw [hk] at ht'; cases ht'
      · intro t' ht'; cases ht'
    | ok u =>
      have hP := i2 u hk
      obtain ⟨j1, j2⟩ := h k (by omega) u hP
      have e : (Except.ok u >>= fun init' => List.foldlM f init' [k]) = f u k := by
        show List.foldlM f u [k] = _
        rw [List.foldlM_cons]
        cases f u k <;> rfl
      rw [e]
      exact ⟨j1, j2⟩

/-- A successful loop was successful at every step. -/
theorem foldlM_range_steps {α : Type} (f : α → Nat → M α) (P : Nat → α → Prop) (k : Nat)
    (h : ∀ i < k, ∀ t, P i t → ∀ t', f t i = .ok t' → P (i + 1) t') (t : α) (h0 : P 0 t) (t' : α) (hr : (List.range k).foldlM f t = .ok t') :
    ∀ i < k, ∃ u u', P i u ∧ f u i = .ok u' := by
  induction k generalizing t' with
  | zero => intro i hi; omega
  | succ k ih =>
    rw [List.range_succ, List.foldlM_append] at hr
    cases hk : (List.range k).foldlM f t with
    | error e => rw [hk] at hr; cases hr
    | ok u =>
      rw [hk] at hr
      have hP := (foldlM_range_inv f P False k (fun i hi t ht => ⟨fun hc => hc.elim, h i (by omega) t ht⟩) t h0).2 u hk
      intro i hi
      rcases Nat.lt_succ_iff_lt_or_eq.1 hi with hlt | heq
      · exact ih (fun i hi => h i (by omega)) u hk i hlt
      · subst heq
        have e : (Except.ok u >>= fun init' => List.foldlM f init' [i]) = f u i := by
          show List.foldlM f u [i] = _
          rw [List.foldlM_cons]
          cases f u i <;> rfl
        rw [e] at hr
        exact ⟨u, t', hP, hr⟩

/-- Facts about a tree that never change. -/
structure TreeFrame (n ss : Nat) (t : SeedTree) : Prop where
  ex : t.nodeExists = treeExists n
  dl : t.data.length = treeTotal n
  hl : t.hasValue.length = treeTotal n
  ss : t.seedSize = ss
  nl : t.numLeaves = n
  nt : t.numTotal = treeTotal n

/-- `i` nodes have been expanded: exactly the known nodes reached so far have a value, and it is `V`. -/
structure TreeInv (n ss : Nat) (V : Nat → Bytes) (K B : Nat → Prop) (i : Nat) (t : SeedTree) : Prop where
  frame : TreeFrame n ss t
  sound : ∀ j, t.hv j = true → K j ∧ t.node j = V j
  complete : ∀ j, (treeExists n).getD j false = true → K j → (B j ∨ (0 < j ∧ K ((j - 1) / 2) ∧ (j - 1) / 2 < i)) → t.hv j = true

/-- What the values and the set of known nodes have to satisfy. -/
structure TreeSpec (X : Xof) (salt : Bytes) (rep n ss : Nat) (V : Nat → Bytes) (K B : Nat → Prop) : Prop where
  closed : ∀ i, K i → K (2 * i + 1) ∧ K (2 * i + 2)
  step : ∀ i, K i → (V (2 * i + 1), V (2 * i + 2)) = expandSeed X (V i) salt rep i
  len : ∀ i, K i → (V i).length = ss
  reach : ∀ j, (treeExists n).getD j false = true → K j → B j ∨ (0 < j ∧ K ((j - 1) / 2))

theorem getD_set_bytes (l : List Bytes) (k i : Nat) (v : Bytes) : (l.set k v).getD i [] = if k = i ∧ i < l.length then v else l.getD i [] := by
  rw [List.getD_eq_getElem?_getD, List.getElem?_set, List.getD_eq_getElem?_getD]
  by_cases h : k = i
  · subst h
    by_cases hk : k < l.length
    · simp [hk]
    · simp [hk]
  · simp [h]

theorem putChildren_frame {n ss : Nat} {t : SeedTree} (h : TreeFrame n ss t) (i : Nat) (ch : Bytes × Bytes) : TreeFrame n ss (t.putChildren i ch) := by
  unfold SeedTree.putChildren
  split
  · exact ⟨h.ex, by simp [h.dl], by simp [h.hl], h.ss, h.nl, h.nt⟩
  · exact ⟨h.ex, by simp [h.dl], by simp [h.hl], h.ss, h.nl, h.nt⟩

section
variable {n ss : Nat} (hn : 2 ≤ n) (hN : n ≤ 2 ^ 29) 
include hn hN

theorem putChildren_hv {t : SeedTree} (h : TreeFrame n ss t) (i : Nat) (ch : Bytes × Bytes) (hr : 2 * i + 1 < treeTotal n) (j : Nat) :
    (t.putChildren i ch).hv j = if j = 2 * i + 1 ∨ (j = 2 * i + 2 ∧ (treeExists n).getD (2 * i + 2) false = true) then true else t.hv j := by
  have hex : t.ex (2 * i + 2) = (treeExists n).getD (2 * i + 2) false := by unfold SeedTree.ex; rw [h.ex]
  unfold SeedTree.putChildren
  rw [hex]
  obtain ⟨f1, _⟩ := ex_facts hn hN
  by_cases hc : (treeExists n).getD (2 * i + 2) false = true
  · rw [if_pos hc]
    have := f1 _ hc
    unfold SeedTree.hv
    simp only [getD_set_bool, List.length_set, h.hl]
    by_cases h1 : j = 2 * i + 1
    · rw [if_neg (by omega), if_pos (by omega), if_pos (Or.inl h1)]
    · by_cases h2 : j = 2 * i + 2
      · rw [if_pos (by omega), if_pos (Or.inr ⟨h2, hc⟩)]
      · rw [if_neg (by omega), if_neg (by omega), if_neg]
        rintro (h | h)
        · exact h1 h
        · exact h2 h.1
  · rw [if_neg hc]
    unfold SeedTree.hv
    simp only [getD_set_bool, h.hl]
    by_cases h1 : j = 2 * i + 1
    · rw [if_pos (by omega), if_pos (Or.inl h1)]
    · rw [if_neg (by omega), if_neg]
      rintro (h | h)
      · exact h1 h
      · exact hc h.2

theorem putChildren_node {t : SeedTree} (h : TreeFrame n ss t) (i : Nat) (ch : Bytes × Bytes) (hr : 2 * i + 1 < treeTotal n) (j : Nat) :
    (t.putChildren i ch).node j = if j = 2 * i + 1 then ch.1 else if j = 2 * i + 2 ∧ (treeExists n).getD (2 * i + 2) false = true then ch.2 else t.node j := by
  have hex : t.ex (2 * i + 2) = (treeExists n).getD (2 * i + 2) false := by unfold SeedTree.ex; rw [h.ex]
  unfold SeedTree.putChildren
  rw [hex]
  obtain ⟨f1, _⟩ := ex_facts hn hN
  by_cases hc : (treeExists n).getD (2 * i + 2) false = true
  · rw [if_pos hc]
    have := f1 _ hc
    unfold SeedTree.node
    simp only [getD_set_bytes, List.length_set, h.dl]
    by_cases h1 : j = 2 * i + 1
    · rw [if_neg (by omega), if_pos (by omega), if_pos h1]
    · by_cases h2 : j = 2 * i + 2
      · rw [if_pos (by omega), if_neg h1, if_pos ⟨h2, hc⟩]
      · rw [if_neg (by omega), if_neg (by omega), if_neg h1, if_neg]
        exact fun h => h2 h.1
  · rw [if_neg hc]
    unfold SeedTree.node
    simp only [getD_set_bytes, h.dl]
    by_cases h1 : j = 2 * i + 1
    · rw [if_pos (by omega), if_pos h1]
    · rw [if_neg (by omega), if_neg h1, if_neg]
      exact fun h => hc h.2

variable {X : Xof} {salt : Bytes} {rep : Nat} {V : Nat → Bytes} {K B : Nat → Prop} {nv : Bool}
variable (hS : TreeSpec X salt rep n ss V K B) (hnv : nv = false → ∀ j, K j)
include hS hnv

theorem active_iff {t : SeedTree} {i0 : Nat} (h : TreeInv n ss V K B i0 t) (i : Nat) (hi : (i - 1) / 2 < i0 ∨ i = 0) :
    (t.active nv i = true ↔ (treeExists n).getD i false = true ∧ K i) ∧ (t.active nv i = true → t.node i = V i) := by
  have hex : t.ex i = (treeExists n).getD i false := by unfold SeedTree.ex; rw [h.frame.ex]
  have hv : (treeExists n).getD i false = true → K i → t.hv i = true := by
    intro h1 h2
    refine h.complete i h1 h2 ?_
    rcases hS.reach i h1 h2 with hb | hb
    · exact Or.inl hb
    · exact Or.inr ⟨hb.1, hb.2, by omega⟩
  have key : t.active nv i = true ↔ (treeExists n).getD i false = true ∧ K i := by
    unfold SeedTree.active
    rw [hex]
    cases nv with
    | false =>
      simp only [Bool.not_false, Bool.true_or, Bool.and_true]
      exact ⟨fun hh => ⟨hh, hnv rfl i⟩, fun hh => hh.1⟩
    | true =>
      simp only [Bool.not_true, Bool.false_or, Bool.and_eq_true]
      exact ⟨fun hh => ⟨hh.1, (h.sound i hh.2).1⟩, fun hh => ⟨hh.1, hv hh.1 hh.2⟩⟩
  refine ⟨key, ?_⟩
  intro ha
  obtain ⟨h1, h2⟩ := key.1 ha
  exact (h.sound i (hv h1 h2)).2

/-- Expanding one node. -/
theorem inv_put {t : SeedTree} {i : Nat} (h : TreeInv n ss V K B i t) (hi : i < treeTotal n - n) (he : (treeExists n).getD i false = true) (hK : K i) :
    TreeInv n ss V K B (i + 1) (t.putChildren i (expandSeed X (V i) salt rep i)) := by
  obtain ⟨f1, _⟩ := ex_facts hn hN
  have hr : 2 * i + 1 < treeTotal n := f1 _ (ex_child hn hN i hi he)
  have hst := hS.step i hK
  have e1 : (expandSeed X (V i) salt rep i).1 = V (2 * i + 1) := by rw [← hst]
  have e2 : (expandSeed X (V i) salt rep i).2 = V (2 * i + 2) := by rw [← hst]
  refine ⟨putChildren_frame h.frame i _, ?_, ?_⟩
  · intro j hj
    rw [putChildren_hv hn hN h.frame i _ hr] at hj
    rw [putChildren_node hn hN h.frame i _ hr, e1, e2]
    by_cases h1 : j = 2 * i + 1
    · rw [if_pos h1, h1]; exact ⟨(hS.closed i hK).1, rfl⟩
    · by_cases h2 : j = 2 * i + 2 ∧ (treeExists n).getD (2 * i + 2) false = true
      · rw [if_neg h1, if_pos h2, h2.1]; exact ⟨(hS.closed i hK).2, rfl⟩
      · rw [if_neg h1, if_neg h2]
        rw [if_neg (by rintro (h | h); exacts [h1 h, h2 h])] at hj
        exact h.sound j hj
  · intro j hj hKj hb
    rw [putChildren_hv hn hN h.frame i _ hr]
    by_cases h1 : j = 2 * i + 1 ∨ (j = 2 * i + 2 ∧ (treeExists n).getD (2 * i + 2) false = true)
    · rw [if_pos h1]
    · rw [if_neg h1]
      refine h.complete j hj hKj ?_
      rcases hb with hb | ⟨b1, b2, b3⟩
      · exact Or.inl hb
      · right
        refine ⟨b1, b2, ?_⟩
        by_contra hc
        have : (j - 1) / 2 = i := by omega
        have hj2 : j = 2 * i + 1 ∨ j = 2 * i + 2 := by omega
        rcases hj2 with rfl | rfl
        · exact h1 (Or.inl rfl)
        · exact h1 (Or.inr ⟨rfl, hj⟩)

omit hn hN hnv in
/-- Skipping a node. -/
theorem inv_skip {t : SeedTree} {i : Nat} (hn : 2 ≤ n) (hN : n ≤ 2 ^ 29) (h : TreeInv n ss V K B i t) (he : ¬((treeExists n).getD i false = true ∧ K i)) :
    TreeInv n ss V K B (i + 1) t := by
  refine ⟨h.frame, h.sound, ?_⟩
  intro j hj hKj hb
  refine h.complete j hj hKj ?_
  rcases hb with hb | ⟨b1, b2, b3⟩
  · exact Or.inl hb
  · right
    refine ⟨b1, b2, ?_⟩
    by_contra hc
    have e : (j - 1) / 2 = i := by omega
    exact he (e ▸ ⟨(ex_parent hn hN j b1 hj).1, b2⟩)

theorem expandOne_inv {t : SeedTree} {i : Nat} (h : TreeInv n ss V K B i t) (hi : i < treeTotal n - n) :
    ∃ t', t.expandOne X salt rep nv i = .ok t' ∧ TreeInv n ss V K B (i + 1) t' := by
  obtain ⟨a1, a2⟩ := active_iff hn hN hS hnv h i (by omega)
  obtain ⟨f1, _⟩ := ex_facts hn hN
  unfold SeedTree.expandOne
  by_cases ha : t.active nv i = true
  · obtain ⟨b1, b2⟩ := a1.1 ha
    have hr : 2 * i + 1 < treeTotal n := f1 _ (ex_child hn hN i hi b1)
    rw [if_pos ha, if_pos (by rw [h.frame.nt]; exact hr), a2 ha]
    exact ⟨_, rfl, inv_put hn hN hS hnv h hi b1 b2⟩
  · rw [if_neg ha]
    exact ⟨t, rfl, inv_skip hS hn hN h (fun hc => ha (a1.2 hc))⟩

omit hn hN hS hnv in
theorem expandSeedLane_eq (seed : Bytes) (hl : seed.length = ss) (i : Nat) : expandSeedLane X ss seed salt rep i = expandSeed X seed salt rep i := by
  unfold expandSeedLane expandSeed
  rw [hl, List.take_of_length_le (by omega)]

theorem expandFour_inv {t : SeedTree} {i : Nat} (h : TreeInv n ss V K B i t) (h3 : 3 ≤ i) (hi : i + 3 < treeTotal n - n) :
    ((nv = true ∨ (treeExists n).getD i false = true) → ss ≤ 32 → ∃ t', t.expandFour X salt rep nv i = .ok t') ∧
    ∀ t', t.expandFour X salt rep nv i = .ok t' → TreeInv n ss V K B (i + 4) t' := by
  obtain ⟨f1, _⟩ := ex_facts hn hN
  have hact : ∀ j < 4, (t.active nv (i + j) = true ↔ (treeExists n).getD (i + j) false = true ∧ K (i + j)) ∧ (t.active nv (i + j) = true → t.node (i + j) = V (i + j)) :=
    fun j hj => active_iff hn hN hS hnv h (i + j) (by omega)
  have hroom : ((List.range 4).all fun j => !t.active nv (i + j) || decide (2 * (i + j) + 1 < t.numTotal)) = true := by
    rw [List.all_eq_true]
    intro j hj
    rw [List.mem_range] at hj
    cases ha : t.active nv (i + j) with
    | false => rfl
    | true =>
      have := f1 _ (ex_child hn hN (i + j) (by omega) ((hact j hj).1.1 ha).1)
      rw [h.frame.nt]
      simp [this]
  have hfold : ∀ k ≤ 4, TreeInv n ss V K B (i + k) ((List.range k).foldl (fun u j =>
      if t.active nv (i + j) then u.putChildren (i + j) (expandSeedLane X t.seedSize (t.node (i + j)) salt rep (i + j)) else u) t) := by
    intro k hk
    induction k with
    | zero => exact h
    | succ k ih =>
      rw [List.range_succ, List.foldl_append]
      simp only [List.foldl_cons, List.foldl_nil]
      have hI := ih (by omega)
      generalize (List.range k).foldl _ t = u at hI ⊢
      obtain ⟨a1, a2⟩ := hact k (by omega)
      by_cases ha : t.active nv (i + k) = true
      · obtain ⟨b1, b2⟩ := a1.1 ha
        rw [if_pos ha, a2 ha, h.frame.ss, expandSeedLane_eq _ (hS.len _ b2)]
        exact inv_put hn hN hS hnv hI (by omega : i + k < treeTotal n - n) b1 b2
      · rw [if_neg ha]
        exact inv_skip hS hn hN hI (fun hc => ha (a1.2 hc))
  have hrun : t.expandFour X salt rep nv i = (do
      require .ub (nv || t.active nv i)
      require .ub (decide (t.seedSize ≤ 32) || (List.range 4).all fun j => t.active nv (i + j) && t.ex (2 * (i + j) + 2))
      .ok ((List.range 4).foldl (fun u j =>
        if t.active nv (i + j) then u.putChildren (i + j) (expandSeedLane X t.seedSize (t.node (i + j)) salt rep (i + j)) else u) t)) := by
    unfold SeedTree.expandFour
    rw [hroom]
    cases (nv || t.active nv i) <;> rfl
  rw [hrun]
  constructor
  · intro hx hss
    have e1 : (nv || t.active nv i) = true := by
      rcases hx with hx | hx
      · rw [hx, Bool.true_or]
      · cases hc : nv with
        | true => rfl
        | false =>
          have := ((hact 0 (by omega)).1.2 ⟨hx, hnv hc _⟩)
          rw [hc] at this
          simpa using this
    have e2 : (decide (t.seedSize ≤ 32) || (List.range 4).all fun j => t.active nv (i + j) && t.ex (2 * (i + j) + 2)) = true := by
      rw [h.frame.ss, decide_eq_true hss, Bool.true_or]
    rw [e1, e2]
    exact ⟨_, rfl⟩
  · intro t' ht'
    cases c1 : (nv || t.active nv i) with
    | false => rw [c1] at ht'; cases ht'
    | true =>
      rw [c1] at ht'
      cases c2 : (decide (t.seedSize ≤ 32) || (List.range 4).all fun j => t.active nv (i + j) && t.ex (2 * (i + j) + 2)) with
      | false => rw [c2] at ht'; cases ht'
      | true =>
        rw [c2] at ht'
        injection ht' with ht'
        rw [← ht']
        exact hfold 4 le_rfl

/-- All loops. -/
theorem expandAll_inv {t : SeedTree} (h : TreeInv n ss V K B 0 t) :
    ((nv = true ∨ ∀ i, i % 4 = 3 → i ≤ (treeTotal n - 2) / 2 → (treeExists n).getD i false = true) → ss ≤ 32 → ∃ t', t.expandAll X salt rep nv = .ok t') ∧
    ∀ t', t.expandAll X salt rep nv = .ok t' → TreeInv n ss V K B (treeTotal n) t' ∧
      (nv = false → ∀ i, 3 ≤ i → i % 4 = 3 → i + 4 ≤ (treeTotal n - 2) / 2 → (treeExists n).getD i false = true) := by
  obtain ⟨f1, f2, f3, f4⟩ := ex_facts hn hN
  have hT := treeTotal_eq hn hN
  have hs := total_sub hn hN
  have hb := depth_bounds hn hN
  have hp := two_pow_depth hn hN
  have hpos : 0 < 2 ^ (depth n - 1) := by positivity
  have hlast : getParent (treeTotal n - 1) = (treeTotal n - 2) / 2 := by unfold getParent; omega
  have hlt : (treeTotal n - 2) / 2 < treeTotal n - n := by
    have := (ex_parent hn hN (treeTotal n - 1) (by omega) (f3 _ (by omega) (by omega))).2
    have e : (treeTotal n - 1 - 1) / 2 = (treeTotal n - 2) / 2 := by omega
    rwa [e] at this
  have hmod : 3 ≤ (treeTotal n - 2) / 2 → (treeTotal n - n) % 4 = 3 := by
    intro h3
    have hd : 2 ≤ depth n := by
      by_contra hc
      have : depth n = 1 := by omega
      rw [this] at hb hT
      omega
    obtain ⟨e, he⟩ : ∃ e, depth n = e + 2 := ⟨depth n - 2, by omega⟩
    rw [hs, he, pow_add]
    have : 0 < 2 ^ e := by positivity
    omega
  unfold SeedTree.expandAll
  simp only [h.frame.nt, hlast]
  generalize hL : (treeTotal n - 2) / 2 = L at *
  generalize hF : min L 2 + 1 = F
  generalize hB : (L / 4 * 4 + 3 - F) / 4 = Bl
  set S : Prop := (nv = true ∨ ∀ i, i % 4 = 3 → i ≤ L → (treeExists n).getD i false = true) ∧ ss ≤ 32 with hSdef
  obtain ⟨a1, a2⟩ := foldlM_range_inv (SeedTree.expandOne X salt rep nv) (TreeInv n ss V K B) S F (by
    intro i hi u hu
    obtain ⟨u', e1, e2⟩ := expandOne_inv hn hN hS hnv hu (by omega : i < treeTotal n - n)
    refine ⟨fun _ => ⟨u', e1⟩, ?_⟩
    intro v hv
    rw [e1] at hv
    injection hv with hv
    exact hv ▸ e2) t h
  have step2 := fun (u : SeedTree) (hu : TreeInv n ss V K B F u) =>
    foldlM_range_inv (fun t b => SeedTree.expandFour X salt rep nv t (F + 4 * b)) (fun b => TreeInv n ss V K B (F + 4 * b)) S Bl (by
      intro b hb u hu
      have h3 : 3 ≤ L := by omega
      have hF3 : F = 3 := by omega
      have hm := hmod h3
      have hbL : b < L / 4 := by omega
      obtain ⟨g1, g2⟩ := expandFour_inv hn hN hS hnv hu (by omega) (by omega)
      refine ⟨fun hS' => g1 ?_ hS'.2, fun t' ht' => g2 t' ht'⟩
      rcases hS'.1 with hh | hh
      · exact Or.inl hh
      · exact Or.inr (hh _ (by omega) (by omega))) u hu
  have step3 := fun (u : SeedTree) (hu : TreeInv n ss V K B (F + 4 * Bl) u) =>
    foldlM_range_inv (fun t d => SeedTree.expandOne X salt rep nv t (F + 4 * Bl + d)) (fun d => TreeInv n ss V K B (F + 4 * Bl + d)) S (L + 1 - (F + 4 * Bl)) (by
      intro i hi u hu
      obtain ⟨u', e1, e2⟩ := expandOne_inv hn hN hS hnv hu (by omega : F + 4 * Bl + i < treeTotal n - n)
      refine ⟨fun _ => ⟨u', e1⟩, ?_⟩
      intro v hv
      have hv : u.expandOne X salt rep nv (F + 4 * Bl + i) = .ok v := hv
      rw [e1] at hv
      injection hv with hv
      exact hv ▸ e2) u hu
  constructor
  · intro c1 c2
    have hSS : S := ⟨c1, c2⟩
    obtain ⟨u1, hu1⟩ := a1 hSS
    obtain ⟨u2, hu2⟩ := (step2 u1 (a2 u1 hu1)).1 hSS
    obtain ⟨u3, hu3⟩ := (step3 u2 ((step2 u1 (a2 u1 hu1)).2 u2 hu2)).1 hSS
    refine ⟨u3, ?_⟩
    rw [hu1]
    show ((List.range Bl).foldlM (fun t b => SeedTree.expandFour X salt rep nv t (F + 4 * b)) u1 >>= _) = _
    rw [hu2]
    exact hu3
  · intro t' ht'
    cases e1 : (List.range F).foldlM (SeedTree.expandOne X salt rep nv) t with
    | error e => rw [e1] at ht'; cases ht'
    | ok u1 =>
      rw [e1] at ht'
      have ht' : ((List.range Bl).foldlM (fun t b => SeedTree.expandFour X salt rep nv t (F + 4 * b)) u1 >>= fun t =>
        (List.range (L + 1 - (F + 4 * Bl))).foldlM (fun t d => SeedTree.expandOne X salt rep nv t (F + 4 * Bl + d)) t) = .ok t' := ht'
      have hu1 := a2 u1 e1
      cases e2 : (List.range Bl).foldlM (fun t b => SeedTree.expandFour X salt rep nv t (F + 4 * b)) u1 with
      | error e => rw [e2] at ht'; cases ht'
      | ok u2 =>
        rw [e2] at ht'
        have hu2 := (step2 u1 hu1).2 u2 e2
        have hfin := (step3 u2 hu2).2 t' ht'
        refine ⟨⟨hfin.frame, hfin.sound, ?_⟩, ?_⟩
        case refine_2 =>
          intro hnf i h3 hi4 hiL
          have hF3 : F = 3 := by omega
          obtain ⟨u, u', hu, hr⟩ := foldlM_range_steps (fun t b => SeedTree.expandFour X salt rep nv t (F + 4 * b)) (fun b => TreeInv n ss V K B (F + 4 * b)) Bl
            (fun b hb u hu t' ht' => by
              have hm := hmod (by omega)
              exact (expandFour_inv hn hN hS hnv hu (by omega) (by omega)).2 t' ht') u1 hu1 u2 e2 ((i - 3) / 4) (by omega)
          have hr : u.expandFour X salt rep nv (F + 4 * ((i - 3) / 4)) = .ok u' := hr
          rw [show F + 4 * ((i - 3) / 4) = i by omega, hnf] at hr
          rw [show F + 4 * ((i - 3) / 4) = i by omega] at hu
          have hact : u.active false i = true := by
            cases hc : u.active false i with
            | true => rfl
            | false =>
              unfold SeedTree.expandFour at hr
              rw [hc] at hr
              cases hr
          rw [hnf] at hnv
          exact ((active_iff hn hN hS hnv hu i (by omega)).1.1 hact).1
        intro j hj hKj hbj
        refine hfin.complete j hj hKj ?_
        rcases hbj with hbj | ⟨b1, b2, b3⟩
        · exact Or.inl hbj
        · have := f1 j hj
          exact Or.inr ⟨b1, b2, by omega⟩

/-- What is known at the end. -/
theorem inv_final {t : SeedTree} (h : TreeInv n ss V K B (treeTotal n) t) (j : Nat) (hj : (treeExists n).getD j false = true) :
    (t.hv j = true ↔ K j) ∧ (K j → t.node j = V j) := by
  have key : K j → t.hv j = true := by
    intro hK
    refine h.complete j hj hK ?_
    rcases hS.reach j hj hK with hb | ⟨b1, b2⟩
    · exact Or.inl hb
    · have := (ex_facts hn hN).1 j hj
      exact Or.inr ⟨b1, b2, by omega⟩
  exact ⟨⟨fun hh => (h.sound j hh).1, key⟩, fun hK => (h.sound j (key hK)).2⟩

end

/-! First constructor. -/

theorem seedAt_succ (X : Xof) (root salt : Bytes) (rep i : Nat) : seedAt X root salt rep (i + 1) =
    (let s := X (kindOf (2 * root.length)) ([1] ++ seedAt X root salt rep (i / 2) ++ salt ++ le16 rep ++ le16 (i / 2))
     if i % 2 = 0 then s.squeeze 0 root.length else s.squeeze root.length root.length) := by
  rw [seedAt]

theorem seedAt_length (X : Xof) (root salt : Bytes) (rep i : Nat) : (seedAt X root salt rep i).length = root.length := by
  cases i with
  | zero => rw [seedAt]
  | succ i =>
    rw [seedAt_succ]
    dsimp only
    split <;> exact squeeze_length _ _ _

theorem seedAt_children (X : Xof) (root salt : Bytes) (rep i : Nat) :
    (seedAt X root salt rep (2 * i + 1), seedAt X root salt rep (2 * i + 2)) = expandSeed X (seedAt X root salt rep i) salt rep i := by
  rw [seedAt_succ, seedAt_succ]
  unfold expandSeed
  rw [seedAt_length]
  rw [show 2 * i / 2 = i by omega, show (2 * i + 1) / 2 = i by omega, if_pos (by omega), if_neg (by omega)]

theorem treeSpec_seed (X : Xof) (root salt : Bytes) (rep n : Nat) :
    TreeSpec X salt rep n root.length (seedAt X root salt rep) (fun _ => True) (fun j => j = 0) where
  closed _ _ := ⟨trivial, trivial⟩
  step i _ := seedAt_children X root salt rep i
  len i _ := seedAt_length X root salt rep i
  reach j _ _ := by
    rcases Nat.eq_zero_or_pos j with h | h
    · exact Or.inl h
    · exact Or.inr ⟨h, trivial⟩

theorem inv_seed (X : Xof) (root salt : Bytes) (rep : Nat) {n : Nat} (hn : 2 ≤ n) (hN : n ≤ 2 ^ 29) :
    TreeInv n root.length (seedAt X root salt rep) (fun _ => True) (fun j => j = 0) 0
      ⟨(List.replicate (treeTotal n) (List.replicate root.length 0)).set 0 root, treeExists n,
       (List.replicate (treeTotal n) false).set 0 true, root.length, n, treeTotal n⟩ := by
  have hT := treeTotal_eq hn hN
  refine ⟨⟨rfl, by simp, by simp, rfl, rfl, rfl⟩, ?_, ?_⟩
  · intro j hj
    refine ⟨trivial, ?_⟩
    simp only [SeedTree.hv, getD_set_bool, List.length_replicate] at hj
    have hj0 : j = 0 := by
      by_contra hc
      rw [if_neg (fun h => hc h.1.symm)] at hj
      simp only [List.getD_eq_getElem?_getD, List.getElem?_replicate] at hj
      split at hj <;> simp at hj
    subst hj0
    simp only [SeedTree.node, getD_set_bytes, List.length_replicate]
    rw [if_pos ⟨trivial, by omega⟩, seedAt]
  · intro j _ _ hb
    rcases hb with hb | hb
    · subst hb
      simp only [SeedTree.hv, getD_set_bool, List.length_replicate]
      rw [if_pos ⟨trivial, by omega⟩]
    · omega

/-- What the first constructor returns. -/
theorem ofSeed_spec (X : Xof) (root salt : Bytes) (rep : Nat) {n : Nat} (hn : 2 ≤ n) (hN : n ≤ 2 ^ 29) (t : SeedTree)
    (h : SeedTree.ofSeed X root n salt rep = .ok t) :
    TreeFrame n root.length t ∧ root ≠ [] ∧ ∀ j, (treeExists n).getD j false = true → t.hv j = true ∧ t.node j = seedAt X root salt rep j := by
  unfold SeedTree.ofSeed at h
  rw [decide_eq_true hn] at h
  cases hr : (decide (root ≠ [])) with
  | false => rw [hr] at h; cases h
  | true =>
    rw [hr] at h
    have h := ((expandAll_inv hn hN (treeSpec_seed X root salt rep n) (fun _ _ => trivial) (inv_seed X root salt rep hn hN)).2 t h).1
    refine ⟨h.frame, of_decide_eq_true hr, ?_⟩
    intro j hj
    obtain ⟨i1, i2⟩ := inv_final hn hN (nv := false) (treeSpec_seed X root salt rep n) (fun _ _ => trivial) h j hj
    exact ⟨i1.2 trivial, i2 trivial⟩

/-- Heads of the 4-way blocks of a tree with `n` leaves. -/
theorem head_ex {n : Nat} (hn : 2 ≤ n) (hN : n ≤ 2 ^ 29) (hs : 2 ^ depth n < n + 16) (i : Nat) (h4 : i % 4 = 3) (hi : i ≤ (treeTotal n - 2) / 2) :
    (treeExists n).getD i false = true := by
  have hT := treeTotal_eq hn hN
  have hb := depth_bounds hn hN
  obtain ⟨k, hk, h1, h2⟩ := exists_height hn hN i (by omega)
  refine (ex_iff hn hN k hk i h1 h2).2 ?_
  unfold Present
  rcases Nat.lt_or_ge k 2 with hk2 | hk2
  · rcases Nat.lt_or_ge k 1 with hk1 | hk1
    · have : k = 0 := by omega
      subst this; omega
    · have : k = 1 := by omega
      subst this; omega
  · have hd2 : 2 ≤ depth n - k + 1 := by
      by_contra hc
      have : depth n - k = 0 := by omega
      rw [this] at h2; omega
    obtain ⟨e, he⟩ : ∃ e, depth n - k + 1 = e + 2 := ⟨depth n - k - 1, by omega⟩
    rw [he, pow_add] at h2
    have hle : i + 1 ≤ 2 ^ e * 2 ^ 2 - 4 := by omega
    have hp : 2 ^ e * 2 ^ 2 * 2 ^ k = 2 * 2 ^ depth n := by
      rw [← pow_add, ← he, ← pow_add, ← pow_succ']; congr 1; omega
    have hk4 : 4 ≤ 2 ^ k := by
      calc 4 = 2 ^ 2 := rfl
        _ ≤ _ := Nat.pow_le_pow_right (by norm_num) hk2
    have : (i + 1) * 2 ^ k ≤ (2 ^ e * 2 ^ 2 - 4) * 2 ^ k := Nat.mul_le_mul_right _ hle
    rw [Nat.sub_mul, hp] at this
    omega

/-- A block that does not exist. -/
theorem head_not_ex {n : Nat} (hn : 2 ≤ n) (hN : n ≤ 2 ^ 29) (hs : n + 16 ≤ 2 ^ depth n) :
    (treeExists n).getD (2 ^ (depth n - 1) - 5) false = false ∧ 3 ≤ 2 ^ (depth n - 1) - 5 ∧ (2 ^ (depth n - 1) - 5) % 4 = 3 ∧ 2 ^ (depth n - 1) - 1 ≤ (treeTotal n - 2) / 2 := by
  have hT := treeTotal_eq hn hN
  have hb := depth_bounds hn hN
  have hp := two_pow_depth hn hN
  have hd : 5 ≤ depth n - 1 := by
    by_contra hc
    have : 2 ^ (depth n - 1) ≤ 2 ^ 4 := Nat.pow_le_pow_right (by norm_num) (by omega)
    omega
  obtain ⟨e, he⟩ : ∃ e, depth n = e + 6 := ⟨depth n - 6, by omega⟩
  have e1 : 2 ^ (depth n - 1) = 32 * 2 ^ e := by rw [he, show e + 6 - 1 = e + 5 by omega, pow_add]; ring
  have e2 : 2 ^ (depth n - 2) = 16 * 2 ^ e := by rw [he, show e + 6 - 2 = e + 4 by omega, pow_add]; ring
  have e3 : 2 ^ (depth n - 2 + 1) = 32 * 2 ^ e := by rw [he, show e + 6 - 2 + 1 = e + 5 by omega, pow_add]; ring
  have hpos : 0 < 2 ^ e := by positivity
  rw [e1]
  rw [e1] at hp hb
  refine ⟨?_, by omega, by omega, by omega⟩
  rw [← Bool.not_eq_true, ex_iff hn hN 2 (by omega) _ (by rw [e2]; omega) (by rw [e3]; omega)]
  unfold Present
  omega

/-- The first constructor is safe exactly if no block of four nodes is missing. -/
theorem ofSeed_ok_iff (X : Xof) (root salt : Bytes) (rep : Nat) {n : Nat} (hn : 2 ≤ n) (hN : n ≤ 2 ^ 29) (hr : root ≠ []) (hl : root.length ≤ 32) :
    (∃ t, SeedTree.ofSeed X root n salt rep = .ok t) ↔ 2 ^ depth n < n + 16 := by
  have key := expandAll_inv hn hN (nv := false) (treeSpec_seed X root salt rep n) (fun _ _ => trivial) (inv_seed X root salt rep hn hN)
  unfold SeedTree.ofSeed
  rw [decide_eq_true hn, decide_eq_true hr]
  constructor
  · rintro ⟨t, ht⟩
    by_contra hc
    obtain ⟨g1, g2, g3, g4⟩ := head_not_ex hn hN (by omega)
    have := (key.2 t ht).2 rfl _ g2 g3 (by omega)
    rw [g1] at this
    cases this
  · intro hs
    exact key.1 (Or.inr fun i h4 hi => head_ex hn hN hs i h4 hi) hl

/-- With a power of two of leaves the first constructor is safe. -/
theorem ofSeed_ok (X : Xof) (root salt : Bytes) (rep : Nat) {e : Nat} (he : 1 ≤ e) (he2 : e ≤ 29) (hr : root ≠ []) (hl : root.length ≤ 32) :
    ∃ t, SeedTree.ofSeed X root (2 ^ e) salt rep = .ok t := by
  have hn : 2 ≤ 2 ^ e := by
    calc 2 = 2 ^ 1 := rfl
      _ ≤ _ := Nat.pow_le_pow_right (by norm_num) he
  refine (ofSeed_ok_iff X root salt rep hn (Nat.pow_le_pow_right (by norm_num) he2) hr hl).2 ?_
  rw [show depth (2 ^ e) = e from Nat.clog_pow 2 e (by norm_num)]
  omega

/-! Second constructor. -/

theorem ancestor_parent (node k : Nat) : ancestor ((node - 1) / 2) k = ancestor node (k + 1) := by
  induction k with
  | zero => rfl
  | succ k ih => rw [ancestor, ih]; rfl

theorem ancestor_level (d L : Nat) (h1 : 2 ^ d ≤ L + 1) (h2 : L + 1 < 2 ^ (d + 1)) (k : Nat) (hk : k ≤ d) :
    2 ^ (d - k) ≤ ancestor L k + 1 ∧ ancestor L k + 1 < 2 ^ (d - k + 1) := by
  induction k with
  | zero => exact ⟨h1, h2⟩
  | succ k ih =>
    obtain ⟨i1, i2⟩ := ih (by omega)
    have e : d - k = d - (k + 1) + 1 := by omega
    rw [e, pow_succ'] at i1
    rw [e, pow_succ'] at i2
    have : 0 < 2 ^ (d - (k + 1)) := by positivity
    simp only [ancestor]
    omega

theorem pathUpAux_eq (d : Nat) : ∀ L fuel, 2 ^ d ≤ L + 1 → L + 1 < 2 ^ (d + 1) → L ≤ fuel → pathUpAux fuel L = (List.range d).map (ancestor L) := by
  induction d with
  | zero =>
    intro L fuel h1 h2 _
    have : L = 0 := by omega
    subst this
    cases fuel <;> rfl
  | succ d ih =>
    intro L fuel h1 h2 hf
    have hp : 0 < 2 ^ d := by positivity
    rw [pow_succ'] at h1
    rw [pow_succ'] at h2
    obtain ⟨f, rfl⟩ : ∃ f, fuel = f + 1 := ⟨fuel - 1, by omega⟩
    rw [pathUpAux, if_neg (by omega), getParent_eq L (by omega), ih _ f (by omega) (by omega) (by omega), List.range_succ_eq_map]
    simp only [List.map_cons, List.map_map]
    congr 1
    apply List.map_congr_left
    intro k _
    exact ancestor_parent L k

theorem pathUp_eq (d L : Nat) (h1 : 2 ^ d ≤ L + 1) (h2 : L + 1 < 2 ^ (d + 1)) : pathUp L = (List.range d).map (ancestor L) :=
  pathUpAux_eq d L L h1 h2 le_rfl

theorem zipIdx_range_map {α : Type} (f : Nat → α) (d : Nat) : ((List.range d).map f).zipIdx = (List.range d).map fun k => (f k, k) := by
  apply List.ext_getElem?
  intro i
  rw [List.getElem?_zipIdx, List.getElem?_map, List.getElem?_map]
  by_cases h : i < d
  · rw [List.getElem?_range h]; simp
  · rw [List.getElem?_eq_none (by simp; omega)]; simp

section reveal
variable {n h : Nat} (hn : 2 ≤ n) (hN : n ≤ 2 ^ 29) (hh : h < n)
include hn hN hh

theorem leafNode_bounds : 2 ^ depth n ≤ leafNode n h + 1 ∧ leafNode n h + 1 < 2 ^ (depth n + 1) := by
  have hb := depth_bounds hn hN
  unfold leafNode
  rw [pow_succ]
  omega

theorem path_eq : pathUp (treeTotal n - n + h) = (List.range (depth n)).map (ancestor (leafNode n h)) := by
  have hs := total_sub hn hN
  rw [hs]
  have := leafNode_bounds hn hN hh
  exact pathUp_eq _ _ this.1 this.2

theorem ex_ancestor (k : Nat) (hk : k ≤ depth n) : (treeExists n).getD (ancestor (leafNode n h) k) false = true := by
  have hl := leafNode_bounds hn hN hh
  induction k with
  | zero =>
    have hT := treeTotal_eq hn hN
    have hs := total_sub hn hN
    exact (ex_facts hn hN).2.2.1 _ (by rw [hs]; unfold ancestor leafNode; omega) (by rw [hT]; unfold ancestor leafNode; omega)
  | succ k ih =>
    have i1 := ih (by omega)
    obtain ⟨l1, l2⟩ := ancestor_level _ _ hl.1 hl.2 k (by omega)
    have hpos : 0 < ancestor (leafNode n h) k := by
      have : 2 ≤ 2 ^ (depth n - k) := by
        calc 2 = 2 ^ 1 := rfl
          _ ≤ _ := Nat.pow_le_pow_right (by norm_num) (by omega)
      omega
    exact (ex_parent hn hN _ hpos i1).1

theorem anc_pos (k : Nat) (hk : k < depth n) : 0 < ancestor (leafNode n h) k := by
  have hl := leafNode_bounds hn hN hh
  obtain ⟨l1, l2⟩ := ancestor_level _ _ hl.1 hl.2 k (by omega)
  have : 2 ≤ 2 ^ (depth n - k) := by
    calc 2 = 2 ^ 1 := rfl
      _ ≤ _ := Nat.pow_le_pow_right (by norm_num) (by omega)
  omega

theorem anc_root (k : Nat) (hk : depth n ≤ k) : ancestor (leafNode n h) k = 0 := by
  have hl := leafNode_bounds hn hN hh
  induction k with
  | zero =>
    have := (depth_bounds hn hN).1
    omega
  | succ k ih =>
    rcases Nat.lt_or_ge k (depth n) with hlt | hge
    · have e : depth n = k + 1 := by omega
      obtain ⟨l1, l2⟩ := ancestor_level _ _ hl.1 hl.2 (k + 1) (by omega)
      rw [e, Nat.sub_self] at l2
      omega
    · rw [ancestor, ih hge]

/-- Siblings of path nodes are on the level of the path node. -/
theorem sib_level (k : Nat) (hk : k < depth n) : 2 ^ (depth n - k) ≤ sibling (ancestor (leafNode n h) k) + 1 ∧ sibling (ancestor (leafNode n h) k) + 1 < 2 ^ (depth n - k + 1) := by
  have hl := leafNode_bounds hn hN hh
  obtain ⟨l1, l2⟩ := ancestor_level _ _ hl.1 hl.2 k (by omega)
  obtain ⟨e, he⟩ : ∃ e, depth n - k = e + 1 := ⟨depth n - k - 1, by omega⟩
  have hp : 2 ^ (depth n - k) = 2 * 2 ^ e := by rw [he, pow_succ']
  have hp2 : 2 ^ (depth n - k + 1) = 4 * 2 ^ e := by rw [he, pow_succ', pow_succ']; ring
  unfold sibling
  have := anc_pos hn hN hh k hk
  split <;> omega

omit hn hN hh in
theorem level_unique (x a b : Nat) (h1 : 2 ^ a ≤ x) (h2 : x < 2 ^ (a + 1)) (h3 : 2 ^ b ≤ x) (h4 : x < 2 ^ (b + 1)) : a = b := by
  have e1 : a < b + 1 := (Nat.pow_lt_pow_iff_right (by norm_num : 1 < 2)).1 (lt_of_le_of_lt h1 h4)
  have e2 : b < a + 1 := (Nat.pow_lt_pow_iff_right (by norm_num : 1 < 2)).1 (lt_of_le_of_lt h3 h2)
  omega

/-- No sibling of a path node is a path node. -/
theorem sib_not_anc (k : Nat) (hk : k < depth n) (m : Nat) : sibling (ancestor (leafNode n h) k) ≠ ancestor (leafNode n h) m := by
  intro he
  have hl := leafNode_bounds hn hN hh
  obtain ⟨s1, s2⟩ := sib_level hn hN hh k hk
  rcases Nat.lt_or_ge m (depth n) with hm | hm
  · obtain ⟨l1, l2⟩ := ancestor_level _ _ hl.1 hl.2 m (by omega)
    rw [he] at s1 s2
    have := level_unique _ _ _ s1 s2 l1 l2
    have : k = m := by omega
    subst this
    have := anc_pos hn hN hh k hk
    unfold sibling at he
    split at he <;> omega
  · rw [anc_root hn hN hh m hm] at he
    rw [he] at s1
    have : 2 ≤ 2 ^ (depth n - k) := by
      calc 2 = 2 ^ 1 := rfl
        _ ≤ _ := Nat.pow_le_pow_right (by norm_num) (by omega)
    omega

theorem hasSibling_iff {ss : Nat} {t : SeedTree} (hf : TreeFrame n ss t) (k : Nat) (hk : k < depth n) :
    t.hasSibling (ancestor (leafNode n h) k) = (treeExists n).getD (sibling (ancestor (leafNode n h) k)) false := by
  have he := ex_ancestor hn hN hh k (by omega)
  have hp := anc_pos hn hN hh k hk
  generalize ancestor (leafNode n h) k = a at *
  unfold SeedTree.hasSibling SeedTree.ex sibling
  rw [hf.ex, he, Bool.true_and]
  by_cases hodd : a % 2 = 1
  · rw [decide_eq_true hodd, if_pos hodd, Bool.true_and, Bool.not_not]
  · rw [decide_eq_false hodd, if_neg hodd]
    have := ex_left hn hN (a / 2 - 1) (by rwa [show 2 * (a / 2 - 1) + 2 = a by omega])
    rw [show 2 * (a / 2 - 1) + 1 = a - 1 by omega] at this
    rw [this]; rfl

omit hn hN hh in
theorem getSibling_eq (node : Nat) : getSibling node = sibling node := rfl

/-- Nodes off the path of leaf `h`. -/
def OffPath (n h : Nat) (j : Nat) : Prop := ∀ k, j ≠ ancestor (leafNode n h) k

/-- Siblings of the path of leaf `h`. -/
def CoPath (n h : Nat) (j : Nat) : Prop := ∃ k < depth n, j = sibling (ancestor (leafNode n h) k)

omit hn hN hh in
theorem offPath_closed (i : Nat) (hi : OffPath n h i) : OffPath n h (2 * i + 1) ∧ OffPath n h (2 * i + 2) := by
  constructor
  · intro k hk
    refine hi (k + 1) ?_
    rw [ancestor, ← hk]; omega
  · intro k hk
    refine hi (k + 1) ?_
    rw [ancestor, ← hk]; omega

theorem offPath_reach (j : Nat) (hj : (treeExists n).getD j false = true) (hK : OffPath n h j) : CoPath n h j ∨ (0 < j ∧ OffPath n h ((j - 1) / 2)) := by
  have hj0 : 0 < j := by
    rcases Nat.eq_zero_or_pos j with h0 | h0
    · exact absurd (h0.trans (anc_root hn hN hh (depth n) le_rfl).symm) (hK _)
    · exact h0
  by_cases hP : OffPath n h ((j - 1) / 2)
  · exact Or.inr ⟨hj0, hP⟩
  · left
    unfold OffPath at hP
    push Not at hP
    obtain ⟨k, hk⟩ := hP
    have hd := (depth_bounds hn hN).1
    obtain ⟨k', hk', hkd⟩ : ∃ k', (j - 1) / 2 = ancestor (leafNode n h) k' ∧ k' ≤ depth n := by
      rcases Nat.lt_or_ge k (depth n) with hlt | hge
      · exact ⟨k, hk, hlt.le⟩
      · exact ⟨depth n, by rw [hk, anc_root hn hN hh k hge, anc_root hn hN hh _ le_rfl], le_rfl⟩
    have hk0 : k' ≠ 0 := by
      intro h0
      subst h0
      have := (ex_parent hn hN j hj0 hj).2
      rw [hk', total_sub hn hN] at this
      unfold ancestor leafNode at this
      omega
    obtain ⟨m, rfl⟩ : ∃ m, k' = m + 1 := ⟨k' - 1, by omega⟩
    refine ⟨m, by omega, ?_⟩
    have hne := hK m
    have hp := anc_pos hn hN hh m (by omega)
    rw [ancestor] at hk'
    unfold sibling
    split <;> omega

/-- Co-path nodes that exist are off the path and not children of off-path nodes. -/
theorem coPath_offPath (j : Nat) (hj : CoPath n h j) : OffPath n h j := by
  obtain ⟨k, hk, rfl⟩ := hj
  exact sib_not_anc hn hN hh k hk

theorem parent_coPath (k : Nat) (hk : k < depth n) : (sibling (ancestor (leafNode n h) k) - 1) / 2 = ancestor (leafNode n h) (k + 1) := by
  have hp := anc_pos hn hN hh k hk
  rw [ancestor]
  unfold sibling
  split <;> omega

theorem coPath_inj (k m : Nat) (hk : k < depth n) (hm : m < depth n) (he : sibling (ancestor (leafNode n h) k) = sibling (ancestor (leafNode n h) m)) : k = m := by
  obtain ⟨s1, s2⟩ := sib_level hn hN hh k hk
  obtain ⟨l1, l2⟩ := sib_level hn hN hh m hm
  rw [he] at s1 s2
  have := level_unique _ _ _ s1 s2 l1 l2
  omega

theorem revealedAt_sib (seeds : List Bytes) (k : Nat) (hk : k < depth n) : revealedAt n h seeds (sibling (ancestor (leafNode n h) k)) = some (seeds.getD k []) := by
  unfold revealedAt
  obtain ⟨k', hf⟩ := Option.isSome_iff_exists.1 ((List.find?_isSome (xs := List.range (depth n)) (p := fun k' => sibling (ancestor (leafNode n h) k) == sibling (ancestor (leafNode n h) k'))).2 ⟨k, List.mem_range.2 hk, beq_self_eq_true _⟩)
  rw [hf, Option.map_some]
  have h1 := List.mem_range.1 (List.mem_of_find?_eq_some hf)
  have h2 := List.find?_some hf
  rw [coPath_inj hn hN hh k k' hk h1 (by simpa using h2)]

omit hn hN hh in
theorem revealedAt_none (seeds : List Bytes) (j : Nat) (hj : ¬CoPath n h j) : revealedAt n h seeds j = none := by
  unfold revealedAt
  rw [List.find?_eq_none.2, Option.map_none]
  intro k hk he
  exact hj ⟨k, List.mem_range.1 hk, by simpa using he⟩

theorem revealV_sib (X : Xof) (salt : Bytes) (rep ss : Nat) (seeds : List Bytes) (k : Nat) (hk : k < depth n) :
    revealV X salt rep ss (revealedAt n h seeds) (sibling (ancestor (leafNode n h) k)) = seeds.getD k [] := by
  have hs := revealedAt_sib hn hN hh seeds k hk
  have hl := sib_level hn hN hh k hk
  have hpos : 0 < sibling (ancestor (leafNode n h) k) := by
    have : 2 ≤ 2 ^ (depth n - k) := by
      calc 2 = 2 ^ 1 := rfl
        _ ≤ _ := Nat.pow_le_pow_right (by norm_num) (by omega)
    omega
  generalize sibling (ancestor (leafNode n h) k) = s at *
  obtain ⟨i, rfl⟩ : ∃ i, s = i + 1 := ⟨s - 1, by omega⟩
  rw [revealV, hs]

/-- A child of an off-path node is not on the co-path. -/
theorem child_not_coPath (i : Nat) (hi : OffPath n h i) (j : Nat) (hj : j = 2 * i + 1 ∨ j = 2 * i + 2) : ¬CoPath n h j := by
  rintro ⟨k, hk, rfl⟩
  have := parent_coPath hn hN hh k hk
  refine hi (k + 1) ?_
  rw [← this]; omega

theorem revealV_length (X : Xof) (salt : Bytes) (rep ss : Nat) (seeds : List Bytes) (hs : ∀ k < depth n, (seeds.getD k []).length = ss)
    (j : Nat) (hj : OffPath n h j) : (revealV X salt rep ss (revealedAt n h seeds) j).length = ss := by
  by_cases hc : CoPath n h j
  · obtain ⟨k, hk, rfl⟩ := hc
    rw [revealV_sib hn hN hh X salt rep ss seeds k hk]
    exact hs k hk
  · cases j with
    | zero => exact absurd (anc_root hn hN hh (depth n) le_rfl).symm (hj _)
    | succ i =>
      rw [revealV, revealedAt_none _ _ hc]
      dsimp only
      split <;> exact squeeze_length _ _ _

theorem treeSpec_reveal (X : Xof) (salt : Bytes) (rep ss : Nat) (seeds : List Bytes) (hs : ∀ k < depth n, (seeds.getD k []).length = ss) :
    TreeSpec X salt rep n ss (revealV X salt rep ss (revealedAt n h seeds)) (OffPath n h) (CoPath n h) where
  closed i hi := offPath_closed i hi
  step i hi := by
    have hl := revealV_length hn hN hh X salt rep ss seeds hs i hi
    unfold expandSeed
    rw [hl]
    rw [revealV, revealedAt_none _ _ (child_not_coPath hn hN hh i hi _ (Or.inl rfl))]
    rw [show revealV X salt rep ss (revealedAt n h seeds) (2 * i + 2) = revealV X salt rep ss (revealedAt n h seeds) (2 * i + 1 + 1) from rfl]
    rw [revealV, revealedAt_none _ _ (child_not_coPath hn hN hh i hi _ (Or.inr rfl))]
    dsimp only
    rw [show 2 * i / 2 = i by omega, show (2 * i + 1) / 2 = i by omega, if_pos (by omega), if_neg (by omega)]
  len i hi := revealV_length hn hN hh X salt rep ss seeds hs i hi
  reach j hj hK := offPath_reach hn hN hh j hj hK

/-- The loop that stores the revealed seeds. -/
theorem putRevealed_loop (X : Xof) (salt : Bytes) (rep ss : Nat) (seeds : List Bytes) (hlen : depth n ≤ seeds.length) (hs : ∀ k < depth n, (seeds.getD k []).length = ss) :
    ∃ t, ((pathUp (treeTotal n - n + h)).zipIdx).foldlM (SeedTree.putRevealed seeds)
      ⟨List.replicate (treeTotal n) (List.replicate ss 0), treeExists n, List.replicate (treeTotal n) false, ss, n, treeTotal n⟩ = .ok t ∧
      TreeInv n ss (revealV X salt rep ss (revealedAt n h seeds)) (OffPath n h) (CoPath n h) 0 t := by
  rw [path_eq hn hN hh, zipIdx_range_map, List.foldlM_map]
  set P : Nat → SeedTree → Prop := fun i t => TreeFrame n ss t ∧
    (∀ j, t.hv j = true ↔ (treeExists n).getD j false = true ∧ ∃ k < i, j = sibling (ancestor (leafNode n h) k)) ∧
    (∀ j, t.hv j = true → t.node j = revealV X salt rep ss (revealedAt n h seeds) j) with hP
  obtain ⟨l1, l2⟩ := foldlM_range_inv (fun t k => SeedTree.putRevealed seeds t (ancestor (leafNode n h) k, k)) P True (depth n) (by
    intro i hi t ht
    obtain ⟨t1, t2, t3⟩ := ht
    have hhs := hasSibling_iff hn hN hh t1 i hi
    have hiff : ∀ j, (∃ k < i + 1, j = sibling (ancestor (leafNode n h) k)) ↔ ((∃ k < i, j = sibling (ancestor (leafNode n h) k)) ∨ j = sibling (ancestor (leafNode n h) i)) := by
      intro j
      constructor
      · rintro ⟨k, hk, rfl⟩
        rcases Nat.lt_succ_iff_lt_or_eq.1 hk with h | h
        · exact Or.inl ⟨k, h, rfl⟩
        · exact Or.inr (by rw [h])
      · rintro (⟨k, hk, rfl⟩ | h)
        · exact ⟨k, by omega, rfl⟩
        · exact ⟨i, by omega, h⟩
    by_cases hc : (treeExists n).getD (sibling (ancestor (leafNode n h) i)) false = true
    · have e : t.putRevealed seeds (ancestor (leafNode n h) i, i) = .ok { t with data := t.data.set (sibling (ancestor (leafNode n h) i)) (seeds.getD i []), hasValue := t.hasValue.set (sibling (ancestor (leafNode n h) i)) true } := by
        unfold SeedTree.putRevealed
        simp only
        rw [if_pos (by rw [hhs, hc])]
        have hget : seeds[i]? = some (seeds.getD i []) := by
          rw [List.getD_eq_getElem?_getD, List.getElem?_eq_getElem (by omega)]; rfl
        rw [hget]
        simp only
        rw [if_neg (by rw [hs i hi, t1.ss]; exact fun h => h rfl), getSibling_eq]
      rw [e]
      refine ⟨fun _ => ⟨_, rfl⟩, ?_⟩
      intro t' ht'
      injection ht' with ht'
      subst ht'
      have hlt := (ex_facts hn hN).1 _ hc
      generalize hsib : sibling (ancestor (leafNode n h) i) = s at *
      have hhv : ∀ j, (t.hasValue.set s true).getD j false = true ↔ (t.hv j = true ∨ j = s) := by
        intro j
        rw [getD_set_bool, t1.hl]
        by_cases h : s = j
        · subst h; simp [hlt]
        · rw [if_neg (fun hh => h hh.1)]
          show t.hv j = true ↔ _
          exact ⟨Or.inl, fun hh => hh.resolve_right (fun h' => h h'.symm)⟩
      refine ⟨⟨t1.ex, by simp [t1.dl], by simp [t1.hl], t1.ss, t1.nl, t1.nt⟩, ?_, ?_⟩
      · intro j
        rw [hiff]
        show (t.hasValue.set s true).getD j false = true ↔ _
        rw [hhv, t2]
        constructor
        · rintro (⟨a, b⟩ | b)
          · exact ⟨a, Or.inl b⟩
          · exact ⟨b ▸ hc, Or.inr b⟩
        · rintro ⟨a, b | b⟩
          · exact Or.inl ⟨a, b⟩
          · exact Or.inr b
      · intro j hj
        have hj := (hhv j).1 hj
        show (t.data.set s (seeds.getD i [])).getD j [] = _
        rw [getD_set_bytes, t1.dl]
        by_cases h : s = j
        · subst h
          rw [if_pos ⟨rfl, hlt⟩, ← hsib, revealV_sib hn hN hh X salt rep ss seeds i hi]
        · rw [if_neg (fun hh => h hh.1)]
          exact t3 j (hj.resolve_right (fun h' => h h'.symm))
    · have e : t.putRevealed seeds (ancestor (leafNode n h) i, i) = .ok t := by
        unfold SeedTree.putRevealed
        simp only
        rw [if_neg (by rw [hhs]; exact hc)]
      rw [e]
      refine ⟨fun _ => ⟨_, rfl⟩, ?_⟩
      intro t' ht'
      injection ht' with ht'
      subst ht'
      refine ⟨t1, ?_, t3⟩
      intro j
      rw [t2, hiff]
      constructor
      · rintro ⟨a, b⟩; exact ⟨a, Or.inl b⟩
      · rintro ⟨a, b | b⟩
        · exact ⟨a, b⟩
        · exact absurd (b ▸ a) hc)
    ⟨List.replicate (treeTotal n) (List.replicate ss 0), treeExists n, List.replicate (treeTotal n) false, ss, n, treeTotal n⟩ (by
      have h0 : ∀ j, (List.replicate (treeTotal n) false).getD j false = false := by
        intro j
        rw [List.getD_eq_getElem?_getD, List.getElem?_replicate]
        split <;> rfl
      refine ⟨⟨rfl, by simp, by simp, rfl, rfl, rfl⟩, ?_, ?_⟩
      · intro j
        simp only [SeedTree.hv, h0]
        simp
      · intro j hj
        simp only [SeedTree.hv, h0] at hj
        cases hj)
  obtain ⟨t, ht⟩ := l1 trivial
  refine ⟨t, ht, ?_⟩
  obtain ⟨t1, t2, t3⟩ := l2 t ht
  refine ⟨t1, ?_, ?_⟩
  · intro j hj
    obtain ⟨_, k, hk, e⟩ := (t2 j).1 hj
    exact ⟨coPath_offPath hn hN hh j ⟨k, hk, e⟩, t3 j hj⟩
  · intro j hj _ hb
    rcases hb with ⟨k, hk, e⟩ | ⟨_, _, h0⟩
    · exact (t2 j).2 ⟨hj, k, hk, e⟩
    · omega

/-- What the second constructor returns. -/
theorem ofReveal_spec (X : Xof) (salt : Bytes) (rep ss : Nat) (seeds : List Bytes) (hss : 0 < ss) (hlen : depth n ≤ seeds.length) (hs : ∀ k < depth n, (seeds.getD k []).length = ss) :
    (ss ≤ 32 → ∃ t, SeedTree.ofReveal X ⟨seeds, h⟩ n salt rep = .ok t) ∧
    ∀ t, SeedTree.ofReveal X ⟨seeds, h⟩ n salt rep = .ok t → TreeFrame n ss t ∧
      ∀ j, (treeExists n).getD j false = true → (t.hv j = true ↔ OffPath n h j) ∧ (OffPath n h j → t.node j = revealV X salt rep ss (revealedAt n h seeds) j) := by
  obtain ⟨t0, e0, i0⟩ := putRevealed_loop hn hN hh X salt rep ss seeds hlen hs
  have hd := (depth_bounds hn hN).1
  have hrun : SeedTree.ofReveal X ⟨seeds, h⟩ n salt rep = t0.expandAll X salt rep true := by
    unfold SeedTree.ofReveal
    rw [decide_eq_true hn]
    cases hsd : seeds with
    | nil => rw [hsd] at hlen; simp at hlen; omega
    | cons s0 r =>
      have h0 := hs 0 (by omega)
      rw [hsd] at h0
      have h0 : s0.length = ss := h0
      have hne : s0 ≠ [] := by
        intro hc; rw [hc] at h0; simp at h0; omega
      dsimp only
      rw [decide_eq_true hne, h0]
      rw [hsd] at e0
      show (List.foldlM (SeedTree.putRevealed (s0 :: r)) _ _ >>= _) = _
      rw [e0]
      rfl
  rw [hrun]
  have hSp := treeSpec_reveal hn hN hh X salt rep ss seeds hs
  obtain ⟨a1, a2⟩ := expandAll_inv hn hN (nv := true) hSp (fun hc => by cases hc) i0
  refine ⟨fun h32 => a1 (Or.inl rfl) h32, ?_⟩
  intro t ht
  have hf := (a2 t ht).1
  exact ⟨hf.frame, fun j hj => inv_final hn hN (nv := true) hSp (fun hc => by cases hc) hf j hj⟩

/-- The reveal list of a tree built from a seed. -/
theorem revealAllBut_eq {ss : Nat} {t : SeedTree} (hf : TreeFrame n ss t) : t.revealAllBut h =
    ⟨(List.range (depth n)).map fun k => if (treeExists n).getD (sibling (ancestor (leafNode n h) k)) false then t.node (sibling (ancestor (leafNode n h) k)) else List.replicate ss 0, h⟩ := by
  unfold SeedTree.revealAllBut
  rw [hf.nt, hf.nl, path_eq hn hN hh, List.map_map]
  congr 1
  apply List.map_congr_left
  intro k hk
  rw [List.mem_range] at hk
  simp only [Function.comp]
  rw [hasSibling_iff hn hN hh hf k hk, getSibling_eq, hf.ss]

/-- Node of height `k` on the co-path. -/
theorem ex_sib_iff (k : Nat) (hk : k < depth n) : (treeExists n).getD (sibling (ancestor (leafNode n h) k)) false = true ↔ Present n k (sibling (ancestor (leafNode n h) k)) := by
  obtain ⟨s1, s2⟩ := sib_level hn hN hh k hk
  exact ex_iff hn hN k (by omega) _ s1 s2

theorem leaf_ex : (treeExists n).getD (leafNode n h) false = true := ex_ancestor hn hN hh 0 (Nat.zero_le _)

/-- Leaves other than `h` are off the path. -/
theorem leaf_offPath (i : Nat) (hi : i < n) : OffPath n h (leafNode n i) ↔ i ≠ h := by
  constructor
  · intro ho he
    subst he
    exact ho 0 rfl
  · intro hne k hk
    have hl := leafNode_bounds hn hN hh
    have hl2 := leafNode_bounds hn hN hi
    rcases Nat.lt_or_ge k (depth n) with hlt | hge
    · obtain ⟨l1, l2⟩ := ancestor_level _ _ hl.1 hl.2 k (by omega)
      rw [← hk] at l1 l2
      have := level_unique _ _ _ l1 l2 hl2.1 hl2.2
      have hk0 : k = 0 := by omega
      subst hk0
      unfold ancestor leafNode at hk
      omega
    · rw [anc_root hn hN hh k hge] at hk
      have := anc_pos hn hN hi 0 (depth_bounds hn hN).1
      unfold ancestor at this
      omega

/-- If the revealed seeds are those of a tree, the rebuilt values are those of the tree. -/
theorem revealV_eq (X : Xof) (root salt : Bytes) (rep : Nat) (seeds : List Bytes)
    (hs : ∀ k < depth n, (treeExists n).getD (sibling (ancestor (leafNode n h) k)) false = true → seeds.getD k [] = seedAt X root salt rep (sibling (ancestor (leafNode n h) k)))
    (j : Nat) (hj : OffPath n h j) (hex : (treeExists n).getD j false = true) : revealV X salt rep root.length (revealedAt n h seeds) j = seedAt X root salt rep j := by
  induction j using Nat.strong_induction_on with
  | _ j ih =>
    by_cases hc : CoPath n h j
    · obtain ⟨k, hk, rfl⟩ := hc
      rw [revealV_sib hn hN hh X salt rep _ seeds k hk, hs k hk hex]
    · rcases offPath_reach hn hN hh j hex hj with hco | ⟨hpos, hpar⟩
      · exact absurd hco hc
      · obtain ⟨i, rfl⟩ : ∃ i, j = i + 1 := ⟨j - 1, by omega⟩
        have hpe := (ex_parent hn hN _ hpos hex).1
        rw [show (i + 1 - 1) / 2 = i / 2 by omega] at hpe hpar
        rw [revealV, revealedAt_none _ _ hc, seedAt_succ, ih (i / 2) (by omega) hpar hpe]

end reveal

end Banquet
