import Verif.Proofs.Accident

/-! Replacing one seed on a hidden path by another one, so that the simulated signature stays the same. -/

namespace Banquet

open Spec FieldOk Props

/-! ## Exchanging two pairs -/

/-- Exchanges `a` with `b` and `c` with `d`. -/
def swap2 {α : Type} [DecidableEq α] (a b c d : α) : Equiv.Perm α := Equiv.swap a b * Equiv.swap c d

section
variable {α : Type} [DecidableEq α] {a b c d : α}

theorem swap2_fix {y : α} (h1 : y ≠ a) (h2 : y ≠ b) (h3 : c = d ∨ y ≠ c ∧ y ≠ d) : swap2 a b c d y = y := by
  unfold swap2
  rw [Equiv.Perm.mul_apply]
  rcases h3 with rfl | ⟨h3, h4⟩
  · rw [Equiv.swap_self, Equiv.refl_apply, Equiv.swap_apply_of_ne_of_ne h1 h2]
  · rw [Equiv.swap_apply_of_ne_of_ne h3 h4, Equiv.swap_apply_of_ne_of_ne h1 h2]

theorem swap2_first (h1 : b ≠ c) (h2 : b ≠ d) : swap2 a b c d b = a := by
  unfold swap2
  rw [Equiv.Perm.mul_apply, Equiv.swap_apply_of_ne_of_ne h1 h2, Equiv.swap_apply_right]

theorem swap2_second (h1 : c ≠ a) (h2 : c ≠ b) : swap2 a b c d d = c := by
  unfold swap2
  rw [Equiv.Perm.mul_apply, Equiv.swap_apply_right, Equiv.swap_apply_of_ne_of_ne h1 h2]

theorem swap2_symm (a b c d : α) : swap2 b a d c = swap2 a b c d := by
  unfold swap2
  rw [Equiv.swap_comm b a, Equiv.swap_comm d c]

theorem swap2_swap2 (h1 : a ≠ c) (h2 : a ≠ d) (h3 : b ≠ c) (h4 : b ≠ d) (y : α) : swap2 a b c d (swap2 a b c d y) = y := by
  by_cases ya : y = a
  · subst ya
    rw [← swap2_symm, swap2_first h2 h1, swap2_symm, swap2_first h3 h4]
  by_cases yb : y = b
  · subst yb
    rw [swap2_first h3 h4, ← swap2_symm, swap2_first h2 h1]
  by_cases yc : y = c
  · subst yc
    rw [← swap2_symm, swap2_second h4.symm h2.symm, swap2_symm, swap2_second h1.symm h3.symm]
  by_cases yd : y = d
  · subst yd
    rw [swap2_second h1.symm h3.symm, ← swap2_symm, swap2_second h4.symm h2.symm]
  rw [swap2_fix ya yb (.inr ⟨yc, yd⟩), swap2_fix ya yb (.inr ⟨yc, yd⟩)]

end

/-! ## Writing bytes -/

section
variable {D : Finset Bytes} {L : Nat}

/-- The answer with `v` written at position `o`. -/
def setBytes (o : Nat) (v : Bytes) (a : Fin L → Byte) : Fin L → Byte := fun j => if o ≤ j.1 ∧ j.1 < o + v.length then v.getD (j.1 - o) 0 else a j

theorem setBytes_read (st : Stream) {o : Nat} {v : Bytes} (h : o + v.length ≤ L) (a : Fin L → Byte) {n : Nat} (hn : v.length = n) : (answer st (setBytes o v a)).squeeze o n = v := by
  subst hn
  rw [answer_squeeze _ _ h]
  refine Eq.trans ?_ (eq_range_map v _ 0 rfl).symm
  refine List.map_congr_left fun i hi => ?_
  have hi := List.mem_range.1 hi
  rw [dif_pos (by omega)]
  unfold setBytes
  rw [if_pos (by dsimp only; omega)]
  simp

theorem setBytes_other (st : Stream) {o o' l : Nat} {v : Bytes} (h : o' + l ≤ o ∨ o + v.length ≤ o') (hl : o' + l ≤ L) (a : Fin L → Byte) : (answer st (setBytes o v a)).squeeze o' l = (answer st a).squeeze o' l := by
  rw [answer_squeeze _ _ hl, answer_squeeze _ _ hl]
  refine List.map_congr_left fun i hi => ?_
  have hi := List.mem_range.1 hi
  rw [dif_pos (by omega), dif_pos (by omega)]
  unfold setBytes
  rw [if_neg (by dsimp only; omega)]

theorem setBytes_undo {st : Stream} {o : Nat} {v v' : Bytes} {a : Fin L → Byte} (hL : o + v.length ≤ L) (h : (answer st a).squeeze o v.length = v) (hv : v'.length = v.length) : setBytes o v (setBytes o v' a) = a := by
  funext j
  unfold setBytes
  rw [hv]
  by_cases hj : o ≤ j.1 ∧ j.1 < o + v.length
  · rw [if_pos hj]
    have h' : v = _ := h.symm
    rw [answer_squeeze _ _ hL] at h'
    rw [h', getD_range_map _ _ _ _ (by omega), dif_pos (by omega)]
    congr 1
    exact Fin.ext (by dsimp only; omega)
  · rw [if_neg hj, if_neg hj]

/-- The table as a function on all inputs. -/
def extTable (f : D → Fin L → Byte) (y : Bytes) : Fin L → Byte := if h : y ∈ D then f ⟨y, h⟩ else fun _ => 0

theorem extTable_mem (f : D → Fin L → Byte) {y : Bytes} (h : y ∈ D) : extTable f y = f ⟨y, h⟩ := dif_pos h

end

/-! ## The inputs in which a seed is used -/

/-- The seed `r` of node `i`, expanded or committed to. -/
def use1 (I : Instance) (salt : Bytes) (e i : Nat) (r : Bytes) : Bytes := if I.numParties ≤ i + 1 then salt ++ le16 e ++ le16 (i + 1 - I.numParties) ++ r else [1] ++ r ++ salt ++ le16 e ++ le16 i

/-- The seed `r` of node `i`, expanded to a tape. -/
def use2 (I : Instance) (salt : Bytes) (e i : Nat) (r : Bytes) : Bytes := if I.numParties ≤ i + 1 then tapeInput r salt e (i + 1 - I.numParties) else []

section
variable {I : Instance} {D : Finset Bytes} {L : Nat}

/-- The input from which the seed of node `i` is made. -/
def Spec.Coins.parent (ω : Coins I D L) (X0 : Xof) (e i : Nat) : Bytes := [1] ++ ω.node X0 e ((i - 1) / 2) ++ ω.saltOf ++ le16 e ++ le16 ((i - 1) / 2)

/-- The seed of node `i` of repetition `e` is replaced by `r'`, and the values at the inputs with it are exchanged. -/
def Spec.Coins.rekey (ω : Coins I D L) (X0 : Xof) (e i : Nat) (r' : Bytes) : Coins I D L :=
  (if i = 0 then setBytes (32 + e * I.seedSize) r' ω.1 else ω.1, ω.2.1, fun y =>
    if i ≠ 0 ∧ y.1 = ω.parent X0 e i then setBytes ((i - 1) % 2 * I.seedSize) r' (ω.2.2 y)
    else extTable ω.2.2 (swap2 (use1 I ω.saltOf e i (ω.node X0 e i)) (use1 I ω.saltOf e i r') (use2 I ω.saltOf e i (ω.node X0 e i)) (use2 I ω.saltOf e i r') y.1))

theorem rekey_table (ω : Coins I D L) (X0 : Xof) (e i : Nat) (r' : Bytes) (y : D) : (ω.rekey X0 e i r').2.2 y =
    if i ≠ 0 ∧ y.1 = ω.parent X0 e i then setBytes ((i - 1) % 2 * I.seedSize) r' (ω.2.2 y)
    else extTable ω.2.2 (swap2 (use1 I ω.saltOf e i (ω.node X0 e i)) (use1 I ω.saltOf e i r') (use2 I ω.saltOf e i (ω.node X0 e i)) (use2 I ω.saltOf e i r') y.1) := rfl

theorem Spec.Coins.node_zero (ω : Coins I D L) (X0 : Xof) (e : Nat) : ω.node X0 e 0 = ω.rootOf e := by
  unfold Coins.node
  rw [seedAt]
  rfl

theorem Spec.Coins.node_length (ω : Coins I D L) (X0 : Xof) (e i : Nat) : (ω.node X0 e i).length = I.seedSize := (seedAt_length _ _ _ _ _).trans (squeeze_len _ _ _)

theorem Spec.Coins.salt_length (ω : Coins I D L) : ω.saltOf.length = 32 := squeeze_len _ _ _

variable (hI : Consistent I)
include hI

theorem Spec.Coins.node_succ (ω : Coins I D L) (X0 : Xof) (e i : Nat) : ω.node X0 e (i + 1) =
    (ω.xof X0 (kindOf I.digestSize) ([1] ++ ω.node X0 e (i / 2) ++ ω.saltOf ++ le16 e ++ le16 (i / 2))).squeeze (i % 2 * I.seedSize) I.seedSize := by
  unfold Coins.node
  rw [seedAt_succ, show (ω.seeds.squeeze (32 + e * I.seedSize) I.seedSize).length = I.seedSize from squeeze_len _ _ _, hI.digest]
  dsimp only
  split
  · rename_i h
    rw [h, Nat.zero_mul]
    rfl
  · rename_i h
    rw [show i % 2 = 1 by omega, Nat.one_mul]
    rfl

variable {X0 : Xof} {e i : Nat} {r' : Bytes} {ω : Coins I D L} (hD : ∀ y : Bytes, y.length ≤ I.seedSize + 37 → y ∈ D) (hL1 : 32 + I.numRounds * I.seedSize ≤ L) (hL2 : 2 * I.seedSize ≤ L)
  (he : e < I.numRounds) (hi : i + 1 < 2 * I.numParties) (hr : r'.length = I.seedSize) (hne : r' ≠ ω.saltOf.take I.seedSize)
  (hcl : ∀ e < I.numRounds, ∀ p < I.numParties, ω.node X0 e (leafNode I.numParties p) ≠ ω.saltOf.take I.seedSize)

theorem leafNode_eq (p : Nat) : leafNode I.numParties p + 1 = I.numParties + p := by
  unfold leafNode
  have := depth_pow hI
  have := (parties_bounds hI).1
  omega

omit hI in
theorem use1_length {salt r : Bytes} (hs : salt.length = 32) (hr : r.length = I.seedSize) : (use1 I salt e i r).length = I.seedSize + if I.numParties ≤ i + 1 then 36 else 37 := by
  unfold use1
  split <;> (simp only [List.length_append, le16_length, List.length_singleton, hs, hr]; omega)

omit hI in
theorem use2_length {salt r : Bytes} (hs : salt.length = 32) (hr : r.length = I.seedSize) : (use2 I salt e i r).length = if I.numParties ≤ i + 1 then I.seedSize + 36 else 0 := by
  unfold use2 tapeInput
  split
  · simp only [List.length_append, le16_length, hs, hr]
  · rfl

/-- A commitment is not an input for a tape. -/
theorem com_ne_tape {salt c y : Bytes} (hs : salt.length = 32) (hy : y.length = I.seedSize) (hn : y ≠ salt.take I.seedSize) {a b a' b' : Nat} : salt ++ le16 a ++ le16 b ++ c ≠ tapeInput y salt a' b' := by
  intro h
  have ⟨s1, _, _⟩ := seed_cases hI
  have h1 := congrArg (List.take I.seedSize) h
  unfold tapeInput at h1
  rw [List.append_assoc, List.append_assoc, List.append_assoc, List.append_assoc, List.take_append_of_le_length (by rw [hs]; omega), List.take_append_of_le_length (by rw [hy]), List.take_of_length_le hy.le] at h1
  exact hn h1.symm

/-- The two uses are different. -/
theorem use_ne {salt r y : Bytes} (hs : salt.length = 32) (hr : r.length = I.seedSize) (hy : y.length = I.seedSize) (hn : I.numParties ≤ i + 1 → y ≠ salt.take I.seedSize) : use1 I salt e i r ≠ use2 I salt e i y := by
  by_cases hl : I.numParties ≤ i + 1
  · unfold use1 use2
    rw [if_pos hl, if_pos hl]
    exact com_ne_tape hI hs hy (hn hl)
  · intro h
    have := congrArg List.length h
    rw [use1_length hs hr, use2_length hs hy, if_neg hl, if_neg hl] at this
    omega

include he hi hcl in
theorem own_ne : I.numParties ≤ i + 1 → ω.node X0 e i ≠ ω.saltOf.take I.seedSize := by
  intro hl
  have := hcl e he (i + 1 - I.numParties) (by omega)
  rwa [show leafNode I.numParties (i + 1 - I.numParties) = i by have := leafNode_eq hI (i + 1 - I.numParties); omega] at this

include he hi hcl hne hr in
/-- The four inputs can be exchanged. -/
theorem uses_disjoint : use1 I ω.saltOf e i (ω.node X0 e i) ≠ use2 I ω.saltOf e i (ω.node X0 e i) ∧ use1 I ω.saltOf e i (ω.node X0 e i) ≠ use2 I ω.saltOf e i r' ∧
    use1 I ω.saltOf e i r' ≠ use2 I ω.saltOf e i (ω.node X0 e i) ∧ use1 I ω.saltOf e i r' ≠ use2 I ω.saltOf e i r' := by
  have ho := own_ne hI he hi hcl
  have hs := ω.salt_length
  have hn := ω.node_length X0 e i
  exact ⟨use_ne hI hs hn hn ho, use_ne hI hs hn hr fun _ => hne, use_ne hI hs hr hn ho, use_ne hI hs hr hr fun _ => hne⟩

omit hI in
theorem expand_ne {a b a' b' : Nat} {u v salt : Bytes} (h : ¬(le16 a = le16 a' ∧ le16 b = le16 b')) : [1] ++ u ++ salt ++ le16 a ++ le16 b ≠ [1] ++ v ++ salt ++ le16 a' ++ le16 b' := by
  intro he
  obtain ⟨h1, h2⟩ := List.append_inj' he rfl
  exact h ⟨(List.append_inj' h1 rfl).2, h2⟩

/-- The input of the parent is not a use. -/
theorem parent_ne_use {r : Bytes} (hr : r.length = I.seedSize) (h0 : i ≠ 0) : ω.parent X0 e i ≠ use1 I ω.saltOf e i r ∧ ω.parent X0 e i ≠ use2 I ω.saltOf e i r := by
  have hs := ω.salt_length
  have hl : (ω.parent X0 e i).length = I.seedSize + 37 := by
    unfold Coins.parent
    simp only [List.length_append, le16_length, List.length_singleton, hs, ω.node_length]
    omega
  have hN := (parties_bounds hI).2.1
  constructor
  · by_cases h : I.numParties ≤ i + 1
    · intro heq
      rw [heq, use1_length hs hr, if_pos h] at hl
      omega
    · unfold Coins.parent use1
      rw [if_neg h]
      refine expand_ne fun hc => ?_
      have := le16_inj (by omega) (by omega) hc.2
      omega
  · intro heq
    rw [heq, use2_length hs hr] at hl
    split at hl <;> omega

omit hI in
theorem rekey_saltOf (hL : 32 ≤ L) : (ω.rekey X0 e i r').saltOf = ω.saltOf := by
  unfold Coins.saltOf Coins.seeds Coins.rekey
  dsimp only
  split
  · exact setBytes_other _ (.inl (by omega)) (by omega) _
  · rfl

omit hI in
include hL1 he hr in
theorem rekey_rootOf (e' : Nat) (he' : e' < I.numRounds) : (ω.rekey X0 e i r').rootOf e' = if e' = e ∧ i = 0 then r' else ω.rootOf e' := by
  have hb : ∀ e < I.numRounds, 32 + e * I.seedSize + I.seedSize ≤ L := fun e he => by
    have := Nat.mul_le_mul_right I.seedSize (show e + 1 ≤ I.numRounds from he)
    rw [Nat.add_mul] at this
    omega
  unfold Coins.rootOf Coins.seeds Coins.rekey
  dsimp only
  by_cases h0 : i = 0
  · rw [if_pos h0]
    by_cases h : e' = e
    · rw [if_pos ⟨h, h0⟩, h]
      exact setBytes_read _ (by rw [hr]; exact hb e he) _ hr
    · rw [if_neg (fun hc => h hc.1)]
      refine setBytes_other _ ?_ (hb e' he') _
      rw [hr]
      rcases Nat.lt_or_gt_of_ne h with h | h
      · have := Nat.mul_le_mul_right I.seedSize (show e' + 1 ≤ e from h)
        rw [Nat.add_mul] at this
        omega
      · have := Nat.mul_le_mul_right I.seedSize (show e + 1 ≤ e' from h)
        rw [Nat.add_mul] at this
        omega
  · rw [if_neg h0, if_neg (fun hc => h0 hc.2)]

omit hI in
/-- Inputs that are not concerned. -/
theorem rekey_same {y : Bytes} (h1 : y ≠ use1 I ω.saltOf e i (ω.node X0 e i)) (h2 : y ≠ use1 I ω.saltOf e i r')
    (h3 : i + 1 < I.numParties ∨ y ≠ use2 I ω.saltOf e i (ω.node X0 e i) ∧ y ≠ use2 I ω.saltOf e i r') (h4 : i = 0 ∨ y ≠ ω.parent X0 e i) (hy : y ∈ D) : (ω.rekey X0 e i r').2.2 ⟨y, hy⟩ = ω.2.2 ⟨y, hy⟩ := by
  unfold Coins.rekey
  dsimp only
  rw [if_neg (by tauto), swap2_fix h1 h2, extTable_mem _ hy]
  rcases h3 with h3 | h3
  · left
    unfold use2
    rw [if_neg (by omega), if_neg (by omega)]
  · exact .inr h3

include hD he hi hr hne hcl in
theorem rekey_use1 (o l : Nat) (h : o + l ≤ L) : ((ω.rekey X0 e i r').xof X0 (kindOf I.digestSize) (use1 I ω.saltOf e i r')).squeeze o l =
    (ω.xof X0 (kindOf I.digestSize) (use1 I ω.saltOf e i (ω.node X0 e i))).squeeze o l := by
  obtain ⟨d1, d2, d3, d4⟩ := uses_disjoint hI he hi hr hne hcl
  have hs := ω.salt_length
  have m1 : use1 I ω.saltOf e i r' ∈ D := hD _ (by rw [use1_length hs hr]; split <;> omega)
  have m2 : use1 I ω.saltOf e i (ω.node X0 e i) ∈ D := hD _ (by rw [use1_length hs (ω.node_length _ _ _)]; split <;> omega)
  unfold Coins.xof
  rw [withTable_mem _ _ _ m1, withTable_mem _ _ _ m2, answer_congr _ (X0 (kindOf I.digestSize) (use1 I ω.saltOf e i (ω.node X0 e i))) _ h]
  congr 2
  unfold Coins.rekey
  dsimp only
  rw [if_neg (fun hc => (parent_ne_use (ω := ω) (X0 := X0) (e := e) hI hr hc.1).1 hc.2.symm), swap2_first d3 d4, extTable_mem _ m2]

include hD he hi hr hne hcl in
theorem rekey_use2 (hl : I.numParties ≤ i + 1) (o l : Nat) (h : o + l ≤ L) : ((ω.rekey X0 e i r').xof X0 (kindOf I.digestSize) (use2 I ω.saltOf e i r')).squeeze o l =
    (ω.xof X0 (kindOf I.digestSize) (use2 I ω.saltOf e i (ω.node X0 e i))).squeeze o l := by
  obtain ⟨d1, d2, d3, d4⟩ := uses_disjoint hI he hi hr hne hcl
  have hs := ω.salt_length
  have m1 : use2 I ω.saltOf e i r' ∈ D := hD _ (by rw [use2_length hs hr, if_pos hl]; omega)
  have m2 : use2 I ω.saltOf e i (ω.node X0 e i) ∈ D := hD _ (by rw [use2_length hs (ω.node_length _ _ _), if_pos hl]; omega)
  unfold Coins.xof
  rw [withTable_mem _ _ _ m1, withTable_mem _ _ _ m2, answer_congr _ (X0 (kindOf I.digestSize) (use2 I ω.saltOf e i (ω.node X0 e i))) _ h]
  congr 2
  unfold Coins.rekey
  dsimp only
  rw [if_neg (fun hc => (parent_ne_use (ω := ω) (X0 := X0) (e := e) hI hr hc.1).2 hc.2.symm), swap2_second d1.symm d3.symm, extTable_mem _ m2]

omit hI in
theorem parent_mem (hD : ∀ y : Bytes, y.length ≤ I.seedSize + 37 → y ∈ D) (ω : Coins I D L) (X0 : Xof) (e i : Nat) : ω.parent X0 e i ∈ D := hD _ (by
  unfold Coins.parent
  simp only [List.length_append, le16_length, List.length_singleton, ω.salt_length, ω.node_length]
  omega)

omit hI in
include hD hL2 hr in
/-- The answer of the parent. -/
theorem rekey_parent (h0 : i ≠ 0) (c : Nat) (hc : c < 2) : ((ω.rekey X0 e i r').xof X0 (kindOf I.digestSize) (ω.parent X0 e i)).squeeze (c * I.seedSize) I.seedSize =
    if c = (i - 1) % 2 then r' else (ω.xof X0 (kindOf I.digestSize) (ω.parent X0 e i)).squeeze (c * I.seedSize) I.seedSize := by
  have hm := parent_mem hD ω X0 e i
  unfold Coins.xof
  rw [withTable_mem _ _ _ hm, withTable_mem _ _ _ hm]
  have e1 : (ω.rekey X0 e i r').2.2 ⟨_, hm⟩ = setBytes ((i - 1) % 2 * I.seedSize) r' (ω.2.2 ⟨_, hm⟩) := by
    unfold Coins.rekey
    dsimp only
    rw [if_pos ⟨h0, rfl⟩]
  have hb : ∀ c < 2, c * I.seedSize + I.seedSize ≤ L := fun c hc => by interval_cases c <;> omega
  rw [e1]
  have hj : (i - 1) % 2 < 2 := Nat.mod_lt _ (by norm_num)
  generalize (i - 1) % 2 = j at *
  split
  · rename_i h
    rw [h]
    exact setBytes_read _ (by rw [hr]; exact hb _ hj) _ hr
  · rename_i h
    refine setBytes_other _ ?_ (hb c hc) _
    rw [hr]
    interval_cases c <;> interval_cases j <;> omega

include hD hL1 hL2 he hi hr hne hcl in
/-- All other seeds stay. -/
theorem rekey_node (e' : Nat) (he' : e' < I.numRounds) (i' : Nat) (hi' : i' + 1 < 2 * I.numParties) : (ω.rekey X0 e i r').node X0 e' i' = if e' = e ∧ i' = i then r' else ω.node X0 e' i' := by
  have hN := (parties_bounds hI).2.1
  have hT := hI.rounds.2
  have hs := ω.salt_length
  induction i' using Nat.strongRecOn with
  | ind i' ih =>
    cases i' with
    | zero =>
      rw [Coins.node_zero, Coins.node_zero, rekey_rootOf hL1 he hr e' he']
      congr 1
      simp only [eq_comm]
    | succ i' =>
      rw [Coins.node_succ hI, Coins.node_succ hI, ih (i' / 2) (by omega) (by omega), rekey_saltOf (by omega)]
      by_cases h : e' = e ∧ i' / 2 = i
      · obtain ⟨rfl, hii⟩ := h
        rw [if_pos ⟨rfl, hii⟩, if_neg (by omega)]
        have hint : ¬I.numParties ≤ i + 1 := by omega
        have k := rekey_use1 (ω := ω) (X0 := X0) hI hD he hi hr hne hcl (i' % 2 * I.seedSize) I.seedSize (by
          rcases Nat.mod_two_eq_zero_or_one i' with h | h <;> rw [h] <;> omega)
        unfold use1 at k
        rw [if_neg hint, if_neg hint] at k
        rw [hii]
        exact k
      · rw [if_neg h]
        by_cases hp : e' = e ∧ i ≠ 0 ∧ i' / 2 = (i - 1) / 2
        · obtain ⟨rfl, h0, hp⟩ := hp
          have k := rekey_parent (ω := ω) (X0 := X0) (e := e') hD hL2 hr h0 (i' % 2) (Nat.mod_lt _ (by norm_num))
          unfold Coins.parent at k
          rw [hp, k]
          congr 1
          simp only [true_and, eq_iff_iff]
          omega
        · rw [if_neg (fun hc => hp ⟨hc.1, by omega, by omega⟩)]
          have hx : ([1] ++ ω.node X0 e' (i' / 2) ++ ω.saltOf ++ le16 e' ++ le16 (i' / 2)).length = I.seedSize + 37 := by
            simp only [List.length_append, le16_length, List.length_singleton, hs, ω.node_length]
            omega
          have ku : ∀ r : Bytes, r.length = I.seedSize → [1] ++ ω.node X0 e' (i' / 2) ++ ω.saltOf ++ le16 e' ++ le16 (i' / 2) ≠ use1 I ω.saltOf e i r ∧
              [1] ++ ω.node X0 e' (i' / 2) ++ ω.saltOf ++ le16 e' ++ le16 (i' / 2) ≠ use2 I ω.saltOf e i r := by
            intro r hr
            constructor
            · by_cases hl : I.numParties ≤ i + 1
              · intro heq
                rw [heq, use1_length hs hr, if_pos hl] at hx
                omega
              · unfold use1
                rw [if_neg hl]
                refine expand_ne fun hc => h ⟨le16_inj (by omega) (by omega) hc.1, le16_inj (by omega) (by omega) hc.2⟩
            · intro heq
              rw [heq, use2_length hs hr] at hx
              split at hx <;> omega
          obtain ⟨a1, a2⟩ := ku _ (ω.node_length X0 e i)
          obtain ⟨a3, a4⟩ := ku _ hr
          congr 1
          refine withTable_congr _ X0 (fun hy => rekey_same a1 a3 (.inr ⟨a2, a4⟩) ?_ hy) _
          by_cases h0 : i = 0
          · exact .inl h0
          · refine .inr (expand_ne fun hc => hp ⟨le16_inj (by omega) (by omega) hc.1, h0, le16_inj (by omega) (by omega) hc.2⟩)

include hD hL1 hL2 he hi hr hne hcl in
/-- The replacement can be undone. -/
theorem rekey_rekey : (ω.rekey X0 e i r').rekey X0 e i (ω.node X0 e i) = ω := by
  obtain ⟨d1, d2, d3, d4⟩ := uses_disjoint hI he hi hr hne hcl
  have hN := (parties_bounds hI).2.1
  have hs := rekey_saltOf (ω := ω) (X0 := X0) (e := e) (i := i) (r' := r') (by omega)
  have hn := rekey_node (ω := ω) (X0 := X0) hI hD hL1 hL2 he hi hr hne hcl e he i hi
  rw [if_pos ⟨rfl, rfl⟩] at hn
  have hnl := ω.node_length X0 e i
  have hpar : i ≠ 0 → (ω.rekey X0 e i r').parent X0 e i = ω.parent X0 e i := fun h0 => by
    unfold Coins.parent
    rw [rekey_node (ω := ω) (X0 := X0) hI hD hL1 hL2 he hi hr hne hcl e he ((i - 1) / 2) (by omega), if_neg (by omega), hs]
  have h1 : ((ω.rekey X0 e i r').rekey X0 e i (ω.node X0 e i)).1 = ω.1 := by
    unfold Coins.rekey
    dsimp only
    by_cases h0 : i = 0
    · rw [if_pos h0, if_pos h0]
      have hb : 32 + e * I.seedSize + I.seedSize ≤ L := by
        have := Nat.mul_le_mul_right I.seedSize (show e + 1 ≤ I.numRounds from he)
        rw [Nat.add_mul] at this
        omega
      refine setBytes_undo (st := ⟨fun _ => 0⟩) (by rw [hnl]; exact hb) ?_ (hr.trans hnl.symm)
      rw [hnl, h0, Coins.node_zero]
      rfl
    · rw [if_neg h0, if_neg h0]
  refine Prod.ext h1 (Prod.ext rfl (funext fun y => ?_))
  obtain ⟨y, hy⟩ := y
  by_cases hp : i ≠ 0 ∧ y = ω.parent X0 e i
  · obtain ⟨h0, rfl⟩ := hp
    rw [rekey_table, if_pos ⟨h0, (hpar h0).symm⟩]
    have e1 : (ω.rekey X0 e i r').2.2 ⟨_, hy⟩ = setBytes ((i - 1) % 2 * I.seedSize) r' (ω.2.2 ⟨_, hy⟩) := by
      unfold Coins.rekey
      dsimp only
      rw [if_pos ⟨h0, rfl⟩]
    rw [e1]
    refine setBytes_undo (st := X0 (kindOf I.digestSize) (ω.parent X0 e i)) (by rw [hnl]; rcases Nat.mod_two_eq_zero_or_one (i - 1) with h | h <;> rw [h] <;> omega) ?_ (hr.trans hnl.symm)
    rw [hnl]
    have := ω.node_succ hI X0 e (i - 1)
    rw [show i - 1 + 1 = i by omega] at this
    rw [this]
    unfold Coins.xof
    rw [← withTable_mem (kindOf I.digestSize) X0 ω.2.2 hy]
    rfl
  · rw [rekey_table, if_neg (fun hc => hp ⟨hc.1, hc.2.trans (hpar hc.1)⟩), hs, hn, swap2_symm]
    set τ := swap2 (use1 I ω.saltOf e i (ω.node X0 e i)) (use1 I ω.saltOf e i r') (use2 I ω.saltOf e i (ω.node X0 e i)) (use2 I ω.saltOf e i r') with hτ
    have hinv : τ (τ y) = y := swap2_swap2 d1 d2 d3 d4 y
    have hls := ω.salt_length
    have hτD : τ y ∈ D := by
      have hmem : ∀ r : Bytes, r.length = I.seedSize → use1 I ω.saltOf e i r ∈ D ∧ use2 I ω.saltOf e i r ∈ D := fun r hr =>
        ⟨hD _ (by rw [use1_length hls hr]; split <;> omega), hD _ (by rw [use2_length hls hr]; split <;> omega)⟩
      by_cases ya : y = use1 I ω.saltOf e i (ω.node X0 e i)
      · rw [ya, hτ, ← swap2_symm, swap2_first d2 d1]
        exact (hmem _ hr).1
      by_cases yb : y = use1 I ω.saltOf e i r'
      · rw [yb, hτ, swap2_first d3 d4]
        exact (hmem _ hnl).1
      by_cases yc : y = use2 I ω.saltOf e i (ω.node X0 e i)
      · rw [yc, hτ, ← swap2_symm, swap2_second d4.symm d2.symm]
        exact (hmem _ hr).2
      by_cases yd : y = use2 I ω.saltOf e i r'
      · rw [yd, hτ, swap2_second d1.symm d3.symm]
        exact (hmem _ hnl).2
      rw [hτ, swap2_fix ya yb (.inr ⟨yc, yd⟩)]
      exact hy
    rw [extTable_mem _ hτD]
    rw [rekey_table, if_neg, ← hτ, hinv, extTable_mem _ hy]
    rintro ⟨h0, hc⟩
    refine hp ⟨h0, ?_⟩
    obtain ⟨p1, p2⟩ := parent_ne_use (ω := ω) (X0 := X0) (e := e) hI hnl h0
    obtain ⟨p3, p4⟩ := parent_ne_use (ω := ω) (X0 := X0) (e := e) hI hr h0
    have hc' : τ y = ω.parent X0 e i := hc
    rw [← hinv, hc', hτ, swap2_fix p1 p3 (.inr ⟨p2, p4⟩)]

end

end Banquet
