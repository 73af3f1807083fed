import Verif.Proofs.Unseen
import Verif.Spec.Hidden

/-! An observer of a simulated signature does not find the seeds that are not opened. -/

namespace Banquet

open Spec FieldOk Props

/-- If each element of `E` can be changed in `M` ways, all with different results, then `E` is small. -/
theorem change_count {Ω R : Type} [Finite Ω] [Finite R] (E : Set Ω) (G : Ω → Set R) (M : Nat) (hG : ∀ ω ∈ E, M ≤ (G ω).ncard) (ρ : Ω → R → Ω)
    (inj : ∀ ω ∈ E, ∀ r ∈ G ω, ∀ ψ ∈ E, ∀ t ∈ G ψ, ρ ω r = ρ ψ t → ω = ψ ∧ r = t) : E.ncard * M ≤ Nat.card Ω := by
  classical
  have := Fintype.ofFinite Ω
  set S : Set (Ω × R) := {p | p.1 ∈ E ∧ p.2 ∈ G p.1} with hS
  have h1 : S.ncard ≤ Nat.card Ω := by
    rw [← Set.ncard_univ]
    refine Set.ncard_le_ncard_of_injOn (fun p => ρ p.1 p.2) (fun _ _ => trivial) (fun p hp t ht h => ?_) (Set.toFinite _)
    obtain ⟨a, b⟩ := inj _ hp.1 _ hp.2 _ ht.1 _ ht.2 h
    exact Prod.ext a b
  let e : S ≃ Σ a : E, G a.1 := ⟨fun x => ⟨⟨x.1.1, x.2.1⟩, x.1.2, x.2.2⟩, fun y => ⟨(y.1.1, y.2.1), y.1.2, y.2.2⟩, fun _ => rfl, fun _ => rfl⟩
  have k : S.ncard = ∑ a : E, (G a.1).ncard := (Nat.card_congr e).trans Nat.card_sigma
  refine le_trans ?_ h1
  rw [k]
  refine le_trans ?_ (Finset.sum_le_sum fun a _ => hG a.1 a.2)
  rw [Finset.sum_const, Finset.card_univ, smul_eq_mul, ← Nat.card_eq_fintype_card]
  rfl

/-- Byte strings outside a list. -/
theorem count_outside (s : Nat) (V : List Bytes) : 256 ^ s - V.length ≤ {v : Fin s → Byte | List.ofFn v ∉ V}.ncard := by
  classical
  have : Finite Byte := Finite.of_injective BitVec.toFin fun a b h => BitVec.eq_of_toFin_eq h
  have h1 := Set.ncard_add_ncard_compl {v : Fin s → Byte | List.ofFn v ∈ V}
  rw [card_answers] at h1
  have h2 : {v : Fin s → Byte | List.ofFn v ∈ V}.ncard ≤ V.length := by
    refine le_trans ?_ (List.toFinset_card_le V)
    rw [← Set.ncard_coe_finset]
    refine Set.ncard_le_ncard_of_injOn List.ofFn (fun v hv => ?_) (fun a _ b _ h => List.ofFn_injective h) (Finset.finite_toSet _)
    simpa using hv
  have h3 : {v : Fin s → Byte | List.ofFn v ∈ V}ᶜ = {v : Fin s → Byte | List.ofFn v ∉ V} := rfl
  rw [h3] at h1
  omega

/-- The inputs of `pathInputs`, with any seed. -/
def pathInput (I : Instance) (salt : Bytes) (e m : Nat) : Nat → Bytes → Bytes
  | 0, r => tapeInput r salt e m
  | 1, r => salt ++ le16 e ++ le16 m ++ r
  | k + 2, r => [1] ++ r ++ salt ++ le16 e ++ le16 (ancestor (leafNode I.numParties m) (k + 1))

/-- The node of the seed in input number `κ`. -/
def pathNode (I : Instance) (m κ : Nat) : Nat := ancestor (leafNode I.numParties m) (κ - 1)

/-- The seeds that `y` may contain. -/
def contained (s κ : Nat) (y : Bytes) : List Bytes := if κ ≤ 1 then [slice y 36 s, slice y 0 s] else [slice y 1 s]

theorem slice_first {A B : Bytes} {n : Nat} (h : A.length = n) : slice (A ++ B) 0 n = A := by
  subst h
  unfold slice
  simp

theorem slice_last {A B : Bytes} {n k : Nat} (h : A.length = k) (hB : B.length = n) : slice (A ++ B) k n = B := by
  have := slice_at (C := []) h hB
  rwa [List.append_nil] at this

section
variable {I : Instance} {D : Finset Bytes} {L : Nat}

theorem mem_pathInputs {X0 : Xof} {ω : Coins I D L} {e m : Nat} {y : Bytes} :
    y ∈ pathInputs X0 ω e m ↔ ∃ κ < depth I.numParties + 2, y = pathInput I ω.saltOf e m κ (ω.node X0 e (pathNode I m κ)) := by
  unfold pathInputs
  simp only [List.mem_cons, List.mem_map, List.mem_range]
  constructor
  · rintro (h | h | ⟨k, hk, h⟩)
    · exact ⟨0, by omega, h⟩
    · exact ⟨1, by omega, h⟩
    · exact ⟨k + 2, by omega, h.symm⟩
  · rintro ⟨κ, hκ, h⟩
    match κ with
    | 0 => exact .inl h
    | 1 => exact .inr (.inl h)
    | k + 2 => exact .inr (.inr ⟨k, by omega, h.symm⟩)

theorem pathInput_inj {salt : Bytes} {e m κ : Nat} {r r' : Bytes} (hr : r.length = r'.length) (h : pathInput I salt e m κ r = pathInput I salt e m κ r') : r = r' := by
  match κ with
  | 0 =>
    unfold pathInput tapeInput at h
    simp only [List.append_assoc] at h
    exact (List.append_inj h hr).1
  | 1 => exact List.append_cancel_left h
  | k + 2 =>
    unfold pathInput at h
    simp only [List.append_assoc] at h
    exact (List.append_inj (List.append_cancel_left h) hr).1

variable (hI : Consistent I) {m κ : Nat} (hm : m < I.numParties) (hκ : κ < depth I.numParties + 2)
include hI hm hκ

omit hm hκ in
theorem pathNode_leaf (h : κ ≤ 1) : I.numParties ≤ pathNode I m κ + 1 ∧ pathNode I m κ + 1 - I.numParties = m := by
  unfold pathNode
  rw [show κ - 1 = 0 by omega]
  have := leafNode_eq hI m
  change I.numParties ≤ leafNode I.numParties m + 1 ∧ leafNode I.numParties m + 1 - I.numParties = m
  omega

theorem pathNode_inner (h : 1 < κ) : pathNode I m κ + 1 < I.numParties := by
  obtain ⟨b1, b2, b3, b4⟩ := parties_bounds hI
  have hl := leafNode_bounds b1 b3 hm
  obtain ⟨l1, l2⟩ := ancestor_level _ _ hl.1 hl.2 (κ - 1) (by omega)
  have hN := depth_pow hI
  have : 2 ^ (depth I.numParties - (κ - 1) + 1) ≤ 2 ^ depth I.numParties := Nat.pow_le_pow_right (by norm_num) (by omega)
  unfold pathNode
  omega

/-- A use of a seed is one of the inputs. -/
theorem use_path (salt : Bytes) (e : Nat) (r : Bytes) : (∃ κ' < depth I.numParties + 2, pathNode I m κ' = pathNode I m κ ∧ use1 I salt e (pathNode I m κ) r = pathInput I salt e m κ' r) ∧
    (pathNode I m κ + 1 < I.numParties ∨ ∃ κ' < depth I.numParties + 2, pathNode I m κ' = pathNode I m κ ∧ use2 I salt e (pathNode I m κ) r = pathInput I salt e m κ' r) := by
  by_cases h : κ ≤ 1
  · obtain ⟨h1, h2⟩ := pathNode_leaf (m := m) hI h
    unfold use1 use2
    rw [if_pos h1, if_pos h1, h2]
    have : ∀ κ' ≤ 1, pathNode I m κ' = pathNode I m κ := fun κ' h' => by
      unfold pathNode
      congr 1
      omega
    exact ⟨⟨1, by omega, this _ le_rfl, rfl⟩, .inr ⟨0, by omega, this _ (by omega), rfl⟩⟩
  · have h1 := pathNode_inner hI hm hκ (by omega)
    refine ⟨⟨κ, hκ, rfl, ?_⟩, .inl h1⟩
    unfold use1
    rw [if_neg (by omega)]
    obtain ⟨k, rfl⟩ : ∃ k, κ = k + 2 := ⟨κ - 2, by omega⟩
    rfl

/-- The seed can be read off a use. -/
theorem use_contained {salt : Bytes} (hs : salt.length = 32) (e : Nat) {r : Bytes} (hr : r.length = I.seedSize) :
    r ∈ contained I.seedSize κ (use1 I salt e (pathNode I m κ) r) ∧ (pathNode I m κ + 1 < I.numParties ∨ r ∈ contained I.seedSize κ (use2 I salt e (pathNode I m κ) r)) := by
  by_cases h : κ ≤ 1
  · obtain ⟨h1, h2⟩ := pathNode_leaf (m := m) hI h
    unfold use1 use2 contained tapeInput
    rw [if_pos h1, if_pos h1, if_pos h, if_pos h]
    rw [slice_last (by simp only [List.length_append, le16_length, hs]) hr]
    refine ⟨by simp, .inr ?_⟩
    simp only [List.append_assoc]
    rw [slice_first hr]
    simp
  · have h1 := pathNode_inner hI hm hκ (by omega)
    refine ⟨?_, .inl h1⟩
    unfold use1 contained
    rw [if_neg h, if_neg (show ¬I.numParties ≤ pathNode I m κ + 1 by omega), List.append_assoc, List.append_assoc]
    rw [slice_at (by rfl) hr]
    simp

omit hκ in
/-- The input of the parent is one of the inputs. -/
theorem parent_path (ω : Coins I D L) (X0 : Xof) (e : Nat) (h0 : pathNode I m κ ≠ 0) : ω.parent X0 e (pathNode I m κ) ∈ pathInputs X0 ω e m := by
  obtain ⟨b1, b2, b3, b4⟩ := parties_bounds hI
  rw [mem_pathInputs]
  have hd : κ - 1 < depth I.numParties := by
    by_contra hc
    exact h0 (anc_root b1 b3 hm _ (by omega))
  exact ⟨κ - 1 + 2, by omega, rfl⟩

end

section
variable {I : Instance} {D : Finset Bytes} {L : Nat} (hI : Consistent I) (hD : ∀ y : Bytes, y.length ≤ I.seedSize + 37 → y ∈ D) (hL1 : 32 + I.numRounds * I.seedSize ≤ L) (hL2 : 2 * I.seedSize ≤ L)
  (hT : I.tapeSize ≤ L) (X0 : Xof) (c : Nat) (fuel : Nat) (pk msg : Bytes) {q : Nat} (O : Observer (kindOf I.digestSize) q)

/-- What the observer sees of the hash function. -/
def seen (X0 : Xof) (ω : Coins I D L) (o : Simulated) : Xof := withTable (kindOf I.digestSize) X0 (ω.table o)

/-- The hidden party of repetition `e`. -/
def hiddenIn (o : Simulated) (e : Nat) : Nat := (o.sig.proofs.map (·.reveal.missing)).getD e 0

/-- Question `i` is the first one about a seed that is not opened; it is input `κ` of repetition `e`. -/
structure FirstHit (X0 : Xof) (c : Nat) (fuel : Nat) (pk msg : Bytes) (O : Observer (kindOf I.digestSize) q) (i e κ : Nat) (ω : Coins I D L) (o : Simulated) : Prop where
  run : ω.run X0 c fuel pk msg = .ok o
  seeds : ∀ e < I.numRounds, ∀ p < I.numParties, ω.node X0 e (leafNode I.numParties p) ≠ ω.saltOf.take I.seedSize
  hit : O.ask o.sig (seen X0 ω o) i = pathInput I ω.saltOf e (hiddenIn o e) κ (ω.node X0 e (pathNode I (hiddenIn o e) κ))
  first : ∀ j < i, ∀ e' < I.numRounds, O.ask o.sig (seen X0 ω o) j ∉ pathInputs X0 ω e' (hiddenIn o e')

/-- The seeds that are not taken as replacements. -/
def taken (X0 : Xof) (O : Observer (kindOf I.digestSize) q) (i κ : Nat) (ω : Coins I D L) (o : Simulated) : List Bytes :=
  ω.saltOf.take I.seedSize :: (List.range i).flatMap fun j => contained I.seedSize κ (O.ask o.sig (seen X0 ω o) j)

theorem taken_length (X0 : Xof) (O : Observer (kindOf I.digestSize) q) (i κ : Nat) (ω : Coins I D L) (o : Simulated) : (taken X0 O i κ ω o).length ≤ 2 * i + 1 := by
  unfold taken
  rw [List.length_cons, List.length_flatMap]
  have : ((List.range i).map fun j => (contained I.seedSize κ (O.ask o.sig (seen X0 ω o) j)).length).sum ≤ ((List.range i).map fun _ => 2).sum := by
    refine List.sum_le_sum fun j _ => ?_
    unfold contained
    split <;> simp
  rw [List.map_const', List.sum_replicate, List.length_range, smul_eq_mul] at this
  omega

variable {X0 c fuel pk msg O}
include hI

theorem hidden_lt {F : FieldState} (hF : initExtensionField I.lambda = .ok F) {ω : Coins I D L} {o : Simulated} (h : ω.run X0 c fuel pk msg = .ok o) : ∀ e < I.numRounds, hiddenIn o e < I.numParties := by
  intro e he
  obtain ⟨Rs, ms, e2, e3, rfl⟩ := run_parts hI hF h
  obtain ⟨ml, mlt⟩ := phase3Expand_spec _ _ fuel I _ ms e3
  have hmiss : hiddenIn (ω.out X0 c F pk msg Rs ms) e = ms.getD e 0 := by
    change (((List.range I.numRounds).map _).map _).getD e 0 = _
    rw [List.map_map, getD_range_map _ _ _ _ he]
    rfl
  rw [hmiss, getD_of_lt (by omega)]
  exact mlt _ (List.getElem_mem _)

include hD hL1 hL2 hT

/-- With another seed the observer asks the same. -/
theorem FirstHit.change {i e κ : Nat} (he : e < I.numRounds) (hκ : κ < depth I.numParties + 2) {ω : Coins I D L} {o : Simulated} (h : FirstHit X0 c fuel pk msg O i e κ ω o) {r' : Bytes} (hr : r'.length = I.seedSize)
    (hn : r' ∉ taken X0 O i κ ω o) :
    (ω.rekey X0 e (pathNode I (hiddenIn o e) κ) r').run X0 c fuel pk msg = .ok o ∧ O.ask o.sig (seen X0 (ω.rekey X0 e (pathNode I (hiddenIn o e) κ) r') o) i = O.ask o.sig (seen X0 ω o) i ∧
      (ω.rekey X0 e (pathNode I (hiddenIn o e) κ) r').node X0 e (pathNode I (hiddenIn o e) κ) = r' ∧
      (ω.rekey X0 e (pathNode I (hiddenIn o e) κ) r').saltOf = ω.saltOf ∧
      (ω.rekey X0 e (pathNode I (hiddenIn o e) κ) r').rekey X0 e (pathNode I (hiddenIn o e) κ) (ω.node X0 e (pathNode I (hiddenIn o e) κ)) = ω := by
  obtain ⟨F, hF⟩ := init_supported hI.lambda
  have hm := hidden_lt hI hF h.run e he
  unfold taken at hn
  rw [List.mem_cons, not_or] at hn
  obtain ⟨hne, hn⟩ := hn
  have hi : pathNode I (hiddenIn o e) κ + 1 < 2 * I.numParties := anc_lt hI hm _
  refine ⟨rekey_run hI hD hL1 hL2 hT he hr hne h.seeds hF h.run, ?_, ?_, rekey_saltOf (by omega), rekey_rekey hI hD hL1 hL2 he hi hr hne h.seeds⟩
  swap
  · rw [rekey_node hI hD hL1 hL2 he hi hr hne h.seeds e he _ hi, if_pos ⟨rfl, rfl⟩]
  refine O.adaptive o.sig _ _ i fun j hj => ?_
  set y := O.ask o.sig (seen X0 ω o) j with hy
  have hfree : r' ∉ contained I.seedSize κ y := fun hc => hn (List.mem_flatMap.2 ⟨j, List.mem_range.2 hj, hc⟩)
  have hfirst : y ∉ pathInputs X0 ω e (hiddenIn o e) := h.first j hj e he
  have hpath : ∀ κ' < depth I.numParties + 2, y ≠ pathInput I ω.saltOf e (hiddenIn o e) κ' (ω.node X0 e (pathNode I (hiddenIn o e) κ')) := fun κ' hκ' hc => hfirst (mem_pathInputs.2 ⟨κ', hκ', hc⟩)
  obtain ⟨⟨k1, k1l, k1n, k1e⟩, u2⟩ := use_path hI hm hκ ω.saltOf e (ω.node X0 e (pathNode I (hiddenIn o e) κ))
  obtain ⟨c1, c2⟩ := use_contained hI hm hκ ω.salt_length e hr
  refine withTable_congr _ X0 (fun hyD => ?_) _
  have hsame : (ω.rekey X0 e (pathNode I (hiddenIn o e) κ) r').2.2 ⟨y, hyD⟩ = ω.2.2 ⟨y, hyD⟩ := by
    refine rekey_same ?_ ?_ ?_ ?_ hyD
    · intro hc
      refine hpath k1 k1l (hc.trans ?_)
      rw [k1e, k1n]
    · intro hc
      rw [← hc] at c1
      exact hfree c1
    · rcases u2 with u2 | ⟨k2, k2l, k2n, k2e⟩
      · exact .inl u2
      rcases c2 with c2 | c2
      · exact .inl c2
      refine .inr ⟨fun hc => hpath k2 k2l (hc.trans ?_), fun hc => ?_⟩
      · rw [k2e, k2n]
      · rw [← hc] at c2
        exact hfree c2
    · by_cases h0 : pathNode I (hiddenIn o e) κ = 0
      · exact .inl h0
      · refine .inr fun hc => hfirst ?_
        rw [hc]
        exact parent_path hI hm ω X0 e h0
  unfold Coins.table patch
  have hh : ∀ k, (ω.rekey X0 e (pathNode I (hiddenIn o e) κ) r').hash k = ω.hash k := fun k => rfl
  rw [hsame, hh, hh, hh]

/-- Question `i` is rarely the first about a given seed. -/
theorem firstHit_count {i e κ : Nat} (hi : i < q) (he : e < I.numRounds) (hκ : κ < depth I.numParties + 2) :
    {ω : Coins I D L | ∃ o, FirstHit X0 c fuel pk msg O i e κ ω o}.ncard * (256 ^ I.seedSize - 2 * q) ≤ Nat.card (Coins I D L) := by
  classical
  have : Finite Byte := Finite.of_injective BitVec.toFin fun a b h => BitVec.eq_of_toFin_eq h
  have key : ∀ ω : Coins I D L, ∃ o, (∃ o, FirstHit X0 c fuel pk msg O i e κ ω o) → FirstHit X0 c fuel pk msg O i e κ ω o := by
    intro ω
    by_cases h : ∃ o, FirstHit X0 c fuel pk msg O i e κ ω o
    · exact ⟨h.choose, fun _ => h.choose_spec⟩
    · exact ⟨⟨⟨[], [], [], []⟩, [], [], []⟩, fun h' => absurd h' h⟩
  choose o ho using key
  refine change_count _ (fun ω => {v : Fin I.seedSize → Byte | List.ofFn v ∉ taken X0 O i κ ω (o ω)}) _ (fun ω hω => ?_) (fun ω v => ω.rekey X0 e (pathNode I (hiddenIn (o ω) e) κ) (List.ofFn v)) ?_
  · refine le_trans ?_ (count_outside _ _)
    have := taken_length X0 O i κ ω (o ω)
    omega
  · intro ω hω v hv ψ hψ t ht heq
    obtain ⟨a1, a2, a3, a4, a5⟩ := (ho ω hω).change hI hD hL1 hL2 hT he hκ (List.length_ofFn (f := v)) hv
    obtain ⟨b1, b2, b3, b4, b5⟩ := (ho ψ hψ).change hI hD hL1 hL2 hT he hκ (List.length_ofFn (f := t)) ht
    have h1 := (ho ω hω).hit
    have h2 := (ho ψ hψ).hit
    have hoo : o ω = o ψ := by
      rw [heq] at a1
      exact Except.ok.inj (a1.symm.trans b1)
    rw [← hoo] at heq b2 b3 b4 b5 h2
    rw [heq] at a2 a3 a4 a5
    have hsalt := a4.symm.trans b4
    rw [← a2] at h1
    rw [← b2, ← hsalt] at h2
    have hseed := pathInput_inj ((ω.node_length X0 e _).trans (ψ.node_length X0 e _).symm) (h1.symm.trans h2)
    refine ⟨?_, List.ofFn_injective (a3.symm.trans b3)⟩
    rw [← a5, hseed, b5]

/-- The observer rarely finds a seed that is not opened. -/
theorem seeds_count : {ω : Coins I D L | (∃ o, ω.run X0 c fuel pk msg = .ok o ∧ ∀ e < I.numRounds, ∀ p < I.numParties, ω.node X0 e (leafNode I.numParties p) ≠ o.sig.salt.take I.seedSize) ∧
    FindsSeed O X0 c fuel pk msg ω}.ncard * (256 ^ I.seedSize - 2 * q) ≤ q * I.numRounds * (depth I.numParties + 2) * Nat.card (Coins I D L) := by
  classical
  have : Finite Byte := Finite.of_injective BitVec.toFin fun a b h => BitVec.eq_of_toFin_eq h
  obtain ⟨F, hF⟩ := init_supported hI.lambda
  set T := Finset.range q ×ˢ (Finset.range I.numRounds ×ˢ Finset.range (depth I.numParties + 2)) with hTs
  have hsub : {ω : Coins I D L | (∃ o, ω.run X0 c fuel pk msg = .ok o ∧ ∀ e < I.numRounds, ∀ p < I.numParties, ω.node X0 e (leafNode I.numParties p) ≠ o.sig.salt.take I.seedSize) ∧
      FindsSeed O X0 c fuel pk msg ω} ⊆ ⋃ t ∈ T, {ω : Coins I D L | ∃ o, FirstHit X0 c fuel pk msg O t.1 t.2.1 t.2.2 ω o} := by
    rintro ω ⟨⟨o, hrun, hseeds⟩, o', hrun', j, hj, e, he, hf⟩
    obtain rfl : o' = o := Except.ok.inj (hrun'.symm.trans hrun)
    have hsalt : o'.sig.salt = ω.saltOf := by
      obtain ⟨Rs, ms, _, _, rfl⟩ := run_parts hI hF hrun
      rfl
    rw [hsalt] at hseeds
    have hex : ∃ j, ∃ e < I.numRounds, O.ask o'.sig (seen X0 ω o') j ∈ pathInputs X0 ω e (hiddenIn o' e) := ⟨j, e, he, hf⟩
    obtain ⟨e0, he0, h0⟩ := Nat.find_spec hex
    have hle : Nat.find hex ≤ j := Nat.find_min' hex ⟨e, he, hf⟩
    obtain ⟨κ, hκ, hhit⟩ := mem_pathInputs.1 h0
    rw [Set.mem_iUnion₂]
    refine ⟨(Nat.find hex, e0, κ), ?_, o', hrun, hseeds, hhit, fun j' hj' e' he' hc => Nat.find_min hex hj' ⟨e', he', hc⟩⟩
    rw [hTs]
    simp only [Finset.mem_product, Finset.mem_range]
    exact ⟨by omega, he0, hκ⟩
  have hcard : T.card = q * I.numRounds * (depth I.numParties + 2) := by
    rw [hTs, Finset.card_product, Finset.card_product, Finset.card_range, Finset.card_range, Finset.card_range, Nat.mul_assoc]
  have hun : (⋃ t ∈ T, {ω : Coins I D L | ∃ o, FirstHit X0 c fuel pk msg O t.1 t.2.1 t.2.2 ω o}).ncard ≤ ∑ t ∈ T, {ω : Coins I D L | ∃ o, FirstHit X0 c fuel pk msg O t.1 t.2.1 t.2.2 ω o}.ncard :=
    Finset.set_ncard_biUnion_le _ _
  refine (Nat.mul_le_mul_right _ ((Set.ncard_le_ncard hsub (Set.toFinite _)).trans hun)).trans ?_
  rw [Finset.sum_mul, ← hcard, ← smul_eq_mul]
  refine Finset.sum_le_card_nsmul _ _ _ fun t ht => ?_
  rw [hTs] at ht
  simp only [Finset.mem_product, Finset.mem_range] at ht
  exact firstHit_count hI hD hL1 hL2 hT ht.1 ht.2.1 ht.2.2

end

end Banquet
