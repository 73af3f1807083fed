import Verif.Spec.Unforgeable
import Verif.Proofs.Guess

/-! The simulator, followed by a forger, is one algorithm that asks for values of the hash function. -/

namespace Banquet

open Spec FieldOk

/-- Seeds of the nodes depend on the values for the nodes before. -/
theorem seedAt_agree {X X' : Xof} {root salt : Bytes} {e N : Nat} (i : Nat) (hi : i + 1 < 2 * N)
    (h : ∀ k < i, k + 1 < N → X' (kindOf (2 * root.length)) ([1] ++ seedAt X root salt e k ++ salt ++ le16 e ++ le16 k) = X (kindOf (2 * root.length)) ([1] ++ seedAt X root salt e k ++ salt ++ le16 e ++ le16 k)) :
    seedAt X' root salt e i = seedAt X root salt e i := by
  induction i using Nat.strong_induction_on with
  | _ i ih =>
    cases i with
    | zero => rw [seedAt, seedAt]
    | succ i =>
      rw [seedAt, seedAt, ih (i / 2) (by omega) (by omega) fun k hk hkN => h k (by omega) hkN, h (i / 2) (by omega) (by omega)]

section
variable {I : Instance} (hI : Consistent I) {coins : Stream} {d1 d2 d3 : Bytes} {X X' : Xof}

theorem simInput_node {e p : Nat} (he : e < I.numRounds) (hp : p < I.numParties) : simInput I coins d1 d2 d3 X (3 + (e * I.numParties + p)) =
    [1] ++ seedAt X (coins.squeeze (32 + e * I.seedSize) I.seedSize) (coins.squeeze 0 32) e p ++ coins.squeeze 0 32 ++ le16 e ++ le16 p := by
  have hlt : e * I.numParties + p < I.numRounds * I.numParties := by nlinarith [Nat.mul_le_mul_right I.numParties (Nat.succ_le_of_lt he)]
  have e1 : (3 + (e * I.numParties + p) - 3) % (I.numRounds * I.numParties) / I.numParties = e := by
    rw [Nat.add_sub_cancel_left, Nat.mod_eq_of_lt hlt, Nat.add_comm, Nat.add_mul_div_right _ _ (by omega), Nat.div_eq_of_lt hp, Nat.zero_add]
  have e2 : (3 + (e * I.numParties + p) - 3) % I.numParties = p := by
    rw [Nat.add_sub_cancel_left, Nat.add_comm, Nat.add_mul_mod_self_right, Nat.mod_eq_of_lt hp]
  unfold simInput
  rw [e1, e2]
  dsimp only
  rw [if_neg (by omega), if_pos (by omega)]

theorem simInput_com {e p : Nat} (he : e < I.numRounds) (hp : p < I.numParties) : simInput I coins d1 d2 d3 X (3 + (I.numRounds * I.numParties + (e * I.numParties + p))) =
    coins.squeeze 0 32 ++ le16 e ++ le16 p ++ seedAt X (coins.squeeze (32 + e * I.seedSize) I.seedSize) (coins.squeeze 0 32) e (leafNode I.numParties p) := by
  have hlt : e * I.numParties + p < I.numRounds * I.numParties := by nlinarith [Nat.mul_le_mul_right I.numParties (Nat.succ_le_of_lt he)]
  have e1 : (3 + (I.numRounds * I.numParties + (e * I.numParties + p)) - 3) % (I.numRounds * I.numParties) / I.numParties = e := by
    rw [Nat.add_sub_cancel_left, Nat.add_mod_left, Nat.mod_eq_of_lt hlt, Nat.add_comm, Nat.add_mul_div_right _ _ (by omega), Nat.div_eq_of_lt hp, Nat.zero_add]
  have e2 : (3 + (I.numRounds * I.numParties + (e * I.numParties + p)) - 3) % I.numParties = p := by
    rw [Nat.add_sub_cancel_left, ← Nat.add_assoc, ← Nat.add_mul, Nat.add_comm, Nat.add_mul_mod_self_right, Nat.mod_eq_of_lt hp]
  unfold simInput
  rw [e1, e2]
  dsimp only
  rw [if_neg (by omega), if_neg (by omega), if_pos (by omega)]

theorem simInput_tape {e p : Nat} (he : e < I.numRounds) (hp : p < I.numParties) : simInput I coins d1 d2 d3 X (3 + (2 * (I.numRounds * I.numParties) + (e * I.numParties + p))) =
    tapeInput (seedAt X (coins.squeeze (32 + e * I.seedSize) I.seedSize) (coins.squeeze 0 32) e (leafNode I.numParties p)) (coins.squeeze 0 32) e p := by
  have hlt : e * I.numParties + p < I.numRounds * I.numParties := by nlinarith [Nat.mul_le_mul_right I.numParties (Nat.succ_le_of_lt he)]
  have e1 : (3 + (2 * (I.numRounds * I.numParties) + (e * I.numParties + p)) - 3) % (I.numRounds * I.numParties) / I.numParties = e := by
    rw [Nat.add_sub_cancel_left, Nat.add_comm, Nat.add_mul_mod_self_right, Nat.mod_eq_of_lt hlt, Nat.add_comm, Nat.add_mul_div_right _ _ (by omega), Nat.div_eq_of_lt hp, Nat.zero_add]
  have e2 : (3 + (2 * (I.numRounds * I.numParties) + (e * I.numParties + p)) - 3) % I.numParties = p := by
    rw [Nat.add_sub_cancel_left, ← Nat.add_assoc, ← Nat.mul_assoc, ← Nat.add_mul, Nat.add_comm, Nat.add_mul_mod_self_right, Nat.mod_eq_of_lt hp]
  unfold simInput
  rw [e1, e2]
  dsimp only
  rw [if_neg (by omega), if_neg (by omega), if_neg (by omega)]

/-- Every number belongs to one of these inputs. -/
theorem simInput_index (hN : 0 < I.numParties) {i : Nat} (hi : i < simCount I) : i < 3 ∨ ∃ e < I.numRounds, ∃ p < I.numParties, i = 3 + (e * I.numParties + p) ∨ i = 3 + (I.numRounds * I.numParties + (e * I.numParties + p)) ∨
    i = 3 + (2 * (I.numRounds * I.numParties) + (e * I.numParties + p)) := by
  unfold simCount at hi
  by_cases h3 : i < 3
  · exact Or.inl h3
  right
  have key : ∀ j < I.numRounds * I.numParties, j / I.numParties < I.numRounds ∧ j % I.numParties < I.numParties ∧ j / I.numParties * I.numParties + j % I.numParties = j := fun j hj =>
    ⟨Nat.div_lt_of_lt_mul (by rwa [Nat.mul_comm] at hj), Nat.mod_lt _ hN, Nat.div_add_mod' j _⟩
  rcases Nat.lt_or_ge (i - 3) (I.numRounds * I.numParties) with h | h
  · obtain ⟨a, b, c⟩ := key _ h
    exact ⟨_, a, _, b, Or.inl (by omega)⟩
  · rcases Nat.lt_or_ge (i - 3) (2 * (I.numRounds * I.numParties)) with h' | h'
    · obtain ⟨a, b, c⟩ := key (i - 3 - I.numRounds * I.numParties) (by omega)
      exact ⟨_, a, _, b, Or.inr (Or.inl (by omega))⟩
    · obtain ⟨a, b, c⟩ := key (i - 3 - 2 * (I.numRounds * I.numParties)) (by omega)
      exact ⟨_, a, _, b, Or.inr (Or.inr (by omega))⟩

include hI in
/-- The seeds of repetition `e` depend on the values asked for before. -/
theorem simSeed_agree {n : Nat} (h : ∀ j < n, X' (kindOf I.digestSize) (simInput I coins d1 d2 d3 X j) = X (kindOf I.digestSize) (simInput I coins d1 d2 d3 X j)) {e i : Nat} (he : e < I.numRounds)
    (hi : i + 1 < 2 * I.numParties) (hn : ∀ k < i, k + 1 < I.numParties → 3 + (e * I.numParties + k) < n) :
    seedAt X' (coins.squeeze (32 + e * I.seedSize) I.seedSize) (coins.squeeze 0 32) e i = seedAt X (coins.squeeze (32 + e * I.seedSize) I.seedSize) (coins.squeeze 0 32) e i := by
  obtain ⟨_, _, s3⟩ := seed_cases hI
  refine seedAt_agree i hi fun k hk hkN => ?_
  have := h _ (hn k hk hkN)
  rw [simInput_node he (by omega), s3] at this
  rw [squeeze_len]
  exact this

include hI in
/-- The inputs of the simulator are asked for one after the other. -/
theorem simInput_adaptive {i : Nat} (hi : i < simCount I) (h : ∀ j < i, X' (kindOf I.digestSize) (simInput I coins d1 d2 d3 X j) = X (kindOf I.digestSize) (simInput I coins d1 d2 d3 X j)) :
    simInput I coins d1 d2 d3 X' i = simInput I coins d1 d2 d3 X i := by
  obtain ⟨b1, _⟩ := parties_bounds hI
  have hsm : ∀ e < I.numRounds, ∀ p < I.numParties, e * I.numParties + p < I.numRounds * I.numParties := fun e he p hp => by
    nlinarith [Nat.mul_le_mul_right I.numParties (Nat.succ_le_of_lt he)]
  rcases simInput_index (by omega) hi with h3 | ⟨e, he, p, hp, rfl | rfl | rfl⟩
  · unfold simInput
    dsimp only
    rw [if_pos h3, if_pos h3]
  · rw [simInput_node he hp, simInput_node he hp, simSeed_agree hI h he (by omega) fun k hk _ => by omega]
  · rw [simInput_com he hp, simInput_com he hp, simSeed_agree hI h he (by have := leafNode_eq hI p; omega) fun k hk hkN => by have := hsm e he k (by omega); omega]
  · rw [simInput_tape he hp, simInput_tape he hp, simSeed_agree hI h he (by have := leafNode_eq hI p; omega) fun k hk hkN => by have := hsm e he k (by omega); omega]

include hI in
/-- The simulator needs no other values. -/
theorem simulate_agree {F : FieldState} (hF : initExtensionField I.lambda = .ok F) (h : ∀ j < simCount I, X' (kindOf I.digestSize) (simInput I coins d1 d2 d3 X j) = X (kindOf I.digestSize) (simInput I coins d1 d2 d3 X j)) (c fuel : Nat) (pk msg : Bytes) :
    simulate c X' fuel I pk msg coins d1 d2 d3 = simulate c X fuel I pk msg coins d1 d2 d3 := by
  obtain ⟨b1, _, b3, _⟩ := parties_bounds hI
  have hsm : ∀ e < I.numRounds, ∀ p < I.numParties, e * I.numParties + p < I.numRounds * I.numParties := fun e he p hp => by
    nlinarith [Nat.mul_le_mul_right I.numParties (Nat.succ_le_of_lt he)]
  have hn : ∀ k < 3, k < simCount I := fun k hk => by unfold simCount; omega
  have a1 := h 0 (hn 0 (by omega))
  have a2 := h 1 (hn 1 (by omega))
  have a3 := h 2 (hn 2 (by omega))
  have f : ∀ k (Y : Xof), k < 3 → simInput I coins d1 d2 d3 Y k = [d1, d2, d3].getD k [] := fun k Y hk => by unfold simInput; dsimp only; rw [if_pos hk]
  rw [f 0 X (by omega)] at a1
  rw [f 1 X (by omega)] at a2
  rw [f 2 X (by omega)] at a3
  change X' _ d1 = X _ d1 at a1
  change X' _ d2 = X _ d2 at a2
  change X' _ d3 = X _ d3 at a3
  rw [simulate_eq hI hF, simulate_eq hI hF, phase2Expand_congr a2, phase3Expand_congr a3]
  cases hR : phase2Expand X fuel F I d2 (F.firstN I.m2) with
  | error e => rfl
  | ok Rs =>
  cases hm : phase3Expand X fuel I d3 with
  | error e => rfl
  | ok ms =>
  refine congrArg Except.ok ?_
  obtain ⟨hml, hmlt⟩ := phase3Expand_spec X _ fuel I _ _ hm
  have hms : ∀ e < I.numRounds, ms.getD e 0 < I.numParties := fun e he => by
    rw [getD_of_lt (by omega)]
    exact hmlt _ (List.getElem_mem _)
  have hnode : ∀ e < I.numRounds, ∀ i, i + 1 < 2 * I.numParties → seedAt X' (coins.squeeze (32 + e * I.seedSize) I.seedSize) (coins.squeeze 0 32) e i =
      seedAt X (coins.squeeze (32 + e * I.seedSize) I.seedSize) (coins.squeeze 0 32) e i := fun e he i hi =>
    simSeed_agree hI h he hi fun k hk hkN => by have := hsm e he k (by omega); unfold simCount; omega
  have hleaf : ∀ e < I.numRounds, ∀ p < I.numParties, partySeed X' I (coins.squeeze 0 32) (coins.squeeze (32 + e * I.seedSize) I.seedSize) e p =
      partySeed X I (coins.squeeze 0 32) (coins.squeeze (32 + e * I.seedSize) I.seedSize) e p := fun e he p hp => hnode e he _ (by have := leafNode_eq hI p; omega)
  have hss : SameSeen I (coins.squeeze 0 32) (fun e => coins.squeeze (32 + e * I.seedSize) I.seedSize) (fun e => coins.squeeze (32 + e * I.seedSize) I.seedSize) (fun e => ms.getD e 0) X X' := by
    refine ⟨fun e he k hk => ?_, fun e he p hp => ?_, fun e he p hp => ?_⟩
    · obtain ⟨_, s2⟩ := sib_level b1 b3 (hms e he) k hk
      have hN := depth_pow hI
      have : 2 ^ (depth I.numParties - k + 1) ≤ 2 ^ (depth I.numParties + 1) := Nat.pow_le_pow_right (by norm_num) (by omega)
      rw [pow_succ 2 (depth I.numParties), ← hN] at this
      exact hnode e he _ (by omega)
    · rw [hleaf e he p hp]
      have := h _ (by have := hsm e he p hp; unfold simCount; omega : 3 + (I.numRounds * I.numParties + (e * I.numParties + p)) < simCount I)
      rw [simInput_com he hp] at this
      exact congrArg (·.squeeze 0 I.digestSize) this
    · rw [hleaf e he p hp]
      have := h _ (by have := hsm e he p hp; unfold simCount; omega : 3 + (2 * (I.numRounds * I.numParties) + (e * I.numParties + p)) < simCount I)
      rw [simInput_tape he hp] at this
      exact congrArg (·.squeeze 0 I.tapeSize) this
  exact hss.out hI (fun e => squeeze_len _ _ _) (fun e => squeeze_len _ _ _) hms (fun e _ => rfl) F pk msg _ _ _ a1 Rs

include hI in
theorem simInput_short (h1 : d1.length = I.digestSize) (h2 : d2.length = I.digestSize) (h3 : d3.length = I.digestSize) (i : Nat) (hi : i < simCount I) :
    (simInput I coins d1 d2 d3 X i).length ≤ I.seedSize + 37 ∨ (simInput I coins d1 d2 d3 X i).length = I.digestSize := by
  obtain ⟨b1, _⟩ := parties_bounds hI
  rcases simInput_index (by omega) hi with h | ⟨e, he, p, hp, rfl | rfl | rfl⟩
  · right
    unfold simInput
    dsimp only
    rw [if_pos h]
    rcases (by omega : i = 0 ∨ i = 1 ∨ i = 2) with rfl | rfl | rfl
    · exact h1
    · exact h2
    · exact h3
  · left
    rw [simInput_node he hp]
    simp only [List.length_append, le16_length, seedAt_length, squeeze_len, List.length_cons, List.length_nil]
    omega
  · left
    rw [simInput_com he hp]
    simp only [List.length_append, le16_length, seedAt_length, squeeze_len]
    omega
  · left
    rw [simInput_tape he hp]
    unfold tapeInput
    simp only [List.length_append, le16_length, seedAt_length, squeeze_len]
    omega

end

/-- The hash function with the first bytes for some inputs replaced by given ones. -/
def reset (K : ShakeKind) (l : List (Bytes × Bytes)) (X : Xof) : Xof :=
  fun k s => if k = K then match l.find? fun q => q.1 = s with
    | some q => ⟨fun j => q.2.getD j ((X k s).get j)⟩
    | none => X k s else X k s

theorem reset_congr {K : ShakeKind} (l : List (Bytes × Bytes)) {X X' : Xof} {s : Bytes} (h : X' K s = X K s) : reset K l X' K s = reset K l X K s := by
  unfold reset
  rw [if_pos rfl, if_pos rfl, h]

theorem reset_not {K : ShakeKind} {l : List (Bytes × Bytes)} {X : Xof} {s : Bytes} (h : s ∉ l.map Prod.fst) (k : ShakeKind) : reset K l X k s = X k s := by
  unfold reset
  split
  · rw [List.find?_eq_none.2 fun q hq e => h (List.mem_map.2 ⟨q, hq, by simpa using e⟩)]
  · rfl

theorem reset_withTable {D : Finset Bytes} {L : Nat} (K : ShakeKind) (X0 : Xof) (f : D → Fin L → Byte) {l : List (Bytes × Bytes)} (h : ∀ q ∈ l, q.1 ∈ D ∧ q.2.length ≤ L) :
    withTable K X0 (patch l f) = reset K l (withTable K X0 f) := by
  funext k s
  unfold reset
  by_cases hk : k = K
  · subst hk
    rw [if_pos rfl]
    cases hf : l.find? fun q => q.1 = s with
    | none =>
      refine withTable_congr k X0 (fun hs => ?_) k
      unfold patch
      rw [hf]
    | some q =>
      obtain ⟨a, b⟩ := h q (List.mem_of_find?_eq_some hf)
      obtain rfl : q.1 = s := by simpa using List.find?_some hf
      rw [withTable_mem k X0 _ a, withTable_mem k X0 _ a]
      have : patch l f ⟨q.1, a⟩ = overwrite q.2 (f ⟨q.1, a⟩) := by
        unfold patch
        rw [hf]
      rw [this]
      dsimp only
      refine congrArg Stream.mk (funext fun j => ?_)
      unfold answer overwrite
      dsimp only
      split
      · rfl
      · rw [List.getD_eq_getElem?_getD, List.getElem?_eq_none (by omega), Option.getD_none]
  · rw [if_neg hk]
    unfold withTable
    rw [dif_neg fun h => hk h.1, dif_neg fun h => hk h.1]

section
variable {I : Instance} {q : Nat} (A : Forger (kindOf I.digestSize) q) (fuel : Nat) (pk msg : Bytes) (coins : Stream) (d1 d2 d3 : Bytes)

/-- The hash function that the simulator leaves behind. -/
def left (I : Instance) (d1 d2 d3 : Bytes) (o : Simulated) (X : Xof) : Xof := reset (kindOf I.digestSize) [(o.in1, d1), (o.in2, d2), (o.in3, d3)] X

/-- The simulator, followed by the forger. -/
def play (X : Xof) (i : Nat) : Bytes :=
  if i < simCount I then simInput I coins d1 d2 d3 X i
  else match simulate (I.m2 + 1) X fuel I pk msg coins d1 d2 d3 with
    | .ok o => A.ask o.sig (left I d1 d2 d3 o X) (i - simCount I)
    | .error _ => []

theorem play_sim {X : Xof} {i : Nat} (h : i < simCount I) : play A fuel pk msg coins d1 d2 d3 X i = simInput I coins d1 d2 d3 X i := if_pos h

theorem play_ask {X : Xof} {o : Simulated} (ho : simulate (I.m2 + 1) X fuel I pk msg coins d1 d2 d3 = .ok o) (i : Nat) : play A fuel pk msg coins d1 d2 d3 X (simCount I + i) = A.ask o.sig (left I d1 d2 d3 o X) i := by
  unfold play
  rw [if_neg (by omega), ho, Nat.add_sub_cancel_left]

theorem play_adaptive (hI : Consistent I) {F : FieldState} (hF : initExtensionField I.lambda = .ok F) : Adaptive (kindOf I.digestSize) (play A fuel pk msg coins d1 d2 d3) := by
  intro X X' i h
  have hs : ∀ j < simCount I, j < i → X' (kindOf I.digestSize) (simInput I coins d1 d2 d3 X j) = X (kindOf I.digestSize) (simInput I coins d1 d2 d3 X j) := fun j hj hji => by
    have := h j hji
    rwa [play_sim _ _ _ _ _ _ _ _ hj] at this
  by_cases hi : i < simCount I
  · rw [play_sim _ _ _ _ _ _ _ _ hi, play_sim _ _ _ _ _ _ _ _ hi]
    exact simInput_adaptive hI hi fun j hj => hs j (by omega) hj
  · have hsim := simulate_agree (c := I.m2 + 1) (fuel := fuel) (pk := pk) (msg := msg) hI hF fun j hj => hs j hj (by omega)
    cases ho : simulate (I.m2 + 1) X fuel I pk msg coins d1 d2 d3 with
    | error e =>
      unfold play
      rw [if_neg hi, if_neg hi, hsim, ho]
    | ok o =>
      obtain ⟨j, rfl⟩ : ∃ j, i = simCount I + j := ⟨i - simCount I, by omega⟩
      rw [play_ask _ _ _ _ _ _ _ _ ho, play_ask _ _ _ _ _ _ _ _ (hsim.trans ho)]
      refine A.adaptive _ _ _ _ fun k hk => reset_congr _ ?_
      have := h (simCount I + k) (by omega)
      rwa [play_ask _ _ _ _ _ _ _ _ ho] at this

theorem asks_play {X : Xof} {o : Simulated} (ho : simulate (I.m2 + 1) X fuel I pk msg coins d1 d2 d3 = .ok o) : asks (play A fuel pk msg coins d1 d2 d3) X (simCount I + q) =
    (List.range (simCount I)).map (simInput I coins d1 d2 d3 X) ++ asks (A.ask o.sig) (left I d1 d2 d3 o X) q := by
  unfold asks
  rw [List.range_add, List.map_append, List.map_map]
  refine congrArg₂ _ (List.map_congr_left fun i hi => play_sim _ _ _ _ _ _ _ _ (List.mem_range.1 hi)) (List.map_congr_left fun i _ => play_ask _ _ _ _ _ _ _ _ ho i)

theorem play_mem (hI : Consistent I) (h1 : d1.length = I.digestSize) (h2 : d2.length = I.digestSize) (h3 : d3.length = I.digestSize) {D : Finset Bytes} (hD : ∀ s : Bytes, s.length ≤ I.seedSize + 37 ∨ s.length = I.digestSize → s ∈ D)
    (hA : ∀ sig X i, A.ask sig X i ∈ D) (X : Xof) (i : Nat) : play A fuel pk msg coins d1 d2 d3 X i ∈ D := by
  unfold play
  split
  · rename_i h
    exact hD _ (simInput_short hI h1 h2 h3 i h)
  · split
    · exact hA _ _ _
    · exact hD _ (Or.inl (by simp))

end

end Banquet
