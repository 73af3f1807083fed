import Verif.Proofs.Accident
import Verif.Props.Ends

/-! C80: signatures can be simulated without the secret key. -/

namespace Banquet.Props

open Spec FieldOk

section
variable {I : Instance} (hI : Consistent I) {sk pk msg : Bytes} (hk : KeyPair I sk pk) {D : Finset Bytes} (hD : ∀ s : Bytes, s.length ≤ longest I pk msg → s ∈ D) {L : Nat} (hL : 32 + I.numRounds * I.seedSize ≤ L)
  (hT : I.tapeSize ≤ L) (hd : I.digestSize ≤ L) (X0 : Xof) (c : Nat) (fuel : Nat)
include hI hk hD hL hT hd

/-- C80: random choices of the simulator without accidents can be turned one-to-one into choices for which the signer makes the same signature with the secret key. The hash function is then as the simulator leaves it, except for
the hidden inputs. `c` is the number of corrections of `P` covered by the second hash: `m2` for the code (`C80_code`), `m2 + 1` for the changed code of C78. -/
theorem C80_couple (hcm : c ≤ I.m2 + 1) : ∃ Φ : Coins I D L → Coins I D L, Set.InjOn Φ {ω | ∃ o, Clean X0 c fuel sk pk msg ω o} ∧
    ∀ ω o, Clean X0 c fuel sk pk msg ω o → Fixed.signN c ((Φ ω).xof X0) fuel I sk pk msg = .ok o.sig ∧ ∀ x : D, x.1 ∉ hiddenInputs X0 sk pk msg ω o → (Φ ω).2.2 x = ω.table o x := by
  classical
  obtain ⟨F, hF⟩ := init_supported hI.lambda
  have key : ∀ ω : Coins I D L, ∃ ω', (∃ o, Clean X0 c fuel sk pk msg ω o) → ∃ Rs ms t, Clean X0 c fuel sk pk msg ω (ω.out X0 c F pk msg Rs ms) ∧ Programmed X0 c fuel F sk pk msg ω ω' Rs ms t := by
    intro ω
    by_cases h : ∃ o, Clean X0 c fuel sk pk msg ω o
    · obtain ⟨o, h⟩ := h
      obtain ⟨ω', Rs, ms, t, rfl, hp⟩ := h.programmed hI hF hk hD hL hT hd hcm
      exact ⟨ω', fun _ => ⟨Rs, ms, t, h, hp⟩⟩
    · exact ⟨ω, fun h' => absurd h' h⟩
  choose Φ hΦ using key
  have h8 : I.lambda ≤ 8 := by rcases hI.lambda with h | h | h | h <;> omega
  refine ⟨Φ, fun ω hω ψ hψ he => ?_, fun ω o h => ?_⟩
  · obtain ⟨Rs, ms, t, _, h⟩ := hΦ ω hω
    obtain ⟨Rs', ms', t', _, h'⟩ := hΦ ψ hψ
    rw [← he] at h'
    exact h.inj hT hd h8 h'
  · obtain ⟨Rs, ms, t, hc, hp⟩ := hΦ ω ⟨o, h⟩
    obtain rfl : o = ω.out X0 c F pk msg Rs ms := Except.ok.inj (h.run.symm.trans hc.run)
    refine ⟨?_, fun x hx => ?_⟩
    · unfold Fixed.signN
      rw [hF]
      exact hp.sign
    · have hmiss : ∀ e < I.numRounds, (((ω.out X0 c F pk msg Rs ms).sig.proofs.map (·.reveal.missing)).getD e 0) = ms.getD e 0 := fun e he => by
        change (((List.range I.numRounds).map _).map _).getD e 0 = _
        rw [List.map_map, getD_range_map _ _ _ _ he]
        rfl
      rw [hp.table]
      by_cases hs : x.1 ∈ (ω.patches X0 c F sk pk msg Rs ms t).map Prod.fst
      swap
      · rw [patch_not _ hs]
        unfold Coins.table
        rw [patch_not]
        intro hm
        refine hs ?_
        simp only [List.map_cons, List.map_nil, List.mem_cons, List.not_mem_nil, or_false] at hm
        unfold Coins.patches
        simp only [List.map_cons, List.mem_cons]
        tauto
      rw [Coins.patches_fst] at hs
      have hnd := hp.nodup
      unfold special at hs hnd
      have hnd' : ([((ω.out X0 c F pk msg Rs ms).in1, ω.hash 0), ((ω.out X0 c F pk msg Rs ms).in2, ω.hash 1), ((ω.out X0 c F pk msg Rs ms).in3, ω.hash 2)].map Prod.fst).Nodup := by
        simp only [List.nodup_cons, List.mem_cons, not_or] at hnd
        simp only [List.map_cons, List.map_nil, List.nodup_cons, List.mem_cons, List.not_mem_nil, or_false, not_or, not_false_eq_true, List.nodup_nil, and_true]
        tauto
      have go : ∀ v, (x.1, v) ∈ ω.patches X0 c F sk pk msg Rs ms t → (x.1, v) ∈ [((ω.out X0 c F pk msg Rs ms).in1, ω.hash 0), ((ω.out X0 c F pk msg Rs ms).in2, ω.hash 1), ((ω.out X0 c F pk msg Rs ms).in3, ω.hash 2)] →
          patch (ω.patches X0 c F sk pk msg Rs ms t) ω.2.2 x = ω.table (ω.out X0 c F pk msg Rs ms) x := fun v h1 h2 => by
        unfold Coins.table
        rw [patch_mem (by rw [Coins.patches_fst]; exact hp.nodup) _ h1, patch_mem hnd' _ h2]
      simp only [List.mem_cons, List.mem_map, List.mem_range] at hs
      unfold hiddenInputs at hx
      simp only [List.mem_cons, List.mem_map, List.mem_range, not_or, not_exists, not_and] at hx
      rcases hs with hs | hs | hs | hs | ⟨e, he, hs⟩
      · exact absurd hs hx.1
      · exact go (ω.hash 0) (by rw [hs]; simp [Coins.patches]) (by rw [hs]; simp)
      · exact go (ω.hash 1) (by rw [hs]; simp [Coins.patches]) (by rw [hs]; simp)
      · exact go (ω.hash 2) (by rw [hs]; simp [Coins.patches]) (by rw [hs]; simp)
      · refine absurd ?_ (hx.2 e he)
        rw [hmiss e he, ← hs]
        rfl

/-- C80: whoever gets a signature and asks for `q` values of a random hash function cannot tell whether it was made by the signer or by the simulator, unless there is an accident or a hidden input is found. -/
theorem C80_distinguish (hcm : c ≤ I.m2 + 1) {q : Nat} (O : Observer (kindOf I.digestSize) q) :
    |({ω : Coins I D L | AcceptsSimulated O X0 c fuel pk msg ω}.ncard : ℚ) / Nat.card (Coins I D L) - ({f : D → Fin L → Byte | AcceptsReal O X0 c fuel sk pk msg f}.ncard : ℚ) / Nat.card (D → Fin L → Byte)| ≤
      (({ω : Coins I D L | ¬∃ o, Clean X0 c fuel sk pk msg ω o}.ncard : ℚ) + {ω : Coins I D L | (∃ o, Clean X0 c fuel sk pk msg ω o) ∧ Finds O X0 c fuel sk pk msg ω}.ncard) / Nat.card (Coins I D L) := by
  have : Finite Byte := Finite.of_injective BitVec.toFin fun a b h => BitVec.eq_of_toFin_eq h
  obtain ⟨Φ, hinj, hΦ⟩ := C80_couple hI hk hD hL hT hd X0 c fuel hcm
  set bad : Set (Coins I D L) := {ω | ¬∃ o, Clean X0 c fuel sk pk msg ω o} ∪ {ω | (∃ o, Clean X0 c fuel sk pk msg ω o) ∧ Finds O X0 c fuel sk pk msg ω} with hbad
  set S : Set (Coins I D L) := {ω | AcceptsSimulated O X0 c fuel pk msg ω} with hS
  set R : Set (Coins I D L) := {ω | AcceptsReal O X0 c fuel sk pk msg ω.2.2} with hR
  have hagree : ∀ ω, ω ∉ bad → (ω ∈ S ↔ Φ ω ∈ R) := by
    intro ω hω
    rw [hbad, Set.mem_union, not_or, Set.mem_ofPred_eq, Set.mem_ofPred_eq, not_not] at hω
    obtain ⟨⟨o, hc⟩, hf⟩ := hω
    obtain ⟨hs, ht⟩ := hΦ ω o hc
    have hdep := O.depends o.sig (withTable (kindOf I.digestSize) X0 (ω.table o)) ((Φ ω).xof X0) fun j hj => by
      refine withTable_congr _ X0 (fun hx => ht _ fun hm => hf ⟨⟨o, hc⟩, o, hc.run, j, hj, hm⟩) _
    constructor
    · rintro ⟨o', h1, h2⟩
      obtain rfl : o' = o := Except.ok.inj (h1.symm.trans hc.run)
      exact ⟨o'.sig, hs, hdep.2 h2⟩
    · rintro ⟨sig, h1, h2⟩
      obtain rfl : sig = o.sig := Except.ok.inj (h1.symm.trans hs)
      exact ⟨o, hc.run, hdep.1 h2⟩
  have hclean : ∀ ω, ω ∉ bad → ω ∈ {ω | ∃ o, Clean X0 c fuel sk pk msg ω o} := fun ω hω => by
    rw [hbad, Set.mem_union, not_or, Set.mem_ofPred_eq, not_not] at hω
    exact hω.1
  have half : ∀ A B : Set (Coins I D L), (∀ ω, ω ∉ bad → ω ∈ A → Φ ω ∈ B) → A.ncard ≤ bad.ncard + B.ncard := by
    intro A B hAB
    have h1 : A ⊆ bad ∪ (A \ bad) := fun ω hω => by
      by_cases hb : ω ∈ bad
      · exact Or.inl hb
      · exact Or.inr ⟨hω, hb⟩
    refine (Set.ncard_le_ncard h1 (Set.toFinite _)).trans ((Set.ncard_union_le _ _).trans (Nat.add_le_add_left ?_ _))
    exact Set.ncard_le_ncard_of_injOn Φ (fun ω hω => hAB ω hω.2 hω.1) (fun a ha b hb => hinj (hclean a ha.2) (hclean b hb.2)) (Set.toFinite _)
  have k1 := half S R fun ω hω hs => (hagree ω hω).1 hs
  have k2 := half Sᶜ Rᶜ fun ω hω hs => fun hr => hs ((hagree ω hω).2 hr)
  have e1 := Set.ncard_add_ncard_compl S
  have e2 := Set.ncard_add_ncard_compl R
  have kb : bad.ncard ≤ {ω : Coins I D L | ¬∃ o, Clean X0 c fuel sk pk msg ω o}.ncard + {ω : Coins I D L | (∃ o, Clean X0 c fuel sk pk msg ω o) ∧ Finds O X0 c fuel sk pk msg ω}.ncard := Set.ncard_union_le _ _
  have hRc : R.ncard = Nat.card ((Fin L → Byte) × (Fin 3 → Fin I.digestSize → Byte)) * {f : D → Fin L → Byte | AcceptsReal O X0 c fuel sk pk msg f}.ncard := by
    have : R = (fun p : ((Fin L → Byte) × (Fin 3 → Fin I.digestSize → Byte)) × (D → Fin L → Byte) => (p.1.1, p.1.2, p.2)) '' (Set.univ ×ˢ {f : D → Fin L → Byte | AcceptsReal O X0 c fuel sk pk msg f}) := by
      ext ⟨a, b, f⟩
      constructor
      · intro h
        exact ⟨((a, b), f), ⟨trivial, h⟩, rfl⟩
      · rintro ⟨⟨⟨a', b'⟩, f'⟩, ⟨_, h⟩, e⟩
        obtain ⟨rfl, rfl, rfl⟩ := by simpa using e
        exact h
    rw [this, Set.ncard_image_of_injective _ (by rintro ⟨⟨a, b⟩, c⟩ ⟨⟨a', b'⟩, c'⟩ h; simpa [Prod.ext_iff, and_assoc] using h), Set.ncard_prod, Set.ncard_univ]
  have hcard : Nat.card (Coins I D L) = Nat.card ((Fin L → Byte) × (Fin 3 → Fin I.digestSize → Byte)) * Nat.card (D → Fin L → Byte) := by
    rw [Nat.card_prod, Nat.card_prod, Nat.card_prod, Nat.mul_assoc]
  have p1 : 0 < Nat.card ((Fin L → Byte) × (Fin 3 → Fin I.digestSize → Byte)) := Nat.card_pos
  have p2 : 0 < Nat.card (D → Fin L → Byte) := Nat.card_pos
  have hreal : ({f : D → Fin L → Byte | AcceptsReal O X0 c fuel sk pk msg f}.ncard : ℚ) / Nat.card (D → Fin L → Byte) = R.ncard / Nat.card (Coins I D L) := by
    rw [hRc, hcard]
    push_cast
    rw [mul_div_mul_left]
    exact_mod_cast p1.ne'
  rw [hreal, ← sub_div, abs_div, abs_of_pos (show (0 : ℚ) < Nat.card (Coins I D L) by rw [hcard]; exact_mod_cast Nat.mul_pos p1 p2)]
  refine div_le_div_of_nonneg_right ?_ (by positivity)
  rw [abs_le]
  have k1' : (S.ncard : ℚ) ≤ bad.ncard + R.ncard := by exact_mod_cast k1
  have k2' : (R.ncard : ℚ) ≤ bad.ncard + S.ncard := by
    have : R.ncard ≤ bad.ncard + S.ncard := by omega
    exact_mod_cast this
  have kb' : (bad.ncard : ℚ) ≤ {ω : Coins I D L | ¬∃ o, Clean X0 c fuel sk pk msg ω o}.ncard + {ω : Coins I D L | (∃ o, Clean X0 c fuel sk pk msg ω o) ∧ Finds O X0 c fuel sk pk msg ω}.ncard := by exact_mod_cast kb
  constructor <;> linarith

omit hk hL hT in
/-- C80: accidents are rare: the salt is found in the secret input, a seed is the beginning of the salt, or the second challenge is not found in the first `n` blocks. -/
theorem C80_accident (hL : 32 ≤ L) (n : Nat) (hn : I.numRounds ≤ n) (hnL : n * I.lambda ≤ L) (hf : n ≤ fuel) :
    ({ω : Coins I D L | ¬∃ o, Clean X0 c fuel sk pk msg ω o}.ncard : ℚ) ≤ ((secretInput I sk pk msg).length / 256 ^ 32 + I.numRounds * I.numParties / 256 ^ I.seedSize +
      (n.choose (n + 1 - I.numRounds) * I.m2 ^ (n + 1 - I.numRounds) : Nat) / 256 ^ (I.lambda * (n + 1 - I.numRounds))) * Nat.card (Coins I D L) :=
  accident_count hI hD hL hd X0 hn hnL hf

end

/-- All inputs up to a given length. -/
noncomputable def shortInputs (n : Nat) : Finset Bytes :=
  have : Finite Byte := Finite.of_injective BitVec.toFin fun _ _ h => BitVec.eq_of_toFin_eq h
  (List.finite_length_le Byte n).toFinset

theorem mem_shortInputs {n : Nat} (s : Bytes) : s ∈ shortInputs n ↔ s.length ≤ n := by
  unfold shortInputs
  rw [Set.Finite.mem_toFinset]
  rfl

/-- C80: what is accepted of the signer, for `c = m2`, is made by `sign` of the code. -/
theorem C80_code {I : Instance} {D : Finset Bytes} {L q : Nat} (O : Observer (kindOf I.digestSize) q) (X0 : Xof) (fuel : Nat) (sk pk msg : Bytes) (f : D → Fin L → Byte) :
    AcceptsReal O X0 I.m2 fuel sk pk msg f ↔ ∃ sig, sign (withTable (kindOf I.digestSize) X0 f) fuel I sk pk msg = .ok sig ∧ O.accept sig (withTable (kindOf I.digestSize) X0 f) := Iff.rfl

/-- For the test key there are choices without accidents, with any hash function outside the table; they are turned into one for which the signer signs. -/
example (X0 : Xof) : ∃ (ω ω' : Coins smallInstance (shortInputs (longest smallInstance katPk [5])) 1000) (o : Simulated), Clean X0 smallInstance.m2 16 katKey katPk [5] ω o ∧ sign (ω'.xof X0) 16 smallInstance katKey katPk [5] = .ok o.sig := by
  have : Finite Byte := Finite.of_injective BitVec.toFin fun a b h => BitVec.eq_of_toFin_eq h
  have hD : ∀ s : Bytes, s.length ≤ longest smallInstance katPk [5] → s ∈ shortInputs (longest smallInstance katPk [5]) := fun s hs => (mem_shortInputs s).2 hs
  obtain ⟨Φ, _, hΦ⟩ := C80_couple small_consistent (kat_pair _ rfl) hD (L := 1000) (by decide) (by decide) (by decide) X0 smallInstance.m2 16 (by decide)
  suffices h : ∃ (ω : Coins smallInstance (shortInputs (longest smallInstance katPk [5])) 1000) (o : Simulated), Clean X0 smallInstance.m2 16 katKey katPk [5] ω o by
    obtain ⟨ω, o, h⟩ := h
    exact ⟨ω, Φ ω, o, h, (hΦ ω o h).1⟩
  by_contra hcon
  have hall : {ω : Coins smallInstance (shortInputs (longest smallInstance katPk [5])) 1000 | ¬∃ o, Clean X0 smallInstance.m2 16 katKey katPk [5] ω o} = Set.univ := Set.eq_univ_of_forall fun ω h => hcon ⟨ω, h⟩
  have k := C80_accident small_consistent (sk := katKey) hD (L := 1000) (by decide) X0 smallInstance.m2 16 (by norm_num) 16 (by decide) (by decide) le_rfl
  rw [hall, Set.ncard_univ] at k
  have hp : (0 : ℚ) < Nat.card (Coins smallInstance (shortInputs (longest smallInstance katPk [5])) 1000) := by exact_mod_cast Nat.card_pos
  have h1 := le_of_mul_le_mul_right ((one_mul _).trans_le k) hp
  have e1 : (secretInput smallInstance katKey katPk [5]).length = 51 := by decide
  have e2 : smallInstance.numRounds = 1 ∧ smallInstance.numParties = 2 ∧ smallInstance.seedSize = 16 ∧ smallInstance.m2 = 20 ∧ smallInstance.lambda = 4 := by decide
  rw [e1, e2.1, e2.2.1, e2.2.2.1, e2.2.2.2.1, e2.2.2.2.2] at h1
  norm_num at h1

end Banquet.Props
