import Verif.Spec.Protocol
import Verif.Proofs.Count
import Verif.Proofs.Level
import Verif.Props.Cheat

/-! C65: soundness of the protocol, all repetitions together. C66: the supplied parameters. -/

namespace Banquet.Props

open Spec FieldOk

/-- C65: the number of challenges of each round. -/
theorem C65_rounds (I : Instance) (hI : Consistent I) : (Round1 I).ncard = ((2 ^ (8 * I.lambda)) ^ I.m1) ^ I.numRounds ∧ (Round2 I).ncard = (2 ^ (8 * I.lambda) - I.m2) ^ I.numRounds ∧
    (Round3 I).ncard = I.numParties ^ I.numRounds := by
  obtain ⟨F, hF⟩ := init_supported hI.lambda
  obtain ⟨hok, hb, _⟩ := initExtensionField_ok hF
  have hm2 := hI.points
  refine ⟨?_, ?_, ?_⟩
  · have hf : {rs : List W64 | Elements I.lambda I.m1 rs}.Finite := (List.finite_length_eq W64 I.m1).subset fun rs h => h.1
    refine (count_tables I.numRounds hf).trans ?_
    congr 1
    refine (count_lists (A := {w : W64 | Reduced I.lambda w}) I.m1).trans ?_
    rw [← hb, count_reduced]
  · refine (count_tables I.numRounds (A := {R : W64 | Reduced I.lambda R ∧ Fresh I.lambda I.m2 R}) (Set.toFinite _)).trans ?_
    rw [← hb, count_fresh (by omega)]
  · refine (count_tables I.numRounds (A := {m | m < I.numParties}) (Set.finite_lt_nat _)).trans ?_
    rw [show {k | k < I.numParties} = ((Finset.range I.numParties : Finset Nat) : Set Nat) by ext; simp, Set.ncard_coe_finset, Finset.card_range]

/-- C65: if in no repetition the parties share a key for the public key, then except for few challenges of the first round, whatever corrections of `P` are sent, except for few challenges of the second
round, whatever values and shares are sent, the verifier accepts for at most `N^(t1 + t2)` of the `N^T` challenges of the third round. -/
theorem C65_soundness (I : Instance) (hI : Consistent I) (pk : Bytes) (hpk : pk.length = 2 * I.ctSize) (r : Fin I.numRounds → Rep) (h1 : ∀ e, (r e).keyDelta.length = I.aes.keySize)
    (h2 : ∀ e, (r e).tDelta.length = I.aes.numSboxes) (h3 : ∀ e p, ((r e).tape p).length = I.tapeSize) (hk : ∀ e, ¬ KeyPair I ((r e).wholeKey I) pk) (t1 t2 : Nat) :
    {rs | rs ∈ Round1 I ∧ ∃ d, (∀ e, Elements I.lambda (I.m2 + 1) (d e)) ∧
      few2 I (t2 + 1) < {Rs | Rs ∈ Round2 I ∧ ∃ o, I.numParties ^ (t1 + t2) < (Wins I pk r d rs Rs o).ncard}.ncard}.ncard ≤ few1 I (t1 + 1) := by
  obtain ⟨F, hF⟩ := init_supported hI.lambda
  obtain ⟨hok, hb, _⟩ := initExtensionField_ok hF
  have hm2 := hI.points
  let B2 : Fin I.numRounds → List W64 → List W64 → Set W64 := fun e d rs => {R : W64 | Reduced I.lambda R ∧ ∃ m m', m < I.numParties ∧ m' < I.numParties ∧ m ≠ m' ∧
        Opens I.lambda I (slice pk 0 I.ctSize) (slice pk I.ctSize I.ctSize) { r e with pDelta := d } rs R m m'}
  let B1 : Fin I.numRounds → Set (List W64) := fun e => {rs | Elements I.lambda I.m1 rs ∧ ∃ d, Elements I.lambda (I.m2 + 1) d ∧ 2 * I.m2 < (B2 e d rs).ncard}
  have c1 : ∀ e, (B1 e).ncard ≤ (2 ^ (8 * I.lambda)) ^ (I.m1 - 1) := fun e => C52_repetition I hI pk hpk (r e) (h1 e) (h2 e) (h3 e) (hk e)
  have hf : {rs : List W64 | Elements I.lambda I.m1 rs}.Finite := (List.finite_length_eq W64 I.m1).subset fun rs h => h.1
  have hc : {rs : List W64 | Elements I.lambda I.m1 rs}.ncard = (2 ^ (8 * I.lambda)) ^ I.m1 := by
    refine (count_lists (A := {w : W64 | Reduced I.lambda w}) I.m1).trans ?_
    rw [← hb, count_reduced]
  have k1 := count_bad hf B1 (fun e => le_trans (Set.ncard_le_ncard Set.inter_subset_left (hf.subset fun _ h => h.1)) (c1 e)) (t1 + 1)
  rw [hc] at k1
  refine le_trans (Set.ncard_le_ncard ?_ ?_) k1
  · rintro rs ⟨hrs, d, hd, hlt⟩
    refine ⟨hrs, ?_⟩
    by_contra hcon
    refine absurd hlt (not_lt.2 ?_)
    classical
    let G : Fin I.numRounds → Set W64 := fun e => if rs e ∈ B1 e then ∅ else B2 e (d e) (rs e)
    have cG : ∀ e, (G e ∩ {R : W64 | Reduced I.lambda R ∧ Fresh I.lambda I.m2 R}).ncard ≤ 2 * I.m2 := fun e => by
      refine le_trans (Set.ncard_le_ncard Set.inter_subset_left (Set.toFinite _)) ?_
      by_cases he : rs e ∈ B1 e
      · rw [show G e = ∅ from if_pos he, Set.ncard_empty]; exact Nat.zero_le _
      · rw [show G e = B2 e (d e) (rs e) from if_neg he]
        by_contra hlt
        exact he ⟨hrs e, d e, hd e, not_le.1 hlt⟩
    have k2 := count_bad (Set.toFinite {R : W64 | Reduced I.lambda R ∧ Fresh I.lambda I.m2 R}) G cG (t2 + 1)
    rw [← hb, count_fresh (by omega), hb] at k2
    refine le_trans (Set.ncard_le_ncard ?_ ?_) k2
    · rintro Rs ⟨hRs, o, ho⟩
      refine ⟨hRs, ?_⟩
      by_contra hcon2
      refine absurd ho (not_lt.2 ?_)
      refine le_trans (count_few (N := I.numParties) (fun e => {m | m < I.numParties ∧ RepAccepts I pk { r e with pDelta := d e } (rs e) (Rs e) (o e) m}) (fun e m hm => hm.1)
        ({e | rs e ∈ B1 e} ∪ {e | Rs e ∈ G e}) ?_ |> le_trans (Set.ncard_le_ncard ?_ ?_)) (Nat.pow_le_pow_right ?_ ?_)
      · exact fun ms h e => ⟨h.1 e, h.2 e⟩
      · exact (Set.Finite.pi' fun e => (Set.finite_lt_nat I.numParties).subset fun m hm => hm.1)
      · intro e he m hm m' hm'
        by_contra hne
        refine he ?_
        by_cases he1 : rs e ∈ B1 e
        · exact Or.inl he1
        · refine Or.inr ?_
          show Rs e ∈ G e
          rw [show G e = B2 e (d e) (rs e) from if_neg he1]
          exact ⟨(hRs e).1, m, m', hm.1, hm'.1, hne, (o e).cR, (o e).aR, (o e).bR, (o e).bc, (o e).c, (o e).a, (o e).b, hm.2.1, hm'.2.1, hm.2.2⟩
      · have := (parties_bounds hI).1; omega
      · refine le_trans (Set.ncard_union_le _ _) ?_
        omega
    · exact (Set.Finite.pi' fun e => Set.toFinite _).subset fun f h => h.1
  · exact (Set.Finite.pi' fun e => hf).subset fun f h => h.1

/-- C65: the error of the protocol. Whatever a prover does who shares no key for the public key, the number of challenges of all three rounds for which they are accepted is at most the sum of three terms: many lucky
first challenges, many lucky second challenges, and guessing the hidden parties of all other repetitions. -/
theorem C65_error (I : Instance) (hI : Consistent I) (pk : Bytes) (hpk : pk.length = 2 * I.ctSize) (r : Fin I.numRounds → Rep) (h1 : ∀ e, (r e).keyDelta.length = I.aes.keySize)
    (h2 : ∀ e, (r e).tDelta.length = I.aes.numSboxes) (h3 : ∀ e p, ((r e).tape p).length = I.tapeSize) (hk : ∀ e, ¬ KeyPair I ((r e).wholeKey I) pk)
    (d : (Fin I.numRounds → List W64) → Fin I.numRounds → List W64) (hd : ∀ rs e, Elements I.lambda (I.m2 + 1) (d rs e))
    (o : (Fin I.numRounds → List W64) → (Fin I.numRounds → W64) → Fin I.numRounds → Opening) (t1 t2 : Nat) :
    {x : (Fin I.numRounds → List W64) × (Fin I.numRounds → W64) × (Fin I.numRounds → Nat) | x.1 ∈ Round1 I ∧ x.2.1 ∈ Round2 I ∧ x.2.2 ∈ Wins I pk r (d x.1) x.1 x.2.1 (o x.1 x.2.1)}.ncard ≤
      few1 I (t1 + 1) * ((Round2 I).ncard * (Round3 I).ncard) + (Round1 I).ncard * (few2 I (t2 + 1) * (Round3 I).ncard) + (Round1 I).ncard * ((Round2 I).ncard * I.numParties ^ (t1 + t2)) := by
  have hf1 : (Round1 I).Finite := Set.Finite.pi' fun e => (List.finite_length_eq W64 I.m1).subset fun rs (h : Elements I.lambda I.m1 rs) => h.1
  have hf2 : (Round2 I).Finite := Set.Finite.pi' fun e => Set.toFinite {R : W64 | Reduced I.lambda R ∧ Fresh I.lambda I.m2 R}
  have hf3 : (Round3 I).Finite := Set.Finite.pi' fun e => Set.finite_lt_nat _
  let L1 := {rs | rs ∈ Round1 I ∧ ∃ d, (∀ e, Elements I.lambda (I.m2 + 1) (d e)) ∧
      few2 I (t2 + 1) < {Rs | Rs ∈ Round2 I ∧ ∃ o, I.numParties ^ (t1 + t2) < (Wins I pk r d rs Rs o).ncard}.ncard}
  let L2 := fun rs => {Rs | Rs ∈ Round2 I ∧ ∃ o, I.numParties ^ (t1 + t2) < (Wins I pk r (d rs) rs Rs o).ncard}
  have k1 : L1.ncard ≤ few1 I (t1 + 1) := C65_soundness I hI pk hpk r h1 h2 h3 hk t1 t2
  have fL1 : L1.Finite := hf1.subset fun _ h => h.1
  have fL2 : ∀ rs, (L2 rs).Finite := fun rs => hf2.subset fun _ h => h.1
  have hall := count_pairs hf2 (fun _ => Round3 I) (b := (Round3 I).ncard) fun _ _ => ⟨hf3, le_rfl⟩
  have s1 := count_pairs fL1 (fun _ => {x : (Fin I.numRounds → W64) × (Fin I.numRounds → Nat) | x.1 ∈ Round2 I ∧ x.2 ∈ Round3 I}) fun _ _ => hall
  have s2 := count_pairs (hf1.subset (Set.diff_subset (t := L1))) (fun rs => {x : (Fin I.numRounds → W64) × (Fin I.numRounds → Nat) | x.1 ∈ L2 rs ∧ x.2 ∈ Round3 I}) (b := few2 I (t2 + 1) * (Round3 I).ncard) fun rs hrs => by
    obtain ⟨g1, g2⟩ := count_pairs (fL2 rs) (fun _ => Round3 I) (b := (Round3 I).ncard) fun _ _ => ⟨hf3, le_rfl⟩
    refine ⟨g1, le_trans g2 (Nat.mul_le_mul_right _ ?_)⟩
    by_contra hlt
    exact hrs.2 ⟨hrs.1, d rs, hd rs, not_le.1 hlt⟩
  have s3 := count_pairs hf1 (fun rs => {x : (Fin I.numRounds → W64) × (Fin I.numRounds → Nat) | x.1 ∈ Round2 I \ L2 rs ∧ x.2 ∈ Wins I pk r (d rs) rs x.1 (o rs x.1)}) (b := (Round2 I).ncard * I.numParties ^ (t1 + t2)) fun rs hrs => by
    obtain ⟨g1, g2⟩ := count_pairs (hf2.subset (Set.diff_subset (t := L2 rs))) (fun Rs => Wins I pk r (d rs) rs Rs (o rs Rs)) (b := I.numParties ^ (t1 + t2)) fun Rs hRs => by
      refine ⟨hf3.subset fun _ h => h.1, ?_⟩
      by_contra hlt
      exact hRs.2 ⟨hRs.1, o rs Rs, not_le.1 hlt⟩
    exact ⟨g1, le_trans g2 (Nat.mul_le_mul_right _ (Set.ncard_le_ncard Set.diff_subset hf2))⟩
  refine le_trans (Set.ncard_le_ncard ?_ ((s1.1.union s2.1).union s3.1)) (le_trans (Set.ncard_union_le _ _) (Nat.add_le_add (le_trans (Set.ncard_union_le _ _) (Nat.add_le_add ?_ ?_)) s3.2))
  · rintro ⟨rs, Rs, ms⟩ ⟨g1, g2, g3⟩
    by_cases b1 : rs ∈ L1
    · exact Or.inl (Or.inl ⟨b1, g2, g3.1⟩)
    · by_cases b2 : Rs ∈ L2 rs
      · exact Or.inl (Or.inr ⟨⟨g1, b1⟩, b2, g3.1⟩)
      · exact Or.inr ⟨g1, ⟨g2, b2⟩, g3⟩
  · exact le_trans s1.2 (Nat.mul_le_mul_right _ k1)
  · exact le_trans s2.2 (Nat.mul_le_mul_right _ (Set.ncard_le_ncard Set.diff_subset hf1))

/-- With one repetition (and `t1 = t2 = 0`): except for `2^288` of the `2^320` challenges `r`, except for 40 challenges `R` the prover with the zero key is accepted for at most one of the two hidden parties. -/
example : {rs | rs ∈ Round1 smallInstance ∧ ∃ d, (∀ e, Elements 4 21 (d e)) ∧
      40 < {Rs | Rs ∈ Round2 smallInstance ∧ ∃ o, 1 < (Wins smallInstance katPk (fun _ => zeroRep) d rs Rs o).ncard}.ncard}.ncard ≤ 2 ^ 288 :=
  C65_soundness smallInstance small_consistent katPk rfl (fun _ => zeroRep) (fun _ => List.length_replicate) (fun _ => List.length_replicate) (fun _ _ => List.length_replicate) (fun _ => zero_not_key) 0 0

/-- C66: for every supplied parameter set and every way to split the repetitions, the work of the known attack is at least `2^k`, where `k` is the key length of AES: a prover without key repeats the first round until
`t1` repetitions are lucky, then the second round until `t2` repetitions are lucky, then the third until the hidden parties of the other repetitions are guessed. -/
theorem C66_level (p : Int) (I : Instance) (hI : instanceGet p = .ok I) (t1 t2 : Nat) (ht : t1 + t2 ≤ I.numRounds) :
    (2 ^ (8 * I.aes.keySize) : ℚ) ≤ ((Round1 I).ncard : ℚ) / (few1 I t1 : Nat) + ((Round2 I).ncard : ℚ) / (few2 I t2 : Nat) + (I.numParties : ℚ) ^ (I.numRounds - t1 - t2) := by
  by_cases hp : p < 1 ∨ 23 < p
  · rw [C36_invalid p hp] at hI
    cases hI
  · obtain ⟨J, hJ, hc⟩ := C36_consistent p (by omega) (by omega)
    obtain rfl : J = I := by rw [hJ] at hI; exact Except.ok.inj hI
    obtain ⟨e1, e2, _⟩ := C65_rounds J hc
    rw [e1, e2]
    refine level_all J ?_ ht
    obtain ⟨n, rfl⟩ : ∃ n : Nat, p = n := ⟨p.toNat, by omega⟩
    rw [instanceGet, if_neg (by omega)] at hI
    simp only [Int.toNat_natCast] at hI
    split at hI
    · rename_i K hK
      obtain rfl := Except.ok.inj hI
      obtain ⟨k, rfl⟩ : ∃ k, n = 1 + k := ⟨n - 1, by omega⟩
      exact List.mem_of_getElem? (i := k) (by rw [List.getElem?_drop]; exact hK)
    · cases hI

/-- For `Banquet_L1_Param5` and four and five lucky repetitions only `16^32 = 2^128` is left for the third term. -/
example : (2 ^ 128 : ℚ) ≤ ((Round1 ⟨aes128Params, 32, 16, 41, 16, 10, 20, 4, 5⟩).ncard : ℚ) / (few1 ⟨aes128Params, 32, 16, 41, 16, 10, 20, 4, 5⟩ 4 : Nat) +
    ((Round2 ⟨aes128Params, 32, 16, 41, 16, 10, 20, 4, 5⟩).ncard : ℚ) / (few2 ⟨aes128Params, 32, 16, 41, 16, 10, 20, 4, 5⟩ 5 : Nat) + (16 : ℚ) ^ 32 :=
  C66_level 5 ⟨aes128Params, 32, 16, 41, 16, 10, 20, 4, 5⟩ rfl 4 5 (by decide)

end Banquet.Props
