import Verif.Proofs.Oracle
import Verif.Props.Grind

/-! What can go wrong at each input that a forger asks for. -/

namespace Banquet

open Spec FieldOk Props

section
variable {K : ShakeKind} {X0 : Xof} {D : Finset Bytes} {L : Nat} {ask : Xof → Nat → Bytes}

theorem withTable_self (f : D → Fin L → Byte) {s : Bytes} (hs : s ∈ D) : withTable K X0 f K s = answer (X0 K s) (f ⟨s, hs⟩) := by
  unfold withTable
  rw [dif_pos ⟨rfl, hs⟩]

theorem withTable_update [DecidableEq D] (f : D → Fin L → Byte) (x : D) (a : Fin L → Byte) (k : ShakeKind) (s : Bytes) (h : ¬(k = K ∧ s = x.1)) :
    withTable K X0 (Function.update f x a) k s = withTable K X0 f k s := by
  unfold withTable
  by_cases hs : k = K ∧ s ∈ D
  · rw [dif_pos hs, dif_pos hs, Function.update_of_ne]
    exact fun e => h ⟨hs.1, congrArg Subtype.val e⟩
  · rw [dif_neg hs, dif_neg hs]

theorem mem_asks {X : Xof} {q : Nat} {y : Bytes} : y ∈ asks ask X q ↔ ∃ i < q, ask X i = y := by
  unfold asks
  simp

/-- Changing the answer to a new input changes none of the inputs up to this one. -/
theorem asks_update (hask : Adaptive K ask) {X X' : Xof} {i : Nat} (hn : ask X i ∉ asks ask X i) (h : ∀ k s, ¬(k = K ∧ s = ask X i) → X' k s = X k s) : ∀ j ≤ i, ask X' j = ask X j := by
  intro j hj
  refine hask X X' j fun l hl => h _ _ fun e => hn (mem_asks.2 ⟨l, by omega, e.2⟩)

theorem asks_congr {X X' : Xof} {i : Nat} (h : ∀ j < i, ask X' j = ask X j) : asks ask X' i = asks ask X i := List.map_congr_left fun j hj => h j (List.mem_range.1 hj)

/-- The probability that the answer to input number `i` is bad, if it is asked for the first time. What is bad may depend on everything but this answer. -/
theorem event (hask : Adaptive K ask) (hD : ∀ X i, ask X i ∈ D) (i : Nat) (bad : Xof → List Bytes → Bytes → Set (Fin L → Byte))
    (inv : ∀ X X' hist y, y ∉ hist → (∀ k s, ¬(k = K ∧ s = y) → X' k s = X k s) → bad X' hist y = bad X hist y) {ε : ℚ} (h0 : 0 ≤ ε)
    (hb : ∀ X, ((bad X (asks ask X i) (ask X i)).ncard : ℚ) ≤ ε * 256 ^ L) :
    ({f : D → Fin L → Byte | ask (withTable K X0 f) i ∉ asks ask (withTable K X0 f) i ∧
      f ⟨ask (withTable K X0 f) i, hD _ _⟩ ∈ bad (withTable K X0 f) (asks ask (withTable K X0 f) i) (ask (withTable K X0 f) i)}.ncard : ℚ) ≤ ε * Nat.card (D → Fin L → Byte) := by
  classical
  refine resample (fun f => ask (withTable K X0 f) i ∉ asks ask (withTable K X0 f) i) (fun f => ⟨ask (withTable K X0 f) i, hD _ _⟩)
    (fun f => bad (withTable K X0 f) (asks ask (withTable K X0 f) i) (ask (withTable K X0 f) i)) ?_ h0 ?_
  · intro f hf a
    have hu := withTable_update (K := K) (X0 := X0) f ⟨ask (withTable K X0 f) i, hD _ _⟩ a
    have hj := asks_update hask hf hu
    have h1 := asks_congr fun j hj' => hj j (Nat.le_of_lt hj')
    have h2 := hj i le_rfl
    refine ⟨?_, Subtype.ext h2, ?_⟩
    · rw [h1, h2]
      exact hf
    · rw [h1, h2]
      exact inv _ _ _ _ hf hu
  · intro f
    rw [card_answers]
    exact_mod_cast hb (withTable K X0 f)

/-- The first time an input is asked for. -/
theorem first_ask {X : Xof} {q : Nat} {y : Bytes} (h : y ∈ asks ask X q) : ∃ i < q, ask X i = y ∧ y ∉ asks ask X i ∧ before (asks ask X q) y = asks ask X i := by
  classical
  have hex := mem_asks.1 h
  obtain ⟨h1, h2⟩ := Nat.find_spec hex
  have hmin : ∀ j < Nat.find hex, ask X j ≠ y := fun j hj e => Nat.find_min hex hj ⟨by omega, e⟩
  have hn : y ∉ asks ask X (Nat.find hex) := fun hm => by
    obtain ⟨j, hj, e⟩ := mem_asks.1 hm
    exact hmin j hj e
  refine ⟨Nat.find hex, h1, h2, hn, ?_⟩
  generalize Nat.find hex = i at h1 h2 hmin hn
  obtain ⟨m, rfl⟩ : ∃ m, q = i + (1 + m) := ⟨q - i - 1, by omega⟩
  unfold before asks
  rw [List.range_add, List.map_append, List.range_add, List.map_append, List.map_append, List.takeWhile_append_of_pos]
  · simp [h2]
  · intro x hx
    simp only [bne_iff_ne, ne_eq]
    rintro rfl
    exact hn hx

theorem before_append {A B : List Bytes} {x : Bytes} (h : x ∈ A) : before (A ++ B) x = before A x := by
  induction A with
  | nil => cases h
  | cons a A ih =>
    unfold before at ih ⊢
    rw [List.cons_append]
    by_cases e : a = x
    · subst e
      simp
    · rw [List.takeWhile_cons_of_pos (by simpa using e), List.takeWhile_cons_of_pos (by simpa using e), ih ((List.mem_cons.1 h).resolve_left fun e' => e e'.symm)]

theorem before_asks {X : Xof} {i q : Nat} (hi : i ≤ q) {x : Bytes} (h : x ∈ asks ask X i) : before (asks ask X q) x = before (asks ask X i) x := by
  obtain ⟨m, rfl⟩ : ∃ m, q = i + m := ⟨q - i, by omega⟩
  have : asks ask X (i + m) = asks ask X i ++ ((List.range m).map (i + ·)).map (ask X) := by
    unfold asks
    rw [List.range_add, List.map_append]
  rw [this, before_append h]

theorem before_trans {Q : List Bytes} {x y z : Bytes} (h1 : x ∈ before Q y) (h2 : y ∈ before Q z) : x ∈ before Q z := by
  induction Q with
  | nil => cases h1
  | cons a Q ih =>
    unfold before at ih h1 h2 ⊢
    by_cases ez : a = z
    · subst ez
      simp at h2
    · rw [List.takeWhile_cons_of_pos (by simpa using ez)] at h2 ⊢
      by_cases ey : a = y
      · subst ey
        simp at h1
      · rw [List.takeWhile_cons_of_pos (by simpa using ey)] at h1
        rcases List.mem_cons.1 h1 with rfl | h1
        · exact List.mem_cons_self ..
        · exact List.mem_cons_of_mem _ (ih h1 ((List.mem_cons.1 h2).resolve_left fun e => ey e.symm))

end

/-- Union bound. -/
theorem union_bound {α : Type} [Finite α] (q : Nat) (E : Nat → Set α) (c : Nat → ℚ) (h : ∀ i < q, ((E i).ncard : ℚ) ≤ c i) : ({f | ∃ i < q, f ∈ E i}.ncard : ℚ) ≤ ∑ i ∈ Finset.range q, c i := by
  induction q with
  | zero => simp
  | succ q ih =>
    have e : {f | ∃ i < q + 1, f ∈ E i} ⊆ {f | ∃ i < q, f ∈ E i} ∪ E q := by
      rintro f ⟨i, hi, hf⟩
      rcases Nat.lt_succ_iff_lt_or_eq.1 hi with hi | rfl
      · exact Or.inl ⟨i, hi, hf⟩
      · exact Or.inr hf
    rw [Finset.sum_range_succ]
    calc (({f | ∃ i < q + 1, f ∈ E i}.ncard : Nat) : ℚ) ≤ (({f | ∃ i < q, f ∈ E i}.ncard + (E q).ncard : Nat) : ℚ) :=
          Nat.cast_le.2 (le_trans (Set.ncard_le_ncard e (Set.toFinite _)) (Set.ncard_union_le _ _))
      _ ≤ _ := by
        rw [Nat.cast_add]
        exact add_le_add (ih fun i hi => h i (by omega)) (h q (by omega))

/-! The bad answers. -/

section
variable (I : Instance) (pk : Bytes) (X0 : Xof) (L len t1 t2 : Nat)

/-- The input with a given hash among those asked for before. -/
def findIn (X : Xof) (hist : List Bytes) (h : Bytes) : Option Bytes := hist.find? fun s => decide (digest X I s = h)

/-- The hash is that of another input, or occurs in an input asked for up to now. -/
def badHash (X : Xof) (hist : List Bytes) (y : Bytes) : Set (Fin L → Byte) :=
  {a | (answer (X0 (kindOf I.digestSize) y) a).squeeze 0 I.digestSize ∈ hist.map (digest X I) ++ (y :: hist).flatMap fun z => (List.range len).map fun o => slice z o I.digestSize}

/-- The answer is used for the first challenges, which are lucky too often. -/
def bad1 (X : Xof) (hist : List Bytes) (y : Bytes) : Set (Fin L → Byte) :=
  {a | y.length = I.digestSize ∧ ∃ s1, findIn I X hist y = some s1 ∧ 33 ≤ s1.length ∧ (Bad1 I pk (fun e => extract I X hist s1 e) t1).ncard ≤ few1 I (t1 + 1) ∧
    tableOf I (answer (X0 (kindOf I.digestSize) y) a) ∈ Bad1 I pk (fun e => extract I X hist s1 e) t1}

/-- The second challenges in a stream. -/
noncomputable def drawn2 (s : Stream) : List W64 := firstOk blockElem (Fresh I.lambda I.m2) I.numRounds (streamBlocks s I.lambda (L / I.lambda))

/-- The third challenges in a stream. -/
noncomputable def drawn3 (s : Stream) : List Nat := firstOk (blockParty I.numParties) (· < I.numParties) I.numRounds (streamBlocks s (partyBytes I.numParties) (L / partyBytes I.numParties))

/-- The second challenges that help, given the inputs of the first two hashes. -/
def set2 (X : Xof) (hist : List Bytes) (s1 s2 : Bytes) : Set (Fin I.numRounds → W64) :=
  Bad2 I pk (fun e => extract I X hist s1 e) (fun e => pDeltaAt I s2 e) (fun e => challenge1 X I (slice s2 33 I.digestSize) e) t2

/-- The third challenges that help, given the inputs of the three hashes. -/
def set3 (X : Xof) (hist : List Bytes) (s1 s2 s3 : Bytes) : Set (Fin I.numRounds → Nat) :=
  Bad3 I pk (fun e => extract I X hist s1 e) (fun e p => foundSeed I X hist s1 e p ≠ none) (fun e => pDeltaAt I s2 e) (fun e => challenge1 X I (slice s2 33 I.digestSize) e)
    (fun e => (drawn2 I L (X (kindOf I.digestSize) (slice s3 33 I.digestSize))).getD e 0) (fun e => openingAt I s1 s3 e)

/-- The answer is used for the second challenges, which are lucky too often. -/
def bad2 (X : Xof) (hist : List Bytes) (y : Bytes) : Set (Fin L → Byte) :=
  {a | y.length = I.digestSize ∧ ∃ s2, findIn I X hist y = some s2 ∧ slice s2 33 I.digestSize ≠ y ∧ ∃ s1, findIn I X hist (slice s2 33 I.digestSize) = some s1 ∧ 33 ≤ s1.length ∧
    (set2 I pk t2 X hist s1 s2).ncard ≤ few2 I (t2 + 1) ∧ (drawn2 I L (answer (X0 (kindOf I.digestSize) y) a)).length = I.numRounds ∧
    (fun e : Fin I.numRounds => (drawn2 I L (answer (X0 (kindOf I.digestSize) y) a)).getD e 0) ∈ set2 I pk t2 X hist s1 s2}

/-- The answer is used for the third challenges, which are guessed. -/
def bad3 (X : Xof) (hist : List Bytes) (y : Bytes) : Set (Fin L → Byte) :=
  {a | y.length = I.digestSize ∧ ∃ s3, findIn I X hist y = some s3 ∧ slice s3 33 I.digestSize ≠ y ∧ ∃ s2, findIn I X hist (slice s3 33 I.digestSize) = some s2 ∧ slice s2 33 I.digestSize ≠ y ∧
    ∃ s1, findIn I X hist (slice s2 33 I.digestSize) = some s1 ∧ 33 ≤ s1.length ∧
    (set3 I pk L X hist s1 s2 s3).ncard ≤ I.numParties ^ (t1 + t2) ∧ (drawn3 I L (answer (X0 (kindOf I.digestSize) y) a)).length = I.numRounds ∧
    (fun e : Fin I.numRounds => (drawn3 I L (answer (X0 (kindOf I.digestSize) y) a)).getD e 0) ∈ set3 I pk L X hist s1 s2 s3}

end

section
variable {I : Instance} {pk : Bytes} {X0 : Xof} {L len t1 t2 : Nat}

theorem findIn_congr {X X' : Xof} {hist : List Bytes} {y : Bytes} (hy : y ∉ hist) (hX : ∀ k s, ¬(k = kindOf I.digestSize ∧ s = y) → X' k s = X k s) (h : Bytes) : findIn I X' hist h = findIn I X hist h := by
  unfold findIn
  have : ∀ s ∈ hist, digest X' I s = digest X I s := fun s hs => by
    unfold digest
    rw [hX _ _ fun e => hy (e.2 ▸ hs)]
  clear hy
  induction hist with
  | nil => rfl
  | cons a hist ih =>
    rw [List.find?_cons, List.find?_cons, this a (List.mem_cons_self ..), ih fun s hs => this s (List.mem_cons_of_mem _ hs)]

theorem badHash_inv (X X' : Xof) (hist : List Bytes) (y : Bytes) (hy : y ∉ hist) (hX : ∀ k s, ¬(k = kindOf I.digestSize ∧ s = y) → X' k s = X k s) : badHash I X0 L len X' hist y = badHash I X0 L len X hist y := by
  unfold badHash
  rw [List.map_congr_left (f := digest X' I) (g := digest X I) fun s hs => ?_]
  unfold digest
  rw [hX _ _ fun e => hy (e.2 ▸ hs)]

theorem extract_inv (hI : Consistent I) {X X' : Xof} {hist : List Bytes} {y : Bytes} (hX : ∀ k s, ¬(k = kindOf I.digestSize ∧ s = y) → X' k s = X k s) (hl : y.length = I.digestSize) {s : Bytes} (hs : 33 ≤ s.length) :
    (fun e : Fin I.numRounds => extract I X' hist s e) = (fun e : Fin I.numRounds => extract I X hist s e) ∧
    (fun (e : Fin I.numRounds) p => foundSeed I X' hist s e p ≠ none) = (fun (e : Fin I.numRounds) p => foundSeed I X hist s e p ≠ none) := by
  have := fun e => C71_fixed I hI X X' (fun k u hu => hX k u fun e => hu (e.2 ▸ hl)) hist s hs e
  refine ⟨funext fun e => (this e).1, funext fun e => funext fun p => ?_⟩
  rw [(this e).2]

theorem bad1_inv (hI : Consistent I) (X X' : Xof) (hist : List Bytes) (y : Bytes) (hy : y ∉ hist) (hX : ∀ k s, ¬(k = kindOf I.digestSize ∧ s = y) → X' k s = X k s) : bad1 I pk X0 L t1 X' hist y = bad1 I pk X0 L t1 X hist y := by
  unfold bad1
  ext a
  refine and_congr_right fun hl => exists_congr fun s1 => ?_
  rw [findIn_congr hy hX]
  refine and_congr_right fun _ => and_congr_right fun hs => ?_
  rw [(extract_inv hI hX hl hs).1]

theorem set2_inv (hI : Consistent I) {X X' : Xof} {hist : List Bytes} {y : Bytes} (hX : ∀ k s, ¬(k = kindOf I.digestSize ∧ s = y) → X' k s = X k s) (hl : y.length = I.digestSize) {s1 s2 : Bytes} (hs : 33 ≤ s1.length)
    (hne : slice s2 33 I.digestSize ≠ y) : set2 I pk t2 X' hist s1 s2 = set2 I pk t2 X hist s1 s2 := by
  unfold set2
  rw [(extract_inv hI hX hl hs).1]
  unfold challenge1
  rw [hX _ _ fun e => hne e.2]

theorem set3_inv (hI : Consistent I) {X X' : Xof} {hist : List Bytes} {y : Bytes} (hX : ∀ k s, ¬(k = kindOf I.digestSize ∧ s = y) → X' k s = X k s) (hl : y.length = I.digestSize) {s1 s2 s3 : Bytes} (hs : 33 ≤ s1.length)
    (hne : slice s2 33 I.digestSize ≠ y) (hne' : slice s3 33 I.digestSize ≠ y) : set3 I pk L X' hist s1 s2 s3 = set3 I pk L X hist s1 s2 s3 := by
  unfold set3
  rw [(extract_inv hI hX hl hs).1, (extract_inv hI hX hl hs).2]
  unfold challenge1
  rw [hX _ _ fun e => hne e.2, hX _ _ fun e => hne' e.2]

theorem bad2_inv (hI : Consistent I) (X X' : Xof) (hist : List Bytes) (y : Bytes) (hy : y ∉ hist) (hX : ∀ k s, ¬(k = kindOf I.digestSize ∧ s = y) → X' k s = X k s) : bad2 I pk X0 L t2 X' hist y = bad2 I pk X0 L t2 X hist y := by
  unfold bad2
  ext a
  refine and_congr_right fun hl => exists_congr fun s2 => ?_
  rw [findIn_congr hy hX]
  refine and_congr_right fun _ => and_congr_right fun hne => exists_congr fun s1 => ?_
  rw [findIn_congr hy hX]
  refine and_congr_right fun _ => and_congr_right fun hs => ?_
  rw [set2_inv hI hX hl hs hne]

theorem bad3_inv (hI : Consistent I) (X X' : Xof) (hist : List Bytes) (y : Bytes) (hy : y ∉ hist) (hX : ∀ k s, ¬(k = kindOf I.digestSize ∧ s = y) → X' k s = X k s) : bad3 I pk X0 L t1 t2 X' hist y = bad3 I pk X0 L t1 t2 X hist y := by
  unfold bad3
  ext a
  refine and_congr_right fun hl => exists_congr fun s3 => ?_
  rw [findIn_congr hy hX]
  refine and_congr_right fun _ => and_congr_right fun hne' => exists_congr fun s2 => ?_
  rw [findIn_congr hy hX]
  refine and_congr_right fun _ => and_congr_right fun hne => exists_congr fun s1 => ?_
  rw [findIn_congr hy hX]
  refine and_congr_right fun _ => and_congr_right fun hs => ?_
  rw [set3_inv hI hX hl hs hne hne']

theorem badHash_count (hL : I.digestSize ≤ L) (X : Xof) (hist : List Bytes) (y : Bytes) :
    ((badHash I X0 L len X hist y).ncard : ℚ) ≤ (hist.length + (hist.length + 1) * len) / 256 ^ I.digestSize * 256 ^ L := by
  refine le_trans (count_digest hL _ _) (le_of_eq ?_)
  have : (hist.map (digest X I) ++ (y :: hist).flatMap fun z => (List.range len).map fun o => slice z o I.digestSize).length = hist.length + (hist.length + 1) * len := by
    simp [List.length_flatMap]
    ring
  rw [this]
  push_cast
  rfl

theorem bad1_count (hI : Consistent I) (hL : I.numRounds * I.m1 * I.lambda ≤ L) (X : Xof) (hist : List Bytes) (y : Bytes) :
    ((bad1 I pk X0 L t1 X hist y).ncard : ℚ) ≤ (few1 I (t1 + 1) : Nat) / (Round1 I).ncard * 256 ^ L := by
  rcases (bad1 I pk X0 L t1 X hist y).eq_empty_or_nonempty with e | ⟨a, _, s1, h1, _, h3, _⟩
  · rw [e, Set.ncard_empty, Nat.cast_zero]
    positivity
  have hs : bad1 I pk X0 L t1 X hist y ⊆ {a : Fin L → Byte | tableOf I (answer (X0 (kindOf I.digestSize) y) a) ∈ Bad1 I pk (fun e => extract I X hist s1 e) t1} := by
    rintro a ⟨_, s1', h1', _, _, h⟩
    obtain rfl : s1' = s1 := Option.some.inj (h1'.symm.trans h1)
    exact h
  refine le_trans (Nat.cast_le.2 (Set.ncard_le_ncard hs (Set.toFinite _))) (le_trans (count_round1 hI hL _ _ fun _ h => h.1) ?_)
  gcongr

theorem bad2_count (hI : Consistent I) (X : Xof) (hist : List Bytes) (y : Bytes) :
    ((bad2 I pk X0 L t2 X hist y).ncard : ℚ) ≤ (few2 I (t2 + 1) : Nat) / (Round2 I).ncard * 256 ^ L := by
  rcases (bad2 I pk X0 L t2 X hist y).eq_empty_or_nonempty with e | ⟨a, _, s2, g1, _, s1, h1, _, h3, _⟩
  · rw [e, Set.ncard_empty, Nat.cast_zero]
    positivity
  have hs : bad2 I pk X0 L t2 X hist y ⊆ {a : Fin L → Byte | (drawn2 I L (answer (X0 (kindOf I.digestSize) y) a)).length = I.numRounds ∧
      (fun e : Fin I.numRounds => (drawn2 I L (answer (X0 (kindOf I.digestSize) y) a)).getD e 0) ∈ set2 I pk t2 X hist s1 s2} := by
    rintro a ⟨_, s2', g1', _, s1', h1', _, _, h⟩
    obtain rfl : s2' = s2 := Option.some.inj (g1'.symm.trans g1)
    obtain rfl : s1' = s1 := Option.some.inj (h1'.symm.trans h1)
    exact h
  have hl : I.lambda ≤ 8 := by rcases hI.lambda with h | h | h | h <;> omega
  refine le_trans (Nat.cast_le.2 (Set.ncard_le_ncard hs (Set.toFinite _))) (le_trans (count_drawn _ _ _ _ _ L 0 (Nat.div_mul_le_self _ _) (Round2 I) _ (fun _ h => h.1) ?_ ?_ _) ?_)
  · exact Set.Finite.pi' fun e => Set.toFinite {R : W64 | Reduced I.lambda R ∧ Fresh I.lambda I.m2 R}
  · intro b hb b' hb'
    have := C53_R_uniform I.lambda I.m2 hl (List.ofFn b) (List.ofFn b') (fun R hR => by obtain ⟨e, rfl⟩ := List.mem_ofFn.1 hR; exact hb e) (fun R hR => by obtain ⟨e, rfl⟩ := List.mem_ofFn.1 hR; exact hb' e)
      (by rw [List.length_ofFn, List.length_ofFn]) (L / I.lambda)
    rwa [List.length_ofFn, List.length_ofFn] at this
  · gcongr

theorem bad3_count (hI : Consistent I) (X : Xof) (hist : List Bytes) (y : Bytes) :
    ((bad3 I pk X0 L t1 t2 X hist y).ncard : ℚ) ≤ (I.numParties : ℚ) ^ (t1 + t2) / (Round3 I).ncard * 256 ^ L := by
  rcases (bad3 I pk X0 L t1 t2 X hist y).eq_empty_or_nonempty with e | ⟨a, _, s3, f1, _, s2, g1, _, s1, h1, _, h3, _⟩
  · rw [e, Set.ncard_empty, Nat.cast_zero]
    positivity
  have hs : bad3 I pk X0 L t1 t2 X hist y ⊆ {a : Fin L → Byte | (drawn3 I L (answer (X0 (kindOf I.digestSize) y) a)).length = I.numRounds ∧
      (fun e : Fin I.numRounds => (drawn3 I L (answer (X0 (kindOf I.digestSize) y) a)).getD e 0) ∈ set3 I pk L X hist s1 s2 s3} := by
    rintro a ⟨_, s3', f1', _, s2', g1', _, s1', h1', _, _, h⟩
    obtain rfl : s3' = s3 := Option.some.inj (f1'.symm.trans f1)
    obtain rfl : s2' = s2 := Option.some.inj (g1'.symm.trans g1)
    obtain rfl : s1' = s1 := Option.some.inj (h1'.symm.trans h1)
    exact h
  refine le_trans (Nat.cast_le.2 (Set.ncard_le_ncard hs (Set.toFinite _))) (le_trans (count_drawn _ _ _ _ _ L 0 (Nat.div_mul_le_self _ _) (Round3 I) _ (fun _ h => h.1) ?_ ?_ _) ?_)
  · exact Set.Finite.pi' fun e => Set.finite_lt_nat _
  · intro b hb b' hb'
    have hN := (parties_bounds hI)
    have := C53_hidden_uniform I.numParties (by omega) (List.ofFn b) (List.ofFn b') (fun R hR => by obtain ⟨e, rfl⟩ := List.mem_ofFn.1 hR; exact hb e) (fun R hR => by obtain ⟨e, rfl⟩ := List.mem_ofFn.1 hR; exact hb' e)
      (by rw [List.length_ofFn, List.length_ofFn]) (L / partyBytes I.numParties)
    rwa [List.length_ofFn, List.length_ofFn] at this
  · gcongr
    exact_mod_cast h3

/-- A stream that finds its challenges early. -/
theorem drawn_unique {α : Type} {f : Bytes → α} {ok : α → Prop} {N n len : Nat} {s : Stream} {l : List α} (hl : l.length = N) (h : ∃ m, firstOk f ok N (streamBlocks s len m) = l)
    (hn : (firstOk f ok N (streamBlocks s len n)).length = N) : firstOk f ok N (streamBlocks s len n) = l := by
  classical
  obtain ⟨m, rfl⟩ := h
  have key : ∀ a b, a ≤ b → firstOk f ok N (streamBlocks s len a) <+: firstOk f ok N (streamBlocks s len b) := fun a b hab => by
    obtain ⟨c, rfl⟩ : ∃ c, b = a + c := ⟨b - a, by omega⟩
    unfold firstOk streamBlocks
    rw [List.range_add, List.map_append, List.map_append, List.filter_append, List.take_append]
    exact List.prefix_append _ _
  rcases Nat.le_total n m with h | h
  · exact (key n m h).eq_of_length (hn.trans hl.symm)
  · exact ((key m n h).eq_of_length (hl.trans hn.symm)).symm

theorem findIn_eq {X : Xof} {hist Q : List Bytes} (hc : ¬CollisionIn X I Q) (hsub : ∀ s ∈ hist, s ∈ Q) {s h : Bytes} (hs : s ∈ hist) (hd : digest X I s = h) : findIn I X hist h = some s := by
  unfold findIn
  cases hf : hist.find? fun s => decide (digest X I s = h) with
  | none =>
    rw [List.find?_eq_none] at hf
    exact absurd (decide_eq_true hd) (hf s hs)
  | some s' =>
    have h1 : digest X I s' = h := of_decide_eq_true (List.find?_some (p := fun s => decide (digest X I s = h)) hf)
    have h2 := List.mem_of_find?_eq_some hf
    by_cases e : s' = s
    · rw [e]
    · exact absurd ⟨s', hsub _ h2, s, hsub _ hs, e, h1.trans hd.symm⟩ hc

/-- An infix is a slice. -/
theorem slice_of_infix {v z : Bytes} {d : Nat} (hd : v.length = d) (h0 : 0 < d) (h : v <:+: z) : ∃ o < z.length, v = slice z o d := by
  obtain ⟨A, B, rfl⟩ := h
  refine ⟨A.length, ?_, (slice_at rfl hd).symm⟩
  simp only [List.length_append]
  omega

/-- A forgery without key makes one of the answers bad. -/
theorem forged_event (hI : Consistent I) (hpk : pk.length = 2 * I.ctSize) {ask : Xof → Nat → Bytes} {q : Nat} {X : Xof} (hlen : ∀ i, (ask X i).length ≤ len) (a : Nat → Fin L → Byte)
    (ha : ∀ i, X (kindOf I.digestSize) (ask X i) = answer (X0 (kindOf I.digestSize) (ask X i)) (a i)) (hF : Forgeable X I pk (asks ask X q) L) (hk : Keyless X I pk (asks ask X q)) :
    ∃ i < q, ask X i ∉ asks ask X i ∧ (a i ∈ badHash I X0 L len X (asks ask X i) (ask X i) ∨ a i ∈ bad1 I pk X0 L t1 X (asks ask X i) (ask X i) ∨ a i ∈ bad2 I pk X0 L t2 X (asks ask X i) (ask X i) ∨
      a i ∈ bad3 I pk X0 L t1 t2 X (asks ask X i) (ask X i)) := by
  have hd0 : 0 < I.digestSize := by
    rw [hI.digest, hI.seed]
    rcases hI.aes with g | g | g <;> simp only [Prod.mk.injEq] at g <;> omega
  have hdl : ∀ s, (digest X I s).length = I.digestSize := fun s => by simp [digest, Stream.squeeze]
  have hsq : ∀ i, (answer (X0 (kindOf I.digestSize) (ask X i)) (a i)).squeeze 0 I.digestSize = digest X I (ask X i) := fun i => by
    unfold digest
    rw [ha]
  by_cases hc : CollisionIn X I (asks ask X q)
  · obtain ⟨x, hx, y, hy, hne, he⟩ := hc
    obtain ⟨i, hi, ei, ni, _⟩ := first_ask hx
    obtain ⟨j, hj, ej, nj, _⟩ := first_ask hy
    have he : digest X I x = digest X I y := he
    have hij : i ≠ j := fun e => hne (by rw [← ei, ← ej, e])
    rcases Nat.lt_or_gt_of_ne hij with hlt | hlt
    · refine ⟨j, hj, by rwa [ej], Or.inl ?_⟩
      rw [badHash, Set.mem_ofPred_eq, hsq, ej, ← he]
      exact List.mem_append_left _ (List.mem_map_of_mem (mem_asks.2 ⟨i, hlt, ei⟩))
    · refine ⟨i, hi, by rwa [ei], Or.inl ?_⟩
      rw [badHash, Set.mem_ofPred_eq, hsq, ei, he]
      exact List.mem_append_left _ (List.mem_map_of_mem (mem_asks.2 ⟨j, hlt, ej⟩))
  by_cases hg : GuessIn X I (asks ask X q)
  · obtain ⟨x, hx, y, hy, hin, hnb⟩ := hg
    obtain ⟨i, hi, ei, ni, _⟩ := first_ask hx
    obtain ⟨j, hj, ej, nj, bj⟩ := first_ask hy
    refine ⟨i, hi, by rwa [ei], Or.inl ?_⟩
    rw [bj] at hnb
    have hle : j ≤ i := by
      by_contra hlt
      exact hnb (mem_asks.2 ⟨i, by omega, ei⟩)
    obtain ⟨o, ho, e⟩ := slice_of_infix (hdl x) hd0 hin
    rw [badHash, Set.mem_ofPred_eq, hsq, ei, e]
    refine List.mem_append_right _ (List.mem_flatMap.2 ⟨y, ?_, List.mem_map.2 ⟨o, List.mem_range.2 (lt_of_lt_of_le ho (by rw [← ej]; exact hlen j)), rfl⟩⟩)
    rcases Nat.lt_or_eq_of_le hle with hlt | rfl
    · exact List.mem_cons_of_mem _ (mem_asks.2 ⟨j, hlt, ej⟩)
    · rw [← ei, ej]
      exact List.mem_cons_self ..
  obtain ⟨msg, sig, ms, v, wf, h, hQ, hq2, hq3⟩ := hF
  have hi2 : input2n (I.m2 + 1) I sig = 2 :: (sig.salt ++ sig.h1 ++ sig.proofs.flatMap fun pr => (pr.pDelta.take (I.m2 + 1)).flatMap (leDigits I.lambda)) := rfl
  have hi : sig.h1 <:+: input2n (I.m2 + 1) I sig := by
    rw [hi2]
    exact ((List.suffix_append _ _).isInfix.trans (List.prefix_append _ _).isInfix).trans (List.suffix_cons _ _).isInfix
  have sl2 : slice (input2n (I.m2 + 1) I sig) 33 I.digestSize = sig.h1 := by
    rw [hi2, ← List.cons_append, ← List.cons_append]
    exact slice_at (by rw [List.length_cons, wf.salt]) wf.h1
  rcases C71_any X I hI pk hpk msg sig ms wf v _ h hi (asks ask X q) hQ t1 t2 with k | k | ⟨⟨o1, o2, o3, o4, o5⟩, k⟩
  · exact absurd k hc
  · exact absurd k hg
  have k := k.resolve_left fun ⟨e, he, hke⟩ => hk _ hQ.first e he hke
  have hs1 : 33 ≤ (input1 X I pk msg sig v.bc).length := by
    rw [h.input1_eq]
    simp only [List.length_cons, List.length_append, wf.salt]
    omega
  have sl3 : slice (hashed3By (input2n (I.m2 + 1) I sig) X I sig v) 33 I.digestSize = digest X I (input2n (I.m2 + 1) I sig) := by
    rw [h.hashed3_eq, ← List.cons_append, ← List.cons_append]
    exact slice_at (by rw [List.length_cons, wf.salt]) (hdl _)
  have c1 : ∃ z, input1 X I pk msg sig v.bc = 1 :: z := ⟨_, rfl⟩
  have c2 : ∃ z, input2n (I.m2 + 1) I sig = 2 :: z := ⟨_, rfl⟩
  have c3 : ∃ z, hashed3By (input2n (I.m2 + 1) I sig) X I sig v = 3 :: z := ⟨_, rfl⟩
  have e1 := h.hash1
  have e3 := h.hash3
  have hpd : (fun e : Fin I.numRounds => (sig.proofs.map (·.pDelta)).getD e []) = fun e : Fin I.numRounds => pDeltaAt I (input2n (I.m2 + 1) I sig) e := by
    funext e
    rw [pDeltaAt_eq h wf e.2, getD_of_lt (l := sig.proofs) (by rw [h.length]; exact e.2), getD_of_lt (by rw [List.length_map, h.length]; exact e.2), List.getElem_map]
  rw [hpd] at k
  have hRs : drawn2 I L (X (kindOf I.digestSize) (digest X I (input2n (I.m2 + 1) I sig))) = v.Rs := drawn_unique h.challenges.1 h.challenges.2 hq2
  have hms : drawn3 I L (X (kindOf I.digestSize) sig.h3) = sig.proofs.map (·.reveal.missing) := drawn_unique h.hidden.1 h.hidden.2 hq3
  have r1 := hQ.round1
  have r2 := hQ.round2
  have r3 := hQ.round3
  have m1 := hQ.first
  have m2 := hQ.second
  have m3 := hQ.third
  have hl1 := h.challenges.1
  have hl3 := h.hidden.1
  clear hi2 hpd hk wf hi hq2 hq3 hQ h
  generalize v.Rs = Rs at *
  generalize sig.proofs.map (·.reveal.missing) = hid at *
  generalize hashed3By (input2n (I.m2 + 1) I sig) X I sig v = s3 at *
  generalize input2n (I.m2 + 1) I sig = s2 at *
  generalize input1 X I pk msg sig v.bc = s1 at *
  generalize sig.h1 = h1 at *
  generalize sig.h3 = h3 at *
  obtain ⟨z1, rfl⟩ := c1
  obtain ⟨z2, rfl⟩ := c2
  obtain ⟨z3, rfl⟩ := c3
  have ne12 : h1 ≠ digest X I (2 :: z2) := fun e => hc ⟨_, m1, _, m2, by simp, e1.symm.trans e⟩
  have ne13 : h1 ≠ h3 := fun e => hc ⟨_, m1, _, m3, by simp, e1.symm.trans (e.trans e3)⟩
  have ne23 : digest X I (2 :: z2) ≠ h3 := fun e => hc ⟨_, m2, _, m3, by simp, e.trans e3⟩
  have hext : ∀ (i : Nat), i ≤ q → (1 :: z1) ∈ asks ask X i → (fun e : Fin I.numRounds => extract I X (asks ask X q) (1 :: z1) e) = (fun e : Fin I.numRounds => extract I X (asks ask X i) (1 :: z1) e) ∧
      (fun (e : Fin I.numRounds) p => foundSeed I X (asks ask X q) (1 :: z1) e p ≠ none) = (fun (e : Fin I.numRounds) p => foundSeed I X (asks ask X i) (1 :: z1) e p ≠ none) := fun i hi hm => by
    unfold extract foundSeed
    rw [before_asks hi hm]
    exact ⟨rfl, rfl⟩
  have hsubs : ∀ i, i ≤ q → ∀ s ∈ asks ask X i, s ∈ asks ask X q := fun i hi s hs => by
    obtain ⟨j, hj, e⟩ := mem_asks.1 hs
    exact mem_asks.2 ⟨j, by omega, e⟩
  rcases k with ⟨b1, b2⟩ | ⟨b1, b2⟩ | ⟨b1, b2⟩
  · obtain ⟨i, hi, ei, ni, bi⟩ := first_ask r1
    rw [bi] at o1
    refine ⟨i, hi, by rwa [ei], Or.inr (Or.inl ?_)⟩
    rw [(hext i hi.le o1).1] at b1 b2
    refine ⟨by rw [ei, e1, hdl], _, findIn_eq hc (hsubs i hi.le) o1 (by rw [ei, e1]), hs1, b2, ?_⟩
    rw [← ha, ei]
    exact b1
  · obtain ⟨i, hi, ei, ni, bi⟩ := first_ask r2
    have p1 := before_trans o2 o3
    rw [bi] at o3 p1
    refine ⟨i, hi, by rwa [ei], Or.inr (Or.inr (Or.inl ?_))⟩
    rw [(hext i hi.le p1).1] at b1 b2
    refine ⟨by rw [ei, hdl], _, findIn_eq hc (hsubs i hi.le) o3 (by rw [ei]), by rw [sl2, ei]; exact ne12, _, findIn_eq hc (hsubs i hi.le) p1 (by rw [sl2, e1]), hs1, ?_, ?_, ?_⟩
    · unfold set2
      rw [sl2]
      exact b2
    · rw [← ha, ei, hRs, hl1]
    · unfold set2
      rw [← ha, ei, hRs, sl2]
      exact b1
  · obtain ⟨i, hi, ei, ni, bi⟩ := first_ask r3
    have p2 := before_trans o4 o5
    have p1 := before_trans o2 p2
    rw [bi] at o5 p1 p2
    refine ⟨i, hi, by rwa [ei], Or.inr (Or.inr (Or.inr ?_))⟩
    rw [(hext i hi.le p1).1, (hext i hi.le p1).2] at b1 b2
    refine ⟨by rw [ei, e3, hdl], _, findIn_eq hc (hsubs i hi.le) o5 (by rw [ei, e3]), by rw [sl3, ei]; exact ne23, _, findIn_eq hc (hsubs i hi.le) p2 (by rw [sl3]), by rw [sl2, ei]; exact ne13,
      _, findIn_eq hc (hsubs i hi.le) p1 (by rw [sl2, e1]), hs1, ?_, ?_, ?_⟩
    · unfold set3
      rw [sl2, sl3, hRs]
      exact b2
    · rw [← ha, ei, hms, hl3]
    · unfold set3
      rw [← ha, ei, hms, sl2, sl3, hRs]
      exact b1

end

end Banquet
