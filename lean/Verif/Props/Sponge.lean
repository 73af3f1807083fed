import Verif.Proofs.Keccak64State

/-! Property theorems C38 and C39: incremental and 4-way hashing. -/

namespace Banquet.Props

open Spec

/-! ### C38 -/

/-- A hash computation as the code does it: initialise, absorb the chunks one by one, finalise, squeeze the given lengths one by one; result: all squeezed bytes. -/
def runHash (S : SnP) (k : ShakeKind) (chunks : List Bytes) (lens : List Nat) : M Bytes := do
  let s ← chunks.foldlM (hashUpdate S) (hashInit S k)
  let s ← hashFinal S s
  let r ← lens.foldlM (fun st n => do
    let r ← hashSqueeze S st.1 n
    .ok (r.1, st.2 ++ r.2)) (s, [])
  .ok r.2

/-- C38, in full: for chunks and output lengths of any size (below 2^64, where `size_t` ends), the output is the FIPS 202 sponge (with SHAKE padding, over the permutation `f`) of the concatenated
input; the squeezed pieces concatenate to a prefix of that stream. -/
def C38_statement (f : St → St) (S : SnP) : Prop := ∀ (k : ShakeKind) (chunks : List Bytes) (lens : List Nat), (∀ c ∈ chunks, c.length < 2 ^ 61) → (∀ n ∈ lens, n < 2 ^ 61) →
  runHash S k chunks lens = .ok ((Spec.shake f k chunks.flatten).squeeze 0 lens.sum)

/-- C38, for chunks and output lengths of less than 2^32 bytes minus the rate. What is missing in comparison with `C38_statement`: longer pieces, for which it does not hold. -/
theorem C38_incremental_partial (f : St → St) (S : SnP) (view : S.State → St) (hS : Spec.Snp f S view) (k : ShakeKind) (chunks : List Bytes) (lens : List Nat)
    (hc : ∀ c ∈ chunks, c.length + shakeRate k ≤ 2 ^ 32) (hl : ∀ n ∈ lens, n + shakeRate k ≤ 2 ^ 32) :
    runHash S k chunks lens = .ok ((Spec.shake f k chunks.flatten).squeeze 0 lens.sum) := by
  rw [← Ideal.kindRate_eq] at hc hl
  have h1 : ∀ (chunks : List Bytes) (msg : Bytes) (s : Sponge S), (∀ c ∈ chunks, c.length + kindRate k ≤ 2 ^ 32) → s.abs view = Ideal.ctx f k msg →
      ∃ s', chunks.foldlM (hashUpdate S) s = .ok s' ∧ s'.abs view = Ideal.ctx f k (msg ++ chunks.flatten) := by
    intro chunks
    induction chunks with
    | nil =>
      intro msg s _ h
      refine ⟨s, rfl, ?_⟩
      rw [h, List.flatten_nil, List.append_nil]
    | cons c cs ih =>
      intro msg s hb h
      obtain ⟨s1, e1, g1⟩ := hashUpdate_sim hS h c (hb c List.mem_cons_self)
      obtain ⟨s2, e2, g2⟩ := ih (msg ++ c) s1 (fun c' hc' => hb c' (List.mem_cons_of_mem _ hc')) g1
      refine ⟨s2, ?_, ?_⟩
      · rw [List.foldlM_cons, bindOk e1, e2]
      · rw [g2, List.flatten_cons, List.append_assoc]
  obtain ⟨s1, e1, g1⟩ := h1 chunks [] (hashInit S k) hc (by
    simp only [Sponge.abs, hashInit, hS.init]
    rfl)
  obtain ⟨s2, e2, g2⟩ := hashFinal_sim hS g1
  rw [List.nil_append, Ideal.hashFinal_ctx] at g2
  have h2 : ∀ (lens : List Nat) (s : Sponge S) (p : Nat) (acc : Bytes), (∀ n ∈ lens, n + kindRate k ≤ 2 ^ 32) →
      Ideal.SqInv f (absorb f (shakeRate k) (padShake (shakeRate k) chunks.flatten)) (kindRate k) p (s.abs view) →
      ∃ s', lens.foldlM (fun (st : Sponge S × Bytes) n => do
        let r ← hashSqueeze S st.1 n
        .ok (r.1, st.2 ++ r.2)) (s, acc) = .ok (s', acc ++ (Spec.shake f k chunks.flatten).squeeze p lens.sum) := by
    intro lens
    induction lens with
    | nil =>
      intro s p acc _ _
      refine ⟨s, ?_⟩
      simp [Stream.squeeze]
      rfl
    | cons n ns ih =>
      intro s p acc hb h
      obtain ⟨s1, e1, g1⟩ := hashSqueeze_sim hS _ s n (kind_facts k).2.2 (kind_facts k).2.1 h (hb n List.mem_cons_self)
      obtain ⟨s2, e2⟩ := ih s1 (p + n) (acc ++ (Spec.shake f k chunks.flatten).squeeze p n) (fun n' hn' => hb n' (List.mem_cons_of_mem _ hn')) g1
      refine ⟨s2, ?_⟩
      rw [List.foldlM_cons]
      simp only
      rw [e1]
      rw [List.append_assoc, Ideal.squeeze_add, ← List.sum_cons] at e2
      rw [← e2, Ideal.kindRate_eq]
      rfl
  obtain ⟨s3, e3⟩ := h2 lens s2 0 [] hl ⟨congrArg Ideal.Sponge.rate g2, congrArg Ideal.Sponge.squeezing g2, by rw [g2]; exact Nat.zero_le _, 0, congrArg Ideal.Sponge.state g2, by
    rw [g2]; simp⟩
  unfold runHash
  rw [bindOk e1, bindOk e2, bindOk e3, List.nil_append]

/-- C38. The output depends only on the concatenation of the input, with the same restriction. -/
theorem C38_chunking_partial (f : St → St) (S : SnP) (view : S.State → St) (hS : Spec.Snp f S view) (k : ShakeKind) (chunks chunks' : List Bytes) (lens lens' : List Nat)
    (hc : ∀ c ∈ chunks ++ chunks', c.length + shakeRate k ≤ 2 ^ 32) (hl : ∀ n ∈ lens ++ lens', n + shakeRate k ≤ 2 ^ 32)
    (h : chunks.flatten = chunks'.flatten) (hsum : lens.sum = lens'.sum) : runHash S k chunks lens = runHash S k chunks' lens' := by
  rw [C38_incremental_partial f S view hS k chunks lens (fun c h => hc c (List.mem_append_left _ h)) (fun n h => hl n (List.mem_append_left _ h)),
    C38_incremental_partial f S view hS k chunks' lens' (fun c h => hc c (List.mem_append_right _ h)) (fun n h => hl n (List.mem_append_right _ h)), h, hsum]

/-- The hypothesis holds for the portable code and the permutation of FIPS 202. -/
example : Spec.Snp Spec.keccakF Opt64.snp ofLanes := Opt64.snp_ok

set_option maxRecDepth 100000 in
/-- Concrete case: SHAKE128 of "abc" cut in two pieces, squeezed in two pieces, with the portable code. -/
example : (runHash Opt64.snp .shake128 [[0x61], [0x62, 0x63]] [3, 2]).toOption = some [0x58, 0x81, 0x09, 0x2d, 0xd8] := by decide +kernel

/-- Absorbing one byte sets the index to 1. -/
theorem update_one (k : ShakeKind) : ∃ s : Sponge Opt64.snp, hashUpdate Opt64.snp (hashInit Opt64.snp k) [0] = .ok s ∧ s.idx = 1 ∧ s.rate = kindRate k ∧ s.squeezing = false := by
  obtain ⟨s, e, g⟩ := hashUpdate_sim Opt64.snp_ok (k := k) (msg := []) (s := hashInit Opt64.snp k) (by
    simp only [Sponge.abs, hashInit, Opt64.snp_ok.init]
    rfl) [0] (by cases k <;> decide)
  refine ⟨s, e, ?_, congrArg Ideal.Sponge.rate g, congrArg Ideal.Sponge.squeezing g⟩
  have : s.idx = _ := congrArg Ideal.Sponge.idx g
  rw [this]
  cases k <;> rfl

/-- C38 is violated (CVE-2022-37454): after one byte, a chunk of 2^32 - 1 bytes makes the sum of `partialBlock` and `byteIOIndex` 0, and everything is written into the state at once, beyond its end. -/
theorem C38_overrun_violated (k : ShakeKind) (d : Bytes) (hd : d.length = 2 ^ 32 - 1) (lens : List Nat) : runHash Opt64.snp k [[0], d] lens = .error .ub := by
  obtain ⟨s, e, hi, -, hq⟩ := update_one k
  have h2 : hashUpdate Opt64.snp s d = .error .ub :=
    absorb_overrun s d hq (by omega) (by omega) (by omega) (Opt64.addBytes_ub s.state d s.idx (by omega) (by omega) (by omega))
  unfold runHash
  rw [List.foldlM_cons, bindOk e, List.foldlM_cons, h2]
  rfl

/-- C38 is violated: after one byte, the loop on a chunk of 2^32 bytes never ends, because `partialBlock` is 0. -/
theorem C38_hang_violated (k : ShakeKind) (d : Bytes) (hd : d.length = 2 ^ 32) : ∃ s : Sponge Opt64.snp, hashUpdate Opt64.snp (hashInit Opt64.snp k) [0] = .ok s ∧
    ∀ fuel, absorbLoop Opt64.snp fuel s d = .error .fuel := by
  obtain ⟨s, e, hi, hr, -⟩ := update_one k
  exact ⟨s, e, absorb_hang s d (by omega) (by rw [hi, hr]; cases k <;> decide) (by rw [hr]; cases k <;> decide) hd (by rw [hi]; rfl)⟩

/-- C38 is violated in squeezing: after one byte of output, asking for 2^32 - 1 more reads beyond the state. -/
theorem C38_squeeze_violated (k : ShakeKind) : runHash Opt64.snp k [] [1, 2 ^ 32 - 1] = .error .ub := by
  obtain ⟨s1, e1, g1⟩ := hashFinal_sim Opt64.snp_ok (k := k) (msg := []) (s := hashInit Opt64.snp k) (by
    simp only [Sponge.abs, hashInit, Opt64.snp_ok.init]
    rfl)
  rw [Ideal.hashFinal_ctx] at g1
  obtain ⟨s2, e2, g2⟩ := hashSqueeze_sim Opt64.snp_ok (absorb keccakF (shakeRate k) (padShake (shakeRate k) [])) (rate := kindRate k) (p := 0) s1 1 (kind_facts k).2.2 (kind_facts k).2.1
    ⟨congrArg Ideal.Sponge.rate g1, congrArg Ideal.Sponge.squeezing g1, by rw [g1]; exact Nat.zero_le _, 0, congrArg Ideal.Sponge.state g1, by rw [g1]; simp⟩ (by cases k <;> decide)
  obtain ⟨a1, a2, a3, n, -, a4⟩ := g2
  have b1 : s2.rate = kindRate k := a1
  have b2 : s2.idx ≤ kindRate k := a3
  have b3 : 0 + 1 = n * kindRate k + s2.idx := a4
  have hk : 2 ≤ kindRate k := by cases k <;> decide
  have hn : n = 0 := by
    by_contra hne
    have := Nat.le_mul_of_pos_left (kindRate k) (Nat.pos_of_ne_zero hne)
    omega
  subst hn
  have h3 : hashSqueeze Opt64.snp s2 (2 ^ 32 - 1) = .error .ub :=
    squeeze_overrun s2 (2 ^ 32 - 1) a2 (by omega) (by omega) (by norm_num) (by omega) (Opt64.extractBytes_ub s2.state s2.idx _ (by omega) (by norm_num) (by omega))
  unfold runHash
  rw [List.foldlM_nil]
  have e0 : (pure (hashInit Opt64.snp k) : M _) = .ok (hashInit Opt64.snp k) := rfl
  rw [bindOk e0, bindOk e1, List.foldlM_cons]
  simp only
  rw [e2]
  have : ∀ x : Bytes, (List.foldlM (fun (st : Sponge Opt64.snp × Bytes) n => do
      let r ← hashSqueeze Opt64.snp st.1 n
      .ok (r.1, st.2 ++ r.2)) (s2, x) [2 ^ 32 - 1] : M _) = .error .ub := by
    intro x
    rw [List.foldlM_cons]
    simp only
    rw [h3]
    rfl
  exact congrArg (fun y => y >>= _) (this _)

/-- C38 is violated. -/
theorem C38_violated : ¬ C38_statement keccakF Opt64.snp := by
  intro h
  have := h .shake128 [[0], List.replicate (2 ^ 32 - 1) 0] [] (by
    intro c hc
    rcases List.mem_cons.1 hc with rfl | hc
    · decide
    · rw [List.mem_singleton.1 hc, List.length_replicate]
      norm_num) (by simp)
  rw [C38_overrun_violated _ _ List.length_replicate] at this
  cases this

/-! ### C39 -/

/-- A 4-way hash computation: every chunk has a length and four buffers. -/
def runHash4 (S : PlSnP) (k : ShakeKind) (chunks : List ((Fin 4 → Bytes) × Nat)) (lens : List Nat) : M (Fin 4 → Bytes) := do
  let s ← chunks.foldlM (fun s c => hashUpdate4 S s c.1 c.2) (hashInit4 S k)
  let s ← hashFinal4 S s
  let r ← lens.foldlM (fun (st : Sponge4 S × (Fin 4 → Bytes)) n => do
    let r ← hashSqueeze4 S st.1 n
    .ok (r.1, fun l => st.2 l ++ r.2 l)) (s, fun _ => [])
  .ok r.2

/-- C39, in full: every lane of the 4-way sponge computes the FIPS 202 sponge of that lane's concatenated input. -/
def C39_statement (f : St → St) (S : PlSnP) : Prop := ∀ (k : ShakeKind) (chunks : List ((Fin 4 → Bytes) × Nat)) (lens : List Nat), (∀ c ∈ chunks, c.2 < 2 ^ 61 ∧ ∀ l, (c.1 l).length = c.2) →
  (∀ n ∈ lens, n < 2 ^ 61) → runHash4 S k chunks lens = .ok fun l => (Spec.shake f k (chunks.map fun c => c.1 l).flatten).squeeze 0 lens.sum

/-- C39, for chunks and output lengths of less than 2^32 bytes minus the rate. What is missing in comparison with `C39_statement`: longer pieces, for which it does not hold. -/
theorem C39_spec_partial (f : St → St) (S : PlSnP) (view : S.State → Fin 4 → St) (hS : Spec.PlSnp f S view) (k : ShakeKind) (chunks : List ((Fin 4 → Bytes) × Nat)) (lens : List Nat)
    (hd : ∀ c ∈ chunks, ∀ l, (c.1 l).length = c.2) (hc : ∀ c ∈ chunks, c.2 + shakeRate k ≤ 2 ^ 32) (hl : ∀ n ∈ lens, n + shakeRate k ≤ 2 ^ 32) :
    runHash4 S k chunks lens = .ok fun l => (Spec.shake f k (chunks.map fun c => c.1 l).flatten).squeeze 0 lens.sum := by
  rw [← Ideal.kindRate_eq] at hc hl
  have h1 : ∀ (chunks : List ((Fin 4 → Bytes) × Nat)) (msg : Fin 4 → Bytes) (s : Sponge4 S), (∀ c ∈ chunks, ∀ l, (c.1 l).length = c.2) → (∀ c ∈ chunks, c.2 + kindRate k ≤ 2 ^ 32) →
      (∀ l, (s.abs view).lane l = Ideal.ctx f k (msg l)) →
      ∃ s', chunks.foldlM (fun s c => hashUpdate4 S s c.1 c.2) s = .ok s' ∧ ∀ l, (s'.abs view).lane l = Ideal.ctx f k (msg l ++ (chunks.map fun c => c.1 l).flatten) := by
    intro chunks
    induction chunks with
    | nil =>
      intro msg s _ _ h
      refine ⟨s, rfl, fun l => ?_⟩
      rw [h, List.map_nil, List.flatten_nil, List.append_nil]
    | cons c cs ih =>
      intro msg s hd hb h
      obtain ⟨s1, e1, g1⟩ := hashUpdate4_sim hS h c.1 c.2 (hd c List.mem_cons_self) (hb c List.mem_cons_self)
      obtain ⟨s2, e2, g2⟩ := ih (fun l => msg l ++ c.1 l) s1 (fun c' hc' => hd c' (List.mem_cons_of_mem _ hc')) (fun c' hc' => hb c' (List.mem_cons_of_mem _ hc')) g1
      refine ⟨s2, ?_, fun l => ?_⟩
      · rw [List.foldlM_cons, bindOk e1, e2]
      · rw [g2, List.map_cons, List.flatten_cons, List.append_assoc]
  obtain ⟨s1, e1, g1⟩ := h1 chunks (fun _ => []) (hashInit4 S k) hd hc (fun l => by
    simp only [Sponge4.abs, hashInit4, Ideal.Sponge4.lane, hS.init]
    rfl)
  obtain ⟨s2, e2, g2⟩ := hashFinal4_sim hS g1
  simp only [List.nil_append, Ideal.hashFinal_ctx] at g2
  have h2 : ∀ (lens : List Nat) (s : Sponge4 S) (p : Nat) (acc : Fin 4 → Bytes), (∀ n ∈ lens, n + kindRate k ≤ 2 ^ 32) →
      (∀ l, Ideal.SqInv f (absorb f (shakeRate k) (padShake (shakeRate k) (chunks.map fun c => c.1 l).flatten)) (kindRate k) p ((s.abs view).lane l)) →
      ∃ s', lens.foldlM (fun (st : Sponge4 S × (Fin 4 → Bytes)) n => do
        let r ← hashSqueeze4 S st.1 n
        .ok (r.1, fun l => st.2 l ++ r.2 l)) (s, acc) = .ok (s', fun l => acc l ++ (Spec.shake f k (chunks.map fun c => c.1 l).flatten).squeeze p lens.sum) := by
    intro lens
    induction lens with
    | nil =>
      intro s p acc _ _
      refine ⟨s, ?_⟩
      simp [Stream.squeeze]
      rfl
    | cons n ns ih =>
      intro s p acc hb h
      obtain ⟨s1, e1, g1⟩ := hashSqueeze4_sim hS _ s n (kind_facts k).2.2 (kind_facts k).2.1 h (hb n List.mem_cons_self)
      obtain ⟨s2, e2⟩ := ih s1 (p + n) (fun l => acc l ++ (Spec.shake f k (chunks.map fun c => c.1 l).flatten).squeeze p n) (fun n' hn' => hb n' (List.mem_cons_of_mem _ hn')) g1
      refine ⟨s2, ?_⟩
      rw [List.foldlM_cons]
      simp only
      rw [e1]
      simp only [List.append_assoc, Ideal.squeeze_add, ← List.sum_cons] at e2
      rw [← e2, Ideal.kindRate_eq]
      rfl
  obtain ⟨s3, e3⟩ := h2 lens s2 0 (fun _ => []) hl fun l => ⟨congrArg Ideal.Sponge.rate (g2 l), congrArg Ideal.Sponge.squeezing (g2 l), by rw [g2]; exact Nat.zero_le _, 0,
    congrArg Ideal.Sponge.state (g2 l), by rw [g2]; simp⟩
  unfold runHash4
  rw [bindOk e1, bindOk e2, bindOk e3]
  simp

/-- C39. Every lane of the 4-way sponge computes what the single sponge computes on that lane's input, with the same restriction; the two may use different code for the state. -/
theorem C39_lanes_partial (f : St → St) (S4 : PlSnP) (view4 : S4.State → Fin 4 → St) (hS4 : Spec.PlSnp f S4 view4) (S : SnP) (view : S.State → St) (hS : Spec.Snp f S view)
    (k : ShakeKind) (chunks : List ((Fin 4 → Bytes) × Nat)) (lens : List Nat)
    (hd : ∀ c ∈ chunks, ∀ l, (c.1 l).length = c.2) (hc : ∀ c ∈ chunks, c.2 + shakeRate k ≤ 2 ^ 32) (hl : ∀ n ∈ lens, n + shakeRate k ≤ 2 ^ 32) :
    ∃ r, runHash4 S4 k chunks lens = .ok r ∧ ∀ l, runHash S k (chunks.map fun c => c.1 l) lens = .ok (r l) := by
  refine ⟨_, C39_spec_partial f S4 view4 hS4 k chunks lens hd hc hl, fun l => ?_⟩
  refine C38_incremental_partial f S view hS k _ lens (fun c h => ?_) hl
  obtain ⟨c', hc', rfl⟩ := List.mem_map.1 h
  rw [hd c' hc' l]
  exact hc c' hc'

/-- The hypothesis holds for the portable code and the permutation of FIPS 202. -/
example : Spec.PlSnp Spec.keccakF Opt64.plSnp Opt64.view4 := Opt64.plSnp_ok

set_option maxRecDepth 100000 in
/-- Concrete case with four different inputs, in two pieces: lane 0 hashes "abc". -/
example : (runHash4 Opt64.plSnp .shake128 [(fun l => [0x61, 0x62 + BitVec.ofNat 8 l.val], 2), (fun _ => [0x63], 1)] [2, 1]).toOption.map (fun r => r 0) = some [0x58, 0x81, 0x09] := by
  decide +kernel

/-- C39 is violated, as C38: after one byte in every lane, chunks of 2^32 - 1 bytes are written beyond the first state. -/
theorem C39_overrun_violated (k : ShakeKind) (d : Fin 4 → Bytes) (hd : ∀ l, (d l).length = 2 ^ 32 - 1) (lens : List Nat) :
    runHash4 Opt64.plSnp k [(fun _ => [0], 1), (d, 2 ^ 32 - 1)] lens = .error .ub := by
  obtain ⟨s, e, g⟩ := hashUpdate4_sim Opt64.plSnp_ok (k := k) (msg := fun _ => []) (s := hashInit4 Opt64.plSnp k) (fun l => by
    simp only [Sponge4.abs, hashInit4, Ideal.Sponge4.lane, Opt64.plSnp_ok.init]
    rfl) (fun _ => [0]) 1 (fun _ => rfl) (by cases k <;> decide)
  have hq : s.squeezing = false := congrArg Ideal.Sponge.squeezing (g 0)
  have hi : s.idx = 1 := by
    have : s.idx = _ := congrArg Ideal.Sponge.idx (g 0)
    rw [this]
    cases k <;> rfl
  have hub : Opt64.plSnp.addBytes s.state 0 ((d 0).take (2 ^ 32 - 1)) s.idx = .error .ub := by
    have := Opt64.addBytes_ub (Vector.get s.state (0 : Fin 4)) ((d 0).take (2 ^ 32 - 1)) s.idx (by rw [List.length_take, hd]; omega) (by rw [List.length_take, hd]; norm_num) (by omega)
    exact congrArg (fun y : M _ => y >>= _) this
  have h2 : hashUpdate4 Opt64.plSnp s d (2 ^ 32 - 1) = .error .ub := absorb_overrun4 s d _ hq (by omega) (by norm_num) (by omega) hub
  unfold runHash4
  rw [List.foldlM_cons]
  simp only
  rw [bindOk e, List.foldlM_cons]
  simp only
  rw [h2]
  rfl

/-- C39 is violated. -/
theorem C39_violated : ¬ C39_statement keccakF Opt64.plSnp := by
  intro h
  have := h .shake128 [(fun _ => [0], 1), (fun _ => List.replicate (2 ^ 32 - 1) 0, 2 ^ 32 - 1)] [] (by
    intro c hc
    rcases List.mem_cons.1 hc with rfl | hc
    · exact ⟨by norm_num, fun _ => rfl⟩
    · rw [List.mem_singleton.1 hc]
      exact ⟨by norm_num, fun _ => List.length_replicate⟩) (by simp)
  rw [C39_overrun_violated _ _ fun _ => List.length_replicate] at this
  cases this

end Banquet.Props
