import Verif.Spec.Challenge
import Verif.Proofs.Fuel
import Verif.Proofs.Accept
import Mathlib.SetTheory.Cardinal.Finite
import Mathlib.Data.Set.Card
import Mathlib.Algebra.BigOperators.Ring.Finset
import Mathlib.Data.Set.Finite.List

/-! Rejection sampling. -/

namespace Banquet

open Spec

/-- Rejection sampling from a sequence of candidates. -/
def rejLoop {α : Type} (cand : Nat → α) (bad : α → Bool) : Nat → Nat → M (α × Nat)
  | 0, _ => .error .fuel
  | fuel + 1, i => if bad (cand i) then rejLoop cand bad fuel (i + 1) else .ok (cand i, i + 1)

/-- `n` values. -/
def rejMany {α : Type} (cand : Nat → α) (bad : α → Bool) (fuel n : Nat) : M (List α × Nat) :=
  (List.range n).foldlM (fun (st : List α × Nat) _ => do
    let (c, i) ← rejLoop cand bad fuel st.2
    .ok (st.1 ++ [c], i)) ([], 0)

/-- The accepted candidates among the first `n`. -/
def accepted {α : Type} (cand : Nat → α) (bad : α → Bool) (n : Nat) : List α := ((List.range n).map cand).filter fun x => !bad x

section
variable {α : Type} (cand : Nat → α) (bad : α → Bool)

theorem accepted_succ (n : Nat) : accepted cand bad (n + 1) = accepted cand bad n ++ if bad (cand n) then [] else [cand n] := by
  unfold accepted
  rw [List.range_succ, List.map_append, List.filter_append]
  cases h : bad (cand n) <;> simp [h]

theorem accepted_prefix {n m : Nat} (h : n ≤ m) : accepted cand bad n <+: accepted cand bad m := by
  induction m, h using Nat.le_induction with
  | base => exact List.prefix_rfl
  | succ m _ ih =>
    rw [accepted_succ]
    exact ih.trans (List.prefix_append _ _)

theorem rejLoop_ok {fuel i : Nat} {r : α × Nat} (h : rejLoop cand bad fuel i = .ok r) : accepted cand bad r.2 = accepted cand bad i ++ [r.1] := by
  induction fuel generalizing i with
  | zero => cases h
  | succ fuel ih =>
    unfold rejLoop at h
    split at h
    · rename_i hb
      rw [ih h, accepted_succ, if_pos hb, List.append_nil]
    · rename_i hb
      obtain rfl := Except.ok.inj h
      rw [accepted_succ, if_neg hb]

theorem rejLoop_total {fuel i j : Nat} (hij : i ≤ j) (hj : bad (cand j) = false) (hf : j < i + fuel) : ∃ r, rejLoop cand bad fuel i = .ok r := by
  induction fuel generalizing i with
  | zero => omega
  | succ fuel ih =>
    unfold rejLoop
    split
    · rename_i hb
      have : i ≠ j := fun e => by rw [e, hj] at hb; cases hb
      exact ih (by omega) (by omega)
    · exact ⟨_, rfl⟩

theorem rejMany_inv (fuel n : Nat) : (∀ r, rejMany cand bad fuel n = .ok r → r.1.length = n ∧ r.1 = accepted cand bad r.2) ∧
    (∀ m ≤ fuel, n ≤ (accepted cand bad m).length → ∃ r, rejMany cand bad fuel n = .ok r) := by
  have key := fun S => foldlM_range_inv (fun (st : List α × Nat) _ => do
    let (c, i) ← rejLoop cand bad fuel st.2
    (.ok (st.1 ++ [c], i) : M (List α × Nat))) (fun k st => st.1.length = k ∧ st.1 = accepted cand bad st.2) S n
  constructor
  · intro r hr
    refine (key False (fun i _ st hst => ⟨False.elim, fun st' hst' => ?_⟩) _ ⟨rfl, rfl⟩).2 r hr
    cases hl : rejLoop cand bad fuel st.2 with
    | error e => rw [hl] at hst'; cases hst'
    | ok c =>
      rw [hl] at hst'
      obtain rfl := Except.ok.inj hst'
      exact ⟨by simp [hst.1], by rw [rejLoop_ok cand bad hl, hst.2]⟩
  · intro m hm hn
    refine (key True (fun i hi st hst => ⟨fun _ => ?_, fun st' hst' => ?_⟩) ([], 0) ⟨rfl, rfl⟩).1 trivial
    · obtain ⟨j, h1, h2, h3⟩ : ∃ j, st.2 ≤ j ∧ j < m ∧ bad (cand j) = false := by
        by_contra hcon
        push Not at hcon
        have : ∀ k, st.2 + k ≤ m → accepted cand bad (st.2 + k) = accepted cand bad st.2 := by
          intro k hk
          induction k with
          | zero => rfl
          | succ k ih =>
            rw [← Nat.add_assoc, accepted_succ, ih (by omega), if_pos (by simpa using hcon (st.2 + k) (by omega) (by omega)), List.append_nil]
        have hl : (accepted cand bad st.2).length = i := by rw [← hst.2, hst.1]
        rcases Nat.le_total st.2 m with h | h
        · obtain ⟨k, rfl⟩ := Nat.exists_eq_add_of_le h
          rw [this k le_rfl] at hn
          omega
        · have := (accepted_prefix cand bad h).length_le
          omega
      obtain ⟨c, hc⟩ := rejLoop_total cand bad (fuel := fuel) h1 h3 (by omega)
      exact ⟨(st.1 ++ [c.1], c.2), by rw [hc]; rfl⟩
    · cases hl : rejLoop cand bad fuel st.2 with
      | error e => rw [hl] at hst'; cases hst'
      | ok c =>
        rw [hl] at hst'
        obtain rfl := Except.ok.inj hst'
        exact ⟨by simp [hst.1], by rw [rejLoop_ok cand bad hl, hst.2]⟩

/-- The values found are the first accepted ones. -/
theorem rejMany_iff (n : Nat) (l : List α) : (∃ fuel i, rejMany cand bad fuel n = .ok (l, i)) ↔ l.length = n ∧ ∃ m, (accepted cand bad m).take n = l := by
  constructor
  · rintro ⟨fuel, i, h⟩
    obtain ⟨h1, h2⟩ := (rejMany_inv cand bad fuel n).1 _ h
    exact ⟨h1, i, by rw [← h2, ← h1]; exact List.take_length⟩
  · rintro ⟨h1, m, h2⟩
    have hlen : n ≤ (accepted cand bad m).length := by
      rw [← h2, List.length_take] at h1
      omega
    obtain ⟨r, hr⟩ := (rejMany_inv cand bad m n).2 m le_rfl hlen
    obtain ⟨h3, h4⟩ := (rejMany_inv cand bad m n).1 r hr
    refine ⟨m, r.2, ?_⟩
    rw [hr]
    have : r.1 = l := by
      rcases Nat.le_total m r.2 with h | h
      · have hp := (accepted_prefix cand bad h)
        rw [← h4] at hp
        rw [← h2, hp.eq_of_length (by have := hp.length_le; omega), ← h3, List.take_length]
      · have hp := (accepted_prefix cand bad h)
        rw [← h4] at hp
        rw [← h2, ← h3]
        exact List.prefix_iff_eq_take.1 hp
    rw [← this]

/-- A loop which does the same with a scaled position. -/
theorem foldlM_scaled (g : Nat → Nat → M (α × Nat)) (k fuel : Nat) (hg : ∀ i, g fuel (i * k) = Except.map (fun r : α × Nat => (r.1, r.2 * k)) (rejLoop cand bad fuel i)) (n : Nat) :
    ((List.range n).foldlM (fun (st : List α × Nat) _ => do
      let (c, off) ← g fuel st.2
      (.ok (st.1 ++ [c], off) : M (List α × Nat))) ([], 0)) = (rejMany cand bad fuel n).map fun r : List α × Nat => (r.1, r.2 * k) := by
  unfold rejMany
  have : ∀ (l : List Nat) (st : List α × Nat), l.foldlM (fun (st : List α × Nat) _ => do
      let (c, off) ← g fuel st.2
      (.ok (st.1 ++ [c], off) : M (List α × Nat))) (st.1, st.2 * k) = Except.map (fun r : List α × Nat => (r.1, r.2 * k)) (l.foldlM (fun (st : List α × Nat) _ => do
      let (c, i) ← rejLoop cand bad fuel st.2
      (.ok (st.1 ++ [c], i) : M (List α × Nat))) st) := by
    intro l
    induction l with
    | nil => intro st; rfl
    | cons a l ih =>
      intro st
      rw [List.foldlM_cons, List.foldlM_cons]
      dsimp only
      rw [hg]
      cases hl : rejLoop cand bad fuel st.2 with
      | error e => rfl
      | ok r => exact ih (st.1 ++ [r.1], r.2)
  have h := this (List.range n) ([], 0)
  dsimp only at h
  rw [Nat.zero_mul] at h
  exact h

theorem firstOk_blocks {f : Bytes → α} {ok : α → Prop} (s : Stream) (len N m : Nat) (hbad : ∀ i, bad (f (s.squeeze (i * len) len)) = true ↔ ¬ok (f (s.squeeze (i * len) len))) :
    firstOk f ok N (streamBlocks s len m) = (accepted (fun i => f (s.squeeze (i * len) len)) bad m).take N := by
  classical
  unfold firstOk streamBlocks accepted
  rw [List.map_map]
  congr 1
  refine List.filter_congr fun x hx => ?_
  obtain ⟨i, _, rfl⟩ := List.mem_map.1 hx
  have := hbad i
  simp only [Function.comp]
  by_cases h : ok (f (s.squeeze (i * len) len))
  · rw [show bad (f (s.squeeze (i * len) len)) = false by rw [← Bool.not_eq_true, this]; exact not_not.2 h]
    simp [h]
  · rw [this.2 h]
    simp [h]

end

/-! The two challenges. -/

section
variable {F : FieldState} [hF : FieldOk F]
open FieldOk

theorem phase2Loop_rej (I : Instance) (hb : F.byteSize = I.lambda) (s : Stream) (forb : List W64) (fuel i : Nat) :
    phase2Loop F I s forb fuel (i * I.lambda) = (rejLoop (fun i => blockElem (s.squeeze (i * I.lambda) I.lambda)) (fun c => (List.range I.m2).any fun k => c == forb.getD k 0) fuel i).map fun r => (r.1, r.2 * I.lambda) := by
  induction fuel generalizing i with
  | zero => rfl
  | succ fuel ih =>
    unfold phase2Loop rejLoop
    dsimp only
    rw [fromBytes_eq _ (by rw [hb]; simp [Stream.squeeze]), ← Nat.succ_mul, Nat.succ_eq_add_one]
    unfold blockElem at ih ⊢
    split
    · exact ih (i + 1)
    · rfl

theorem phase2Expand_rej (X : Xof) (I : Instance) (hb : F.byteSize = I.lambda) (h2 : Bytes) :
    ∀ fuel, phase2Expand X fuel F I h2 (F.firstN I.m2) = (rejMany (fun i => blockElem ((X (kindOf I.digestSize) h2).squeeze (i * I.lambda) I.lambda))
      (fun c => (List.range I.m2).any fun k => c == (F.firstN I.m2).getD k 0) fuel I.numRounds).map (·.1) := by
  intro fuel
  unfold phase2Expand
  dsimp only
  rw [foldlM_scaled _ _ (phase2Loop F I (X (kindOf I.digestSize) h2) (F.firstN I.m2)) I.lambda fuel (fun i => phase2Loop_rej I hb _ _ fuel i)]
  cases rejMany (fun i => blockElem ((X (kindOf I.digestSize) h2).squeeze (i * I.lambda) I.lambda))
    (fun c => (List.range I.m2).any fun k => c == (F.firstN I.m2).getD k 0) fuel I.numRounds <;> rfl

theorem fresh_bad (X : Xof) (I : Instance) (hb : F.byteSize = I.lambda) (h2 : Bytes) :
    ∀ i, ((List.range I.m2).any fun k => blockElem ((X (kindOf I.digestSize) h2).squeeze (i * I.lambda) I.lambda) == (F.firstN I.m2).getD k 0) = true ↔
      ¬Fresh I.lambda I.m2 (blockElem ((X (kindOf I.digestSize) h2).squeeze (i * I.lambda) I.lambda)) := by
  intro i
  have hred : Reduced F.byteSize (blockElem ((X (kindOf I.digestSize) h2).squeeze (i * I.lambda) I.lambda)) := by
    unfold blockElem
    rw [← fromBytes_eq (F := F) _ (by rw [hb]; simp [Stream.squeeze])]
    exact reduced_fromBytes _
  unfold Fresh
  rw [← hb] at hred ⊢
  push Not
  rw [List.any_eq_true]
  constructor
  · rintro ⟨k, hk, he⟩
    exact ⟨k, List.mem_range.1 hk, by rw [point_eq (List.mem_range.1 hk), ← eq_of_beq he]⟩
  · rintro ⟨k, hk, he⟩
    refine ⟨k, List.mem_range.2 hk, beq_iff_eq.2 (val_inj hred ?_ (by rw [he, point_eq hk]))⟩
    rw [getD_of_lt (by rwa [length_firstN])]
    exact allRed_firstN _ _ (List.getElem_mem _)

theorem phase2Expand_iff (X : Xof) (I : Instance) (hb : F.byteSize = I.lambda) (h2 : Bytes) (Rs : List W64) :
    (∃ fuel, phase2Expand X fuel F I h2 (F.firstN I.m2) = .ok Rs) ↔
      Rs.length = I.numRounds ∧ ∃ n, firstOk blockElem (Fresh I.lambda I.m2) I.numRounds (streamBlocks (X (kindOf I.digestSize) h2) I.lambda n) = Rs := by
  have key := phase2Expand_rej X I hb h2
  have hbad := fresh_bad X I hb h2
  simp only [firstOk_blocks (fun c => (List.range I.m2).any fun k => c == (F.firstN I.m2).getD k 0) (X (kindOf I.digestSize) h2) I.lambda I.numRounds _ hbad]
  rw [← rejMany_iff]
  refine exists_congr fun fuel => ?_
  rw [key]
  cases rejMany (fun i => blockElem ((X (kindOf I.digestSize) h2).squeeze (i * I.lambda) I.lambda))
      (fun c => (List.range I.m2).any fun k => c == (F.firstN I.m2).getD k 0) fuel I.numRounds with
  | error e => exact ⟨fun h => by (cases h), fun ⟨i, h⟩ => by (cases h)⟩
  | ok r => exact ⟨fun h => ⟨r.2, by rw [← Except.ok.inj h]⟩, fun ⟨i, h⟩ => by rw [Except.ok.inj h]; rfl⟩

end

theorem partyBytes_eq (n : Nat) : numSqueezeBytes n = partyBytes n := by
  unfold numSqueezeBytes partyBytes
  split <;> split <;> omega

theorem leNat_one (b : Byte) : leNat [b] = b.toNat := by simp [leNat]

theorem leNat_two (a b : Byte) : leNat [a, b] = a.toNat + 256 * b.toNat := by simp [leNat]

theorem phase3Candidate_block {n : Nat} (hn : 2 ≤ n) (hN : n < 2 ^ 16) (s : Stream) (junk : Byte) (off : Nat) : phase3Candidate n s junk off = blockParty n (s.squeeze off (partyBytes n)) := by
  have hcl : ceilLog2 n = Nat.clog 2 n := ceilLog2_eq n (by omega)
  rw [phase3Candidate_junk n s junk 0]
  unfold phase3Candidate numSqueezeBytes blockParty partyBytes
  dsimp only
  rw [hcl]
  have hc : Nat.clog 2 n ≤ 16 := Nat.clog_le_of_le_pow (by omega)
  have hp : 2 ^ Nat.clog 2 n ≤ 2 ^ 16 := Nat.pow_le_pow_right (by norm_num) hc
  have hpos : 0 < 2 ^ Nat.clog 2 n := by positivity
  rw [Nat.mod_eq_of_lt (by omega), and_mask]
  by_cases h : n ≤ 256
  · rw [if_neg (show ¬n > 256 by omega), if_pos h]
    simp [Stream.squeeze, leNat]
  · rw [if_pos (show n > 256 by omega), if_neg h, if_pos rfl]
    simp [Stream.squeeze, leNat, List.range_succ]

theorem phase3Loop_rej {n : Nat} (hn : 2 ≤ n) (hN : n < 2 ^ 16) (s : Stream) (junk : Nat → Byte) (fuel i : Nat) :
    phase3Loop n s junk fuel (i * partyBytes n) = (rejLoop (fun i => blockParty n (s.squeeze (i * partyBytes n) (partyBytes n))) (fun m => decide (m ≥ n)) fuel i).map fun r => (r.1, r.2 * partyBytes n) := by
  induction fuel generalizing i with
  | zero => rfl
  | succ fuel ih =>
    unfold phase3Loop rejLoop
    dsimp only
    rw [phase3Candidate_block hn hN, partyBytes_eq, ← Nat.succ_mul, Nat.succ_eq_add_one]
    simp only [decide_eq_true_eq]
    split
    · exact ih (i + 1)
    · rfl

theorem phase3Expand_rej (X : Xof) (I : Instance) (hn : 2 ≤ I.numParties) (hN : I.numParties < 2 ^ 16) (h3 : Bytes) :
    ∀ fuel, phase3Expand X fuel I h3 = (rejMany (fun i => blockParty I.numParties ((X (kindOf I.digestSize) h3).squeeze (i * partyBytes I.numParties) (partyBytes I.numParties)))
      (fun m => decide (m ≥ I.numParties)) fuel I.numRounds).map (·.1) := by
  intro fuel
  unfold phase3Expand phase3ExpandJ
  dsimp only
  rw [foldlM_scaled _ _ (phase3Loop I.numParties (X (kindOf I.digestSize) h3) fun _ => 0) (partyBytes I.numParties) fuel (fun i => phase3Loop_rej hn hN _ _ fuel i)]
  cases rejMany (fun i => blockParty I.numParties ((X (kindOf I.digestSize) h3).squeeze (i * partyBytes I.numParties) (partyBytes I.numParties)))
    (fun m => decide (m ≥ I.numParties)) fuel I.numRounds <;> rfl

theorem phase3Expand_iff (X : Xof) (I : Instance) (hn : 2 ≤ I.numParties) (hN : I.numParties < 2 ^ 16) (h3 : Bytes) (ms : List Nat) :
    (∃ fuel, phase3Expand X fuel I h3 = .ok ms) ↔
      ms.length = I.numRounds ∧ ∃ n, firstOk (blockParty I.numParties) (· < I.numParties) I.numRounds (streamBlocks (X (kindOf I.digestSize) h3) (partyBytes I.numParties) n) = ms := by
  have key := phase3Expand_rej X I hn hN h3
  have hbad : ∀ i, decide (blockParty I.numParties ((X (kindOf I.digestSize) h3).squeeze (i * partyBytes I.numParties) (partyBytes I.numParties)) ≥ I.numParties) = true ↔
      ¬blockParty I.numParties ((X (kindOf I.digestSize) h3).squeeze (i * partyBytes I.numParties) (partyBytes I.numParties)) < I.numParties := fun i => by rw [decide_eq_true_iff, not_lt]
  simp only [fun m => firstOk_blocks (ok := (· < I.numParties)) (fun m => decide (m ≥ I.numParties)) (X (kindOf I.digestSize) h3) (partyBytes I.numParties) I.numRounds m hbad]
  rw [← rejMany_iff]
  refine exists_congr fun fuel => ?_
  rw [key]
  cases rejMany (fun i => blockParty I.numParties ((X (kindOf I.digestSize) h3).squeeze (i * partyBytes I.numParties) (partyBytes I.numParties)))
      (fun m => decide (m ≥ I.numParties)) fuel I.numRounds with
  | error e => exact ⟨fun h => by (cases h), fun ⟨i, h⟩ => by (cases h)⟩
  | ok r => exact ⟨fun h => ⟨r.2, by rw [← Except.ok.inj h]⟩, fun ⟨i, h⟩ => by rw [Except.ok.inj h]; rfl⟩

/-! Counting. -/

theorem length_firstOk_le {α : Type} (f : Bytes → α) (ok : α → Prop) (N : Nat) (w : List Bytes) : (firstOk f ok N w).length ≤ N := by
  unfold firstOk
  exact List.length_take_le _ _

theorem firstOk_cons {α : Type} (f : Bytes → α) (ok : α → Prop) (N : Nat) (b : Bytes) (w : List Bytes) :
    (¬ok (f b) → firstOk f ok N (b :: w) = firstOk f ok N w) ∧ (ok (f b) → firstOk f ok (N + 1) (b :: w) = f b :: firstOk f ok N w) := by
  classical
  unfold firstOk
  constructor
  · intro h
    rw [List.map_cons, List.filter_cons_of_neg (by simpa using h)]
  · intro h
    rw [List.map_cons, List.filter_cons_of_pos (by simpa using h), List.take_succ_cons]

/-- Blocks of a given length form a finite type. -/
theorem finite_block (len : Nat) : Finite {b : Bytes // b.length = len} := by
  have : Finite Byte := Finite.of_injective BitVec.toFin fun a b h => BitVec.eq_of_toFin_eq h
  exact (List.finite_length_eq Byte len)

theorem finite_words (len n : Nat) (P : List Bytes → Prop) : Finite {w : List Bytes // Blocks len n w ∧ P w} := by
  have := finite_block len
  have hf : Finite {v : List {b : Bytes // b.length = len} // v.length = n} := List.finite_length_eq _ n
  refine Finite.of_injective (fun w : {w : List Bytes // Blocks len n w ∧ P w} =>
    (⟨w.1.attach.map fun b => ⟨b.1, w.2.1.2 b.1 b.2⟩, by rw [List.length_map, List.length_attach, w.2.1.1]⟩ : {v : List {b : Bytes // b.length = len} // v.length = n})) fun w w' h => ?_
  have h := congrArg (fun v : {v : List {b : Bytes // b.length = len} // v.length = n} => v.1.map (·.1)) h
  simp only [List.map_map] at h
  refine Subtype.ext ?_
  have e : ∀ w : {w : List Bytes // Blocks len n w ∧ P w}, (w.1.attach.map ((fun b : {b : Bytes // b.length = len} => b.1) ∘ fun b => ⟨b.1, w.2.1.2 b.1 b.2⟩)) = w.1 := fun w => by
    rw [show ((fun b : {b : Bytes // b.length = len} => b.1) ∘ fun b : {b // b ∈ w.1} => ⟨b.1, w.2.1.2 b.1 b.2⟩) = fun b => b.1 from rfl, List.attach_map_subtype_val]
  rw [e, e] at h
  exact h

/-- Words of `n` blocks with a property, by their first block. -/
theorem card_words_succ (len n : Nat) (P : List Bytes → Prop) [Fintype {b : Bytes // b.length = len}] :
    Nat.card {w : List Bytes // Blocks len (n + 1) w ∧ P w} = ∑ b : {b : Bytes // b.length = len}, Nat.card {w : List Bytes // Blocks len n w ∧ P (b.1 :: w)} := by
  have hfin : ∀ b : {b : Bytes // b.length = len}, Finite {w : List Bytes // Blocks len n w ∧ P (b.1 :: w)} := fun b => finite_words len n _
  rw [← Nat.card_sigma]
  refine Nat.card_congr ⟨fun w => match w with
    | ⟨[], h⟩ => absurd h.1.1 (Nat.succ_ne_zero n).symm
    | ⟨b :: w, h⟩ => ⟨⟨b, h.1.2 b (List.mem_cons_self ..)⟩, w, ⟨Nat.succ.inj h.1.1, fun c hc => h.1.2 c (List.mem_cons_of_mem _ hc)⟩, h.2⟩,
    fun x => ⟨x.1.1 :: x.2.1, ⟨congrArg Nat.succ x.2.2.1.1, fun c hc => ?_⟩, x.2.2.2⟩, ?_, ?_⟩
  · rcases List.mem_cons.1 hc with rfl | hc
    · exact x.1.2
    · exact x.2.2.1.2 c hc
  · rintro ⟨w, h⟩
    cases w with
    | nil => exact absurd h.1.1 (Nat.succ_ne_zero n).symm
    | cons b w => rfl
  · rintro ⟨⟨b, hb⟩, w, h⟩
    rfl

/-- The number of words which yield a list of allowed values depends only on its length, when all allowed values are given by equally many blocks. -/
theorem card_firstOk {α : Type} (f : Bytes → α) (ok Q : α → Prop) (len : Nat)
    (hfib : ∀ v v', Q v → Q v' → Nat.card {b : {b : Bytes // b.length = len} // f b.1 = v} = Nat.card {b : {b : Bytes // b.length = len} // f b.1 = v'}) (n : Nat) (l l' : List α)
    (hl : ∀ v ∈ l, Q v ∧ ok v) (hl' : ∀ v ∈ l', Q v ∧ ok v) (h : l.length = l'.length) :
    Nat.card {w : List Bytes // Blocks len n w ∧ firstOk f ok l.length w = l} = Nat.card {w : List Bytes // Blocks len n w ∧ firstOk f ok l'.length w = l'} := by
  classical
  have := finite_block len
  have := Fintype.ofFinite {b : Bytes // b.length = len}
  induction n generalizing l l' with
  | zero =>
    refine Nat.card_congr (Equiv.subtypeEquivRight fun w => and_congr_right fun hw => ?_)
    obtain rfl := List.length_eq_zero_iff.1 hw.1
    have e : ∀ N, firstOk f ok N [] = [] := fun N => by unfold firstOk; simp
    rw [e, e]
    cases l with
    | nil => rw [List.length_eq_zero_iff.1 h.symm]
    | cons v l =>
      cases l' with
      | nil => cases h
      | cons v' l' => simp
  | succ n ih =>
    cases l with
    | nil =>
      obtain rfl := List.length_eq_zero_iff.1 h.symm
      rfl
    | cons v l =>
      cases l' with
      | nil => cases h
      | cons v' l' =>
        have key : ∀ (v : α) (l : List α), ok v → Nat.card {w : List Bytes // Blocks len (n + 1) w ∧ firstOk f ok (v :: l).length w = v :: l} =
            Nat.card {b : {b : Bytes // b.length = len} // f b.1 = v} * Nat.card {w : List Bytes // Blocks len n w ∧ firstOk f ok l.length w = l} +
            Nat.card {b : {b : Bytes // b.length = len} // ¬ok (f b.1)} * Nat.card {w : List Bytes // Blocks len n w ∧ firstOk f ok (v :: l).length w = v :: l} := by
          intro v l hv
          rw [card_words_succ]
          have : ∀ b : {b : Bytes // b.length = len}, Nat.card {w : List Bytes // Blocks len n w ∧ firstOk f ok (v :: l).length (b.1 :: w) = v :: l} =
              (if f b.1 = v then Nat.card {w : List Bytes // Blocks len n w ∧ firstOk f ok l.length w = l} else 0) +
              (if ¬ok (f b.1) then Nat.card {w : List Bytes // Blocks len n w ∧ firstOk f ok (v :: l).length w = v :: l} else 0) := by
            intro b
            by_cases hb : ok (f b.1)
            · rw [if_neg (not_not.2 hb), Nat.add_zero]
              by_cases e : f b.1 = v
              · rw [if_pos e]
                refine Nat.card_congr (Equiv.subtypeEquivRight fun w => and_congr_right fun hw => ?_)
                rw [List.length_cons, (firstOk_cons f ok l.length b.1 w).2 hb, e, List.cons.injEq]
                exact ⟨fun h => h.2, fun h => ⟨rfl, h⟩⟩
              · rw [if_neg e]
                have : IsEmpty {w : List Bytes // Blocks len n w ∧ firstOk f ok (v :: l).length (b.1 :: w) = v :: l} := by
                  refine ⟨fun ⟨w, _, h⟩ => e ?_⟩
                  rw [List.length_cons, (firstOk_cons f ok l.length b.1 w).2 hb, List.cons.injEq] at h
                  exact h.1
                exact Nat.card_of_isEmpty
            · rw [if_pos hb, if_neg (fun e : f b.1 = v => hb (e ▸ hv)), Nat.zero_add]
              refine Nat.card_congr (Equiv.subtypeEquivRight fun w => and_congr_right fun hw => ?_)
              rw [(firstOk_cons f ok _ b.1 w).1 hb]
          rw [Finset.sum_congr rfl fun b _ => this b, Finset.sum_add_distrib, ← Finset.sum_filter, ← Finset.sum_filter, Finset.sum_const, Finset.sum_const, smul_eq_mul, smul_eq_mul]
          congr 2
          · rw [Nat.card_eq_fintype_card, Fintype.card_subtype]
          · rw [Nat.card_eq_fintype_card, Fintype.card_subtype]
        have hv := hl v (List.mem_cons_self ..)
        have hv' := hl' v' (List.mem_cons_self ..)
        rw [key v l hv.2, key v' l' hv'.2, hfib v v' hv.1 hv'.1, ih l l' (fun x hx => hl x (List.mem_cons_of_mem _ hx)) (fun x hx => hl' x (List.mem_cons_of_mem _ hx)) (Nat.succ.inj h),
          ih (v :: l) (v' :: l') hl hl' h]

/-! Digits. -/

theorem leNat_digits (n N : Nat) : leNat ((List.range n).map fun i => BitVec.ofNat 8 (N / 256 ^ i)) = N % 256 ^ n := by
  induction n generalizing N with
  | zero => simp [leNat, Nat.mod_one]
  | succ n ih =>
    rw [List.range_succ_eq_map, List.map_cons, List.map_map]
    have : ((fun i => BitVec.ofNat 8 (N / 256 ^ i)) ∘ Nat.succ) = fun i => BitVec.ofNat 8 (N / 256 / 256 ^ i) := by
      funext i
      rw [Function.comp, Nat.succ_eq_add_one, pow_succ', Nat.div_div_eq_div_mul]
    rw [this]
    have ih := ih (N / 256)
    unfold leNat at ih ⊢
    rw [List.foldr_cons, ih, pow_zero, Nat.div_one, BitVec.toNat_ofNat, show (256 : Nat) ^ (n + 1) = 256 * 256 ^ n from pow_succ' 256 n, Nat.mod_mul]

theorem leNat_leDigits {n : Nat} {w : W64} (h : w.toNat < 256 ^ n) : leNat (leDigits n w) = w.toNat := by
  unfold leDigits
  rw [leNat_digits, Nat.mod_eq_of_lt h]

theorem leNat_inj {a b : Bytes} (hl : a.length = b.length) (h : leNat a = leNat b) : a = b := by
  induction a generalizing b with
  | nil => rw [List.length_eq_zero_iff.1 hl.symm]
  | cons x a ih =>
    cases b with
    | nil => cases hl
    | cons y b =>
      have h : x.toNat + 256 * leNat a = y.toNat + 256 * leNat b := h
      have hx := x.isLt
      have hy := y.isLt
      rw [BitVec.eq_of_toNat_eq (x := x) (y := y) (by omega), ih (Nat.succ.inj hl) (by omega)]

theorem ofNat_toNat_leNat {b : Bytes} (h : b.length ≤ 8) : (BitVec.ofNat 64 (leNat b)).toNat = leNat b := by
  rw [BitVec.toNat_ofNat, Nat.mod_eq_of_lt]
  have hl := leNat_lt b
  have : 256 ^ b.length ≤ 256 ^ 8 := Nat.pow_le_pow_right (by norm_num) h
  norm_num at *
  omega

theorem length_leDigits (n : Nat) (w : W64) : (leDigits n w).length = n := by simp [leDigits]

theorem blockElem_inj {len : Nat} (hlen : len ≤ 8) {b b' : Bytes} (hb : b.length = len) (hb' : b'.length = len) (h : blockElem b = blockElem b') : b = b' := by
  refine leNat_inj (by omega) ?_
  have h := congrArg BitVec.toNat h
  unfold blockElem at h
  rwa [ofNat_toNat_leNat (by omega), ofNat_toNat_leNat (by omega)] at h

theorem blockElem_leDigits {len : Nat} {v : W64} (h : Reduced len v) : blockElem (leDigits len v) = v := by
  unfold blockElem
  rw [leNat_leDigits (by unfold Reduced at h; rwa [show 256 = 2 ^ 8 by norm_num, ← pow_mul]), BitVec.ofNat_toNat, BitVec.setWidth_eq]

theorem reduced_blockElem {len : Nat} (hlen : len ≤ 8) {b : Bytes} (hb : b.length = len) : Reduced len (blockElem b) := by
  unfold Reduced blockElem
  rw [ofNat_toNat_leNat (by omega), pow_mul, ← hb]
  exact leNat_lt b

theorem fiber_elem {len : Nat} (hlen : len ≤ 8) (v : W64) (h : Reduced len v) : Nat.card {b : {b : Bytes // b.length = len} // blockElem b.1 = v} = 1 := by
  rw [Nat.card_eq_one_iff_unique]
  exact ⟨⟨fun x y => Subtype.ext (Subtype.ext (blockElem_inj hlen x.1.2 y.1.2 (x.2.trans y.2.symm)))⟩, ⟨⟨⟨leDigits len v, length_leDigits _ _⟩, blockElem_leDigits h⟩⟩⟩

theorem fiber_party {len c : Nat} (hlen : len ≤ 8) (hc : c ≤ 8 * len) (v v' : Nat) (hv : v < 2 ^ c) (hv' : v' < 2 ^ c) :
    Nat.card {b : {b : Bytes // b.length = len} // leNat b.1 % 2 ^ c = v} = Nat.card {b : {b : Bytes // b.length = len} // leNat b.1 % 2 ^ c = v'} := by
  have key : ∀ v v', v < 2 ^ c → v' < 2 ^ c → Nat.card {b : {b : Bytes // b.length = len} // leNat b.1 % 2 ^ c = v} ≤ Nat.card {b : {b : Bytes // b.length = len} // leNat b.1 % 2 ^ c = v'} := by
    intro v v' hv hv'
    have hpos : 0 < 2 ^ c := by positivity
    have hlt : ∀ b : Bytes, b.length = len → 2 ^ c * (leNat b / 2 ^ c) + v' < 256 ^ len := by
      intro b hb
      have h1 := leNat_lt b
      rw [hb] at h1
      obtain ⟨d, hd⟩ : 2 ^ c ∣ 256 ^ len := by
        rw [show 256 = 2 ^ 8 by norm_num, ← pow_mul]
        exact pow_dvd_pow 2 hc
      rw [hd] at h1 ⊢
      have h2 : leNat b / 2 ^ c < d := Nat.div_lt_of_lt_mul h1
      have h3 : 2 ^ c * (leNat b / 2 ^ c + 1) ≤ 2 ^ c * d := Nat.mul_le_mul_left _ h2
      rw [Nat.mul_succ] at h3
      omega
    have h64 : 256 ^ len ≤ 2 ^ 64 := by
      rw [show (2 : Nat) ^ 64 = 256 ^ 8 by norm_num]
      exact Nat.pow_le_pow_right (by norm_num) hlen
    have hval : ∀ b : Bytes, b.length = len → leNat (leDigits len (BitVec.ofNat 64 (2 ^ c * (leNat b / 2 ^ c) + v'))) = 2 ^ c * (leNat b / 2 ^ c) + v' := by
      intro b hb
      have h := hlt b hb
      have e : (BitVec.ofNat 64 (2 ^ c * (leNat b / 2 ^ c) + v')).toNat = 2 ^ c * (leNat b / 2 ^ c) + v' := by
        rw [BitVec.toNat_ofNat, Nat.mod_eq_of_lt (by omega)]
      rw [leNat_leDigits (by rw [e]; exact h), e]
    have := finite_block len
    refine Nat.card_le_card_of_injective (fun b => ⟨⟨leDigits len (BitVec.ofNat 64 (2 ^ c * (leNat b.1.1 / 2 ^ c) + v')), length_leDigits _ _⟩, ?_⟩) fun b b' h => ?_
    · rw [hval _ b.1.2, Nat.mul_add_mod, Nat.mod_eq_of_lt hv']
    · have h := congrArg (fun b : {b : {b : Bytes // b.length = len} // leNat b.1 % 2 ^ c = v'} => leNat b.1.1) h
      dsimp only at h
      rw [hval _ b.1.2, hval _ b'.1.2] at h
      refine Subtype.ext (Subtype.ext (leNat_inj (b.1.2.trans b'.1.2.symm) ?_))
      have h1 := Nat.div_add_mod (leNat b.1.1) (2 ^ c)
      have h2 := Nat.div_add_mod (leNat b'.1.1) (2 ^ c)
      rw [b.2] at h1
      rw [b'.2] at h2
      omega
  exact le_antisymm (key v v' hv hv') (key v' v hv' hv)

end Banquet
