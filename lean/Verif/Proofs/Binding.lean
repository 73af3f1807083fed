import Verif.Proofs.Verify
import Verif.Proofs.Shares

/-! What two accepted signatures with the same hashes have in common. -/

namespace Banquet

open Spec FieldOk

/-! ## The revealed seeds are determined by the leaves -/

theorem squeeze_split (s : Stream) (a b : Nat) : s.squeeze 0 (a + b) = s.squeeze 0 a ++ s.squeeze a b := by
  unfold Stream.squeeze
  rw [List.range_add, List.map_append, List.map_map]
  congr 1
  exact List.map_congr_left fun i _ => by simp

/-- The bytes hashed when node `i` is expanded. -/
def nodeInput (X : Xof) (salt : Bytes) (rep ss n h : Nat) (seeds : List Bytes) (i : Nat) : Bytes :=
  [1] ++ revealV X salt rep ss (revealedAt n h seeds) i ++ salt ++ le16 rep ++ le16 i

section
variable {e h : Nat} (he : 1 ≤ e) (he2 : e ≤ 29) (hh : h < 2 ^ e)
include he he2 hh

theorem revealV_binding (X : Xof) (salt : Bytes) (rep ss : Nat) (seeds seeds' : List Bytes) (hs : ∀ k < depth (2 ^ e), (seeds.getD k []).length = ss)
    (hs' : ∀ k < depth (2 ^ e), (seeds'.getD k []).length = ss)
    (hleaf : ∀ p < 2 ^ e, p ≠ h → revealV X salt rep ss (revealedAt (2 ^ e) h seeds) (leafNode (2 ^ e) p) = revealV X salt rep ss (revealedAt (2 ^ e) h seeds') (leafNode (2 ^ e) p))
    (hc : ∀ i, (X (kindOf (2 * ss)) (nodeInput X salt rep ss (2 ^ e) h seeds i)).squeeze 0 (2 * ss) = (X (kindOf (2 * ss)) (nodeInput X salt rep ss (2 ^ e) h seeds' i)).squeeze 0 (2 * ss) →
      nodeInput X salt rep ss (2 ^ e) h seeds i = nodeInput X salt rep ss (2 ^ e) h seeds' i)
    (d : Nat) : ∀ i, OffPath (2 ^ e) h i → i < 2 ^ (e + 1) - 1 → 2 ^ (e + 1) - 1 ≤ i + d →
      revealV X salt rep ss (revealedAt (2 ^ e) h seeds) i = revealV X salt rep ss (revealedAt (2 ^ e) h seeds') i := by
  have hn : 2 ≤ 2 ^ e := by
    calc 2 = 2 ^ 1 := rfl
      _ ≤ _ := Nat.pow_le_pow_right (by norm_num) he
  have hN : 2 ^ e ≤ 2 ^ 29 := Nat.pow_le_pow_right (by norm_num) he2
  have hd : depth (2 ^ e) = e := by unfold depth; exact Nat.clog_pow 2 e (by norm_num)
  have hp : 2 ^ (e + 1) = 2 * 2 ^ e := by rw [pow_succ]; ring
  induction d with
  | zero => intro i _ h1 h2; omega
  | succ d ih =>
    intro i hoff h1 h2
    by_cases hl : 2 ^ e - 1 ≤ i
    · have hi : i = leafNode (2 ^ e) (i - (2 ^ e - 1)) := by unfold leafNode; rw [hd]; omega
      rw [hi] at hoff ⊢
      refine hleaf _ (by omega) ((leaf_offPath hn hN hh _ (by omega)).1 hoff)
    · obtain ⟨o1, o2⟩ := offPath_closed i hoff
      have c1 := ih _ o1 (by omega) (by omega)
      have c2 := ih _ o2 (by omega) (by omega)
      have n1 := child_not_coPath hn hN hh i hoff _ (.inl rfl)
      have n2 := child_not_coPath hn hN hh i hoff _ (.inr rfl)
      rw [revealV, revealedAt_none _ _ n1, revealV, revealedAt_none _ _ n1] at c1
      rw [revealV, revealedAt_none _ _ n2, revealV, revealedAt_none _ _ n2] at c2
      dsimp only at c1 c2
      rw [show 2 * i / 2 = i by omega, if_pos (by omega), if_pos (by omega)] at c1
      rw [show (2 * i + 1) / 2 = i by omega, if_neg (by omega), if_neg (by omega)] at c2
      have := hc i (by
        rw [show 2 * ss = ss + ss by omega, squeeze_split, squeeze_split]
        rw [show 2 * ss = ss + ss by omega] at c1 c2
        exact congrArg₂ (· ++ ·) c1 c2)
      unfold nodeInput at this
      have l1 := revealV_length hn hN hh X salt rep ss seeds hs i hoff
      have l2 := revealV_length hn hN hh X salt rep ss seeds' hs' i hoff
      have t1 := (List.append_inj' (List.append_inj' (List.append_inj' this rfl).1 rfl).1 rfl).1
      exact (List.append_inj t1 rfl).2

/-- Equal opened leaves come from equal revealed seeds, unless the expansion of some node collides. -/
theorem reveal_binding (X : Xof) (salt : Bytes) (rep ss : Nat) (seeds seeds' : List Bytes) (hs : seeds.length = depth (2 ^ e) ∧ ∀ s ∈ seeds, s.length = ss)
    (hs' : seeds'.length = depth (2 ^ e) ∧ ∀ s ∈ seeds', s.length = ss)
    (hleaf : ∀ p < 2 ^ e, p ≠ h → revealV X salt rep ss (revealedAt (2 ^ e) h seeds) (leafNode (2 ^ e) p) = revealV X salt rep ss (revealedAt (2 ^ e) h seeds') (leafNode (2 ^ e) p))
    (hc : ∀ i, (X (kindOf (2 * ss)) (nodeInput X salt rep ss (2 ^ e) h seeds i)).squeeze 0 (2 * ss) = (X (kindOf (2 * ss)) (nodeInput X salt rep ss (2 ^ e) h seeds' i)).squeeze 0 (2 * ss) →
      nodeInput X salt rep ss (2 ^ e) h seeds i = nodeInput X salt rep ss (2 ^ e) h seeds' i) : seeds = seeds' := by
  have hn : 2 ≤ 2 ^ e := by
    calc 2 = 2 ^ 1 := rfl
      _ ≤ _ := Nat.pow_le_pow_right (by norm_num) he
  have hN : 2 ^ e ≤ 2 ^ 29 := Nat.pow_le_pow_right (by norm_num) he2
  have hd : depth (2 ^ e) = e := by unfold depth; exact Nat.clog_pow 2 e (by norm_num)
  have g : ∀ (l : List Bytes), (l.length = depth (2 ^ e) ∧ ∀ s ∈ l, s.length = ss) → ∀ k < depth (2 ^ e), (l.getD k []).length = ss := fun l hl k hk => by
    rw [getD_of_lt (by omega)]
    exact hl.2 _ (List.getElem_mem _)
  refine List.ext_getElem (hs.1.trans hs'.1.symm) fun k h1 h2 => ?_
  have hk : k < depth (2 ^ e) := by omega
  have hlev := sib_level hn hN hh k hk
  have := revealV_binding he he2 hh X salt rep ss seeds seeds' (g _ hs) (g _ hs') hleaf hc (2 ^ (e + 1) - 1) _ (coPath_offPath hn hN hh _ ⟨k, hk, rfl⟩) (by
    have : 2 ^ (depth (2 ^ e) - k + 1) ≤ 2 ^ (e + 1) := Nat.pow_le_pow_right (by norm_num) (by omega)
    omega) (by omega)
  rw [revealV_sib hn hN hh X salt rep ss seeds k hk, revealV_sib hn hN hh X salt rep ss seeds' k hk, getD_of_lt h1, getD_of_lt h2] at this
  exact this

end

/-! ## Accepted signatures -/

/-- Acceptance of a signature of the right shape. -/
theorem verify_iff {I : Instance} (hI : Consistent I) {F : FieldState} (hF : initExtensionField I.lambda = .ok F) (X : Xof) (fuel : Nat) (pk : Bytes) (hpk : 2 * I.ctSize ≤ pk.length) (sig : Signature)
    (hs : sig.shaped I = true) (msg : Bytes) : verify X fuel I pk sig msg = .ok true ↔
      ∃ Rs, phase2Expand X fuel F I (verH2 X F I sig) (F.firstN I.m2) = .ok Rs ∧ phase3Expand X fuel I sig.h3 = .ok (sig.proofs.map (·.reveal.missing)) ∧
        phase1Commit X I sig.salt pk msg (verReps1 X I (List.replicate I.seedSize 0) pk sig) = sig.h1 ∧
        phase3Commit X F I sig.salt (verH2 X F I sig) (verReps3 X F I (List.replicate I.seedSize 0) pk sig Rs) = sig.h3 ∧
        ∀ p ∈ sig.proofs, sumProducts F I p.sAtR p.tAtR = p.pAtR := by
  obtain ⟨hok, _, _⟩ := initExtensionField_ok hF
  unfold verify
  rw [hF, ok_bind, verifyWith_eq hI F X _ List.length_replicate fuel pk hpk sig hs msg]
  cases h2 : phase2Expand X fuel F I (verH2 X F I sig) (F.firstN I.m2) with
  | error e => exact ⟨fun h => (by cases h), fun ⟨_, h, _⟩ => by cases h⟩
  | ok Rs =>
    cases h3 : phase3Expand X fuel I sig.h3 with
    | error e => exact ⟨fun h => (by cases h), fun ⟨_, _, h, _⟩ => by cases h⟩
    | ok ms =>
      change (if ms = _ then Except.ok _ else Except.error _) = _ ↔ _
      by_cases hm : ms = sig.proofs.map (·.reveal.missing)
      · rw [if_pos hm]
        simp only [Except.ok.injEq, Bool.and_eq_true, decide_eq_true_eq, List.all_eq_true, and_assoc, exists_eq_left', hm, true_and]
      · rw [if_neg hm]
        refine ⟨fun h => (by cases h), fun ⟨_, _, h, _⟩ => ?_⟩
        exact absurd (by simpa using h) hm

/-- What the verifier hashes in phase 3 has the right sizes. -/
theorem verHash3_sized {F : FieldState} [hF : FieldOk F] {I : Instance} (c : Ctx) (pt : Bytes) (rs : List W64) (R : W64) (m k : Nat) (pr : Proof) (hb : F.byteSize = I.lambda) (wf : ProofWF I k pr) :
    (c.verHash3 F I pt rs R pr m).Sized F I := by
  have r1 := wf.pAtR
  have r2 := wf.sAtR
  have r3 := wf.tAtR
  rw [← hb] at r1 r2 r3
  have ra := AllRed.getD (F := F) r2.2
  have rb := AllRed.getD (F := F) r3.2
  refine ⟨r1, ⟨by simp [Ctx.verHash3], ?_⟩, r2, r3, ⟨by simp [Ctx.verHash3], ?_⟩, ⟨by simp [Ctx.verHash3], ?_⟩⟩
  · intro x hx
    obtain ⟨p, _, rfl⟩ := List.mem_map.1 hx
    split
    · exact reduced_sum _ _ _ r1 fun p _ => reduced_dotV _ _
    · exact reduced_dotV _ _
  · intro l hl
    obtain ⟨p, _, rfl⟩ := List.mem_map.1 hl
    refine ⟨by simp, fun x hx => ?_⟩
    obtain ⟨j, _, rfl⟩ := List.mem_map.1 hx
    split
    · exact reduced_sum _ _ _ (ra j) fun p _ => reduced_dotV _ _
    · exact reduced_dotV _ _
  · intro l hl
    obtain ⟨p, _, rfl⟩ := List.mem_map.1 hl
    refine ⟨by simp, fun x hx => ?_⟩
    obtain ⟨j, _, rfl⟩ := List.mem_map.1 hx
    split
    · exact reduced_sum _ _ _ (rb j) fun p _ => reduced_dotV _ _
    · exact reduced_dotV _ _

theorem Spec.SigWF.get {I : Instance} {ms : List Nat} {sig : Signature} (wf : SigWF I ms sig) (e : Nat) (he : e < sig.proofs.length) : ProofWF I (ms.getD e 0) (sig.proofs.getD e noProof) := by
  have hl := wf.proofs.length_eq
  rw [getD_of_lt he, getD_of_lt (by omega)]
  exact (List.forall₂_iff_get.1 wf.proofs).2 e (by omega) he

/-! ## Signatures differing in deltas that are not used -/

/-- `s'` differs from `s` only in last deltas of repetitions where party 0 is hidden. -/
structure LastFree (I : Instance) (s s' : Signature) : Prop where
  salt : s'.salt = s.salt
  h1 : s'.h1 = s.h1
  h3 : s'.h3 = s.h3
  len : s'.proofs.length = s.proofs.length
  rep : ∀ i < s.proofs.length, ∃ d : List W64, s'.proofs.getD i noProof = { s.proofs.getD i noProof with pDelta := d } ∧ d.length = (s.proofs.getD i noProof).pDelta.length ∧
    (∀ k < I.m2, d.getD k 0 = (s.proofs.getD i noProof).pDelta.getD k 0) ∧ ((s.proofs.getD i noProof).reveal.missing = 0 ∨ d = (s.proofs.getD i noProof).pDelta)

theorem eq_map_getD {α β : Type} (l : List α) (d : α) (f : α → β) : l.map f = (List.range l.length).map fun i => f (l.getD i d) := by
  refine List.ext_getElem (by simp) fun i h1 h2 => ?_
  rw [List.getElem_map, List.getElem_map, List.getElem_range, getD_of_lt (by simpa using h1)]

section
variable {I : Instance} {s s' : Signature} (h : LastFree I s s')
include h

theorem LastFree.map_eq {β : Type} (f : Proof → β) (hf : ∀ p d, f { p with pDelta := d } = f p) : s'.proofs.map f = s.proofs.map f := by
  rw [eq_map_getD _ noProof, eq_map_getD _ noProof, h.len]
  refine List.map_congr_left fun i hi => ?_
  obtain ⟨d, hd, _⟩ := h.rep i (List.mem_range.1 hi)
  rw [hd, hf]

theorem LastFree.input2 (F : FieldState) : phase2Input F I s'.salt s'.h1 (s'.proofs.map (·.pDelta)) = phase2Input F I s.salt s.h1 (s.proofs.map (·.pDelta)) := by
  unfold phase2Input
  rw [h.salt, h.h1, eq_map_getD _ noProof, eq_map_getD s.proofs noProof, h.len, List.flatMap_map, List.flatMap_map]
  congr 1
  refine List.flatMap_congr fun i hi => List.flatMap_congr fun k hk => ?_
  obtain ⟨d, hd, _, hk', _⟩ := h.rep i (List.mem_range.1 hi)
  rw [hd]
  dsimp only
  rw [hk' k (List.mem_range.1 hk)]

theorem LastFree.verH2 (X : Xof) (F : FieldState) : verH2 X F I s' = verH2 X F I s := by
  unfold Banquet.verH2 phase2Commit
  rw [h.input2 F]

theorem LastFree.shaped (hs : s.shaped I = true) : s'.shaped I = true := by
  unfold Signature.shaped at hs ⊢
  rw [h.salt, h.h1, h.h3, h.len]
  simp only [Bool.and_eq_true, List.all_eq_true] at hs ⊢
  refine ⟨hs.1, fun p hp => ?_⟩
  obtain ⟨i, hi, rfl⟩ := List.getElem_of_mem hp
  rw [h.len] at hi
  obtain ⟨d, hd, hl, _⟩ := h.rep i hi
  rw [← getD_of_lt (d := noProof), hd]
  have := hs.2 _ (List.getElem_mem hi)
  rw [← getD_of_lt hi (d := noProof)] at this
  unfold Proof.shaped at this ⊢
  dsimp only
  rwa [hl]

theorem LastFree.verReps1 (X : Xof) (dummy pk : Bytes) (hl : s.proofs.length = I.numRounds) : verReps1 X I dummy pk s' = verReps1 X I dummy pk s := by
  unfold Banquet.verReps1
  refine List.map_congr_left fun i hi => ?_
  obtain ⟨d, hd, _⟩ := h.rep i (hl ▸ List.mem_range.1 hi)
  rw [hd, h.salt]
  rfl

theorem LastFree.verReps3 (X : Xof) (F : FieldState) (dummy pk : Bytes) (hl : s.proofs.length = I.numRounds) (Rs : List W64) : verReps3 X F I dummy pk s' Rs = verReps3 X F I dummy pk s Rs := by
  unfold Banquet.verReps3
  refine List.map_congr_left fun i hi => ?_
  obtain ⟨d, hd, _, _, hz⟩ := h.rep i (hl ▸ List.mem_range.1 hi)
  rw [hd, h.salt, h.h1]
  generalize s.proofs.getD i noProof = pr at *
  dsimp only
  rcases hz with hz | rfl
  swap
  · rfl
  have hpc : ∀ p, p ≠ 0 → Ctx.pc F I (verCtx X I dummy s.salt i { pr with pDelta := d }) ((phase1Expand X F I s.h1).getD i []) (Rs.getD i 0) p =
      Ctx.pc F I (verCtx X I dummy s.salt i pr) ((phase1Expand X F I s.h1).getD i []) (Rs.getD i 0) p := fun p hp => by
    unfold Ctx.pc Ctx.pPts
    rw [if_neg hp, if_neg hp]
    rfl
  unfold Ctx.verHash3
  rw [Rep3.mk.injEq]
  refine ⟨rfl, ?_, rfl, rfl, rfl, rfl⟩
  apply List.map_congr_left
  intro p hpN
  rw [hz]
  split
  · refine foldl_congr_mem _ _ _ (fun acc q hq => ?_) _
    rw [hpc q (filter_lt hq).2]
  · rename_i hp
    exact hpc p hp

/-- Such signatures are both accepted or both not. -/
theorem LastFree.verify (hI : Consistent I) (X : Xof) (fuel : Nat) (pk : Bytes) (hpk : 2 * I.ctSize ≤ pk.length) (hs : s.shaped I = true) (msg : Bytes) (hv : verify X fuel I pk s msg = .ok true) :
    Banquet.verify X fuel I pk s' msg = .ok true := by
  cases hF : initExtensionField I.lambda with
  | error e => unfold Banquet.verify at hv; rw [hF] at hv; cases hv
  | ok F =>
  obtain ⟨_, _, _, hl, _⟩ := shaped_facts hs
  rw [verify_iff hI hF X fuel pk hpk s hs msg] at hv
  rw [verify_iff hI hF X fuel pk hpk s' (h.shaped hs) msg]
  obtain ⟨Rs, v1, v2, v3, v4, v5⟩ := hv
  refine ⟨Rs, by rw [h.verH2]; exact v1, ?_, ?_, ?_, ?_⟩
  · rw [h.h3, h.map_eq _ fun _ _ => rfl]; exact v2
  · rw [h.salt, h.h1, h.verReps1 X _ _ hl]; exact v3
  · rw [h.salt, h.h3, h.verH2, h.verReps3 X F _ _ hl]; exact v4
  · have := h.map_eq (fun p => sumProducts F I p.sAtR p.tAtR = p.pAtR) fun _ _ => rfl
    intro p hp
    have hm : (sumProducts F I p.sAtR p.tAtR = p.pAtR) ∈ s'.proofs.map fun p => sumProducts F I p.sAtR p.tAtR = p.pAtR := List.mem_map.2 ⟨p, hp, rfl⟩
    rw [this] at hm
    obtain ⟨q, hq, he⟩ := List.mem_map.1 hm
    rw [← he]
    exact v5 q hq
end

/-- The signature with the last delta of repetition `e` replaced by `x`. -/
def setLast (I : Instance) (s : Signature) (e : Nat) (x : W64) : Signature :=
  { s with proofs := s.proofs.set e { s.proofs.getD e noProof with pDelta := (s.proofs.getD e noProof).pDelta.set I.m2 x } }

theorem setLast_free (I : Instance) (s : Signature) (e : Nat) (x : W64) (hm : (s.proofs.getD e noProof).reveal.missing = 0) : LastFree I s (setLast I s e x) := by
  refine ⟨rfl, rfl, rfl, by simp [setLast], fun i hi => ?_⟩
  unfold setLast
  dsimp only
  by_cases he : e = i
  · subst he
    refine ⟨(s.proofs.getD e noProof).pDelta.set I.m2 x, ?_, by simp, fun k hk => ?_, .inl hm⟩
    · rw [getD_of_lt (by simpa using hi), List.getElem_set_self]
    · simp [List.getD_eq_getElem?_getD, show I.m2 ≠ k by omega]
  · refine ⟨(s.proofs.getD i noProof).pDelta, ?_, rfl, fun _ _ => rfl, .inr rfl⟩
    rw [getD_of_lt (by simpa using hi), List.getElem_set_ne he, getD_of_lt hi]

theorem setLast_wf (I : Instance) (s : Signature) (e : Nat) (x : W64) (hx : Reduced I.lambda x) (he : e < s.proofs.length) (ms : List Nat) (wf : SigWF I ms s) : SigWF I ms (setLast I s e x) := by
  refine ⟨wf.salt, wf.h1, wf.h3, ?_⟩
  have hp := List.forall₂_iff_get.1 wf.proofs
  refine List.forall₂_iff_get.2 ⟨by simpa [setLast] using hp.1, fun i h1 h2 => ?_⟩
  have h2' : i < s.proofs.length := by simpa [setLast] using h2
  have g := hp.2 i h1 h2'
  simp only [List.get_eq_getElem, setLast] at g ⊢
  rw [List.getElem_set]
  split
  · rename_i h
    subst h
    rw [getD_of_lt he]
    refine ⟨g.missing, g.seeds, g.cE, g.skDelta, g.tDelta, ⟨by simpa using g.pDelta.1, fun y hy => ?_⟩, g.pAtR, g.sAtR, g.tAtR⟩
    rcases List.mem_or_eq_of_mem_set hy with hy | rfl
    · exact g.pDelta.2 y hy
    · exact hx
  · exact g

end Banquet
