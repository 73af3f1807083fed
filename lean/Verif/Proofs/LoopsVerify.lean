import Verif.Proofs.LoopsSignAll

/-! Closed forms of the first two loops of `banquet_verify` (Model/Loops.lean). -/

namespace Banquet.Loops

open Spec

variable {α : Type}

theorem rowUpd_skip (f : Nat → Nat → List α) (e n : Nat) (g : Nat → List α) (h : g n = f e n) : rowUpd f e (n + 1) g = rowUpd f e n g := by
  funext e' p'
  unfold rowUpd
  split_ifs with h1 h2 h2
  · rfl
  · obtain ⟨rfl, hp⟩ := h1
    have : p' = n := by omega
    rw [this, h]
  · omega
  · rfl

theorem rowUpd_congr (f : Nat → Nat → List α) (e n : Nat) (g g' : Nat → List α) (h : ∀ p < n, g p = g' p) : rowUpd f e n g = rowUpd f e n g' := by
  funext e' p'
  unfold rowUpd
  split_ifs with h1
  · exact h _ h1.2
  · rfl

theorem upd_rowUpd (f : Nat → Nat → List α) (e n m : Nat) (hm : m < n) (g : Nat → List α) (v : List α) : upd (rowUpd f e n g) e m v = rowUpd f e n fun p => if p = m then v else g p := by
  funext e' p'
  unfold upd rowUpd
  dsimp only
  by_cases h : e' = e ∧ p' = m
  · rw [if_pos h, if_pos (by omega), if_pos h.2]
  · rw [if_neg h]
    split_ifs with h1 h2
    · exact absurd ⟨h1.1, h2⟩ h
    · rfl
    · rfl

/-- A proof of the signature. -/
abbrev prf (sig : Signature) (e : Nat) : Proof := sig.proofs.getD e noProof

theorem laneTape_eq (X : Xof) (I : Instance) {n : Nat} {seed : Bytes} (salt : Bytes) (e p : Nat) (h : seed.length = n) : genTapeLane X I.tapeSize n seed salt e p = genTape X I.tapeSize seed salt e p := by
  unfold genTapeLane genTape tapeStream
  rw [List.take_of_length_le h.le, h]

/-- One repetition of banquet.cpp:826-882. -/
theorem verTree_ok {I : Instance} (hI : Consistent I) (X : Xof) {dummy : Bytes} (hd : dummy.length = I.seedSize) {sig : Signature} (hs : sig.shaped I = true) {missing : List Nat} (hml : missing.length = I.numRounds)
    {e : Nat} (he : e < I.numRounds) (hm : missing.getD e 0 = (prf sig e).reveal.missing) (hlt : missing.getD e 0 < I.numParties) {t : SeedTree}
    (ht : SeedTree.ofReveal X (prf sig e).reveal I.numParties sig.salt e = .ok t)
    (hl : ∀ p < I.numParties, t.getLeaf p = if p = (prf sig e).reveal.missing then none else some (openedSeed X I sig.salt e (prf sig e).reveal p)) (tree : Nat → SeedTree) (htree : tree e = t)
    (f g : Nat → Nat → Bytes) :
    verTree X dummy I sig missing e ⟨(List.range e).map tree, of I.numRounds I.numParties I.digestSize 0 f, of I.numRounds I.numParties I.tapeSize 0 g⟩ =
      .ok ⟨(List.range (e + 1)).map tree, of I.numRounds I.numParties I.digestSize 0 (rowUpd f e I.numParties fun p => if p = (prf sig e).reveal.missing then (prf sig e).cE else
          commitSingle X I (openedSeed X I sig.salt e (prf sig e).reveal p) sig.salt e p),
        of I.numRounds I.numParties I.tapeSize 0 (rowUpd g e I.numParties (verCtx X I dummy sig.salt e (prf sig e)).tape)⟩ := by
  obtain ⟨-, -, -, hs4, hs5⟩ := shaped_facts hs
  obtain ⟨b1, b2, -, -⟩ := parties_bounds hI
  have hseeds := shaped_seeds (hs5 e he)
  have hcE : (prf sig e).cE.length = I.digestSize := by
    have h := hs5 e he
    unfold Proof.shaped at h
    simp only [Bool.and_eq_true, decide_eq_true_eq] at h
    tauto
  rw [hm] at hlt
  have hlen := openedSeed_length hI X sig.salt e hseeds hlt
  set m := (prf sig e).reveal.missing with hmdef
  have hrd : rd ((List.range e).map tree ++ [t]) e = .ok t := by rw [← htree, ← range_map_succ, rd_map _ _ (by omega)]
  have hleaf : ∀ p < I.numParties, leafOr t p dummy = if p = m then dummy else openedSeed X I sig.salt e (prf sig e).reveal p := by
    intro p hp
    unfold leafOr
    rw [hl p hp]
    split <;> rfl
  have hleafl : ∀ p < I.numParties, (leafOr t p dummy).length = I.seedSize := by
    intro p hp
    rw [hleaf p hp]
    split
    · exact hd
    · exact hlen p hp (by assumption)
  -- what the loops leave in slot `m`
  let G : Nat → Bytes := fun p => if p = m ∧ I.numParties / 4 * 4 ≤ p then f e p else commitSingle X I (leafOr t p dummy) sig.salt e p
  unfold verTree
  dsimp only
  rw [rd_getD noProof (by omega), ok_bind, rd_getD 0 (by omega), ok_bind, hm, decide_eq_true hmdef, require_true, ok_bind, ht, ok_bind, forStep_four,
    forTo_fill4 (g := fun p => commitSingle X I (leafOr t p dummy) sig.salt e p) I.numParties le_rfl _ he (fun p _ => squeeze_len _ _ _) _ (fun i hi c => by
      have h0 := hleafl (4 * i) (by omega)
      have h1 := hleafl (4 * i + 1) (by omega)
      have h2 := hleafl (4 * i + 2) (by omega)
      have h3 := hleafl (4 * i + 3) (by omega)
      rw [hrd, ok_bind]
      unfold commit4
      rw [decide_eq_true ⟨h0.ge, h1.ge, h2.ge, h3.ge⟩, require_true, ok_bind, com_eq X I _ _ _ _ h0, com_eq X I _ _ _ _ h1, com_eq X I _ _ _ _ h2, com_eq X I _ _ _ _ h3]), ok_bind, forStep_one,
    rowUpd_congr _ _ _ _ G (fun p hp => by
      change _ = if p = m ∧ I.numParties / 4 * 4 ≤ p then f e p else commitSingle X I (leafOr t p dummy) sig.salt e p
      rw [if_neg (by omega)]),
    forTo_state _ _ _ (fun i => of I.numRounds I.numParties I.digestSize 0 (rowUpd f e (I.numParties / 4 * 4 + i) G)) (by rw [Nat.add_zero]) (fun i hi => by
      by_cases hp : I.numParties / 4 * 4 + i = m
      · rw [if_neg (fun h => h hp), ← Nat.add_assoc, rowUpd_skip]
        change (if _ then _ else _) = _
        rw [if_pos ⟨hp, by omega⟩]
      · have hv : leafValue t (I.numParties / 4 * 4 + i) = .ok (leafOr t (I.numParties / 4 * 4 + i) dummy) := by
          unfold leafValue leafOr
          rw [hl _ (by omega), if_neg hp]
          rfl
        have hG : G (I.numParties / 4 * 4 + i) = commitSingle X I (leafOr t (I.numParties / 4 * 4 + i) dummy) sig.salt e (I.numParties / 4 * 4 + i) := by
          change (if _ then _ else _) = _
          rw [if_neg (fun h => hp h.1)]
        rw [if_pos hp, hrd, ok_bind, hv, ok_bind, ← hG, fill_of he (by omega) (by rw [hG]; exact squeeze_len _ _ _), rowUpd_succ, Nat.add_assoc]), ok_bind,
    show I.numParties / 4 * 4 + (I.numParties - I.numParties / 4 * 4) = I.numParties by omega, fill_of he hlt hcE, ok_bind, upd_rowUpd _ _ _ _ hlt, forStep_four,
    forTo_fill4 (g := (verCtx X I dummy sig.salt e (prf sig e)).tape) I.numParties le_rfl _ he (fun p _ => squeeze_len _ _ _) _ (fun i hi c => by
      have h0 := hleafl (4 * i) (by omega)
      have h1 := hleafl (4 * i + 1) (by omega)
      have h2 := hleafl (4 * i + 2) (by omega)
      have h3 := hleafl (4 * i + 3) (by omega)
      have ht : ∀ p < I.numParties, genTape X I.tapeSize (leafOr t p dummy) sig.salt e p = (verCtx X I dummy sig.salt e (prf sig e)).tape p := fun p hp => by rw [hleaf p hp]; rfl
      rw [hrd, ok_bind]
      unfold tapes4
      rw [decide_eq_true ⟨(h0.trans h1.symm).le, (h0.trans h2.symm).le, (h0.trans h3.symm).le⟩, require_true, ok_bind, Nat.mod_eq_of_lt (by omega), Nat.mod_eq_of_lt (by omega), Nat.mod_eq_of_lt (by omega),
        Nat.mod_eq_of_lt (by omega), laneTape_eq X I _ _ _ rfl, laneTape_eq X I _ _ _ (h1.trans h0.symm), laneTape_eq X I _ _ _ (h2.trans h0.symm), laneTape_eq X I _ _ _ (h3.trans h0.symm),
        ht _ (by omega), ht _ (by omega), ht _ (by omega), ht _ (by omega)]), ok_bind, forStep_one,
    forTo_fillRest (g := (verCtx X I dummy sig.salt e (prf sig e)).tape) _ I.numParties le_rfl (by omega) _ he (fun p _ => squeeze_len _ _ _) _ (fun i hi c => by
      rw [hrd, ok_bind, hleaf _ (by omega)]
      rfl), ok_bind, range_map_succ, htree]
  congr 2
  refine congrArg _ (rowUpd_congr _ _ _ _ _ fun p hp => ?_)
  by_cases hpm : p = m
  · rw [if_pos hpm, if_pos hpm]
  · rw [if_neg hpm, if_neg hpm]
    change (if _ then _ else _) = _
    rw [if_neg (fun h => hpm h.1), hleaf p hp, if_neg hpm]

/-- Another hidden party than the one the hash selects. -/
theorem verTree_thrown {I : Instance} (X : Xof) (dummy : Bytes) {sig : Signature} (hs : sig.shaped I = true) {missing : List Nat} (hml : missing.length = I.numRounds)
    {e : Nat} (he : e < I.numRounds) (hm : missing.getD e 0 ≠ (prf sig e).reveal.missing) (st : Trees) : verTree X dummy I sig missing e st = .error .thrown := by
  obtain ⟨-, -, -, hs4, -⟩ := shaped_facts hs
  unfold verTree
  rw [rd_getD noProof (by omega), ok_bind, rd_getD 0 (by omega), ok_bind, decide_eq_false hm]
  rfl

/-- The loop of banquet.cpp:826-882. -/
theorem verTrees_ok {I : Instance} (hI : Consistent I) (X : Xof) {dummy : Bytes} (hd : dummy.length = I.seedSize) {sig : Signature} (hs : sig.shaped I = true) {missing : List Nat} (hml : missing.length = I.numRounds)
    (hlt : ∀ e < I.numRounds, missing.getD e 0 < I.numParties) :
    if missing = sig.proofs.map (·.reveal.missing) then ∃ trees,
      forTo I.numRounds (verTree X dummy I sig missing) ⟨[], .mk' 0 I.numRounds I.numParties I.digestSize, .mk' 0 I.numRounds I.numParties I.tapeSize⟩ =
        .ok ⟨trees, of I.numRounds I.numParties I.digestSize 0 fun e p => if p = (prf sig e).reveal.missing then (prf sig e).cE else commitSingle X I (openedSeed X I sig.salt e (prf sig e).reveal p) sig.salt e p,
          of I.numRounds I.numParties I.tapeSize 0 fun e p => (verCtx X I dummy sig.salt e (prf sig e)).tape p⟩
    else forTo I.numRounds (verTree X dummy I sig missing) ⟨[], .mk' 0 I.numRounds I.numParties I.digestSize, .mk' 0 I.numRounds I.numParties I.tapeSize⟩ = .error .thrown := by
  obtain ⟨-, -, -, hs4, hs5⟩ := shaped_facts hs
  have hex : ∀ e, ∃ t, e < I.numRounds → missing.getD e 0 = (prf sig e).reveal.missing → SeedTree.ofReveal X (prf sig e).reveal I.numParties sig.salt e = .ok t ∧
      ∀ p < I.numParties, t.getLeaf p = if p = (prf sig e).reveal.missing then none else some (openedSeed X I sig.salt e (prf sig e).reveal p) := by
    intro e
    by_cases h : e < I.numRounds ∧ missing.getD e 0 = (prf sig e).reveal.missing
    · obtain ⟨t, h1, h2⟩ := ofReveal_leaves hI X sig.salt e (shaped_seeds (hs5 e h.1)) (by rw [← h.2]; exact hlt e h.1)
      exact ⟨t, fun _ _ => ⟨h1, h2⟩⟩
    · exact ⟨⟨[], [], [], 0, 0, 0⟩, fun h1 h2 => absurd ⟨h1, h2⟩ h⟩
  choose tree htree using hex
  let A : Nat → Nat → Bytes := fun e p => if p = (prf sig e).reveal.missing then (prf sig e).cE else commitSingle X I (openedSeed X I sig.salt e (prf sig e).reveal p) sig.salt e p
  let B : Nat → Nat → Bytes := fun e p => (verCtx X I dummy sig.salt e (prf sig e)).tape p
  let S : Nat → Trees := fun e => ⟨(List.range e).map tree, of I.numRounds I.numParties I.digestSize 0 (below (fun _ _ => []) e A), of I.numRounds I.numParties I.tapeSize 0 (below (fun _ _ => []) e B)⟩
  have h0 : (⟨[], .mk' 0 I.numRounds I.numParties I.digestSize, .mk' 0 I.numRounds I.numParties I.tapeSize⟩ : Trees) = S 0 := by
    change _ = (⟨_, _, _⟩ : Trees)
    rw [below_zero, below_zero, mk_of, mk_of]
    rfl
  have hstep : ∀ e < I.numRounds, missing.getD e 0 = (prf sig e).reveal.missing → verTree X dummy I sig missing e (S e) = .ok (S (e + 1)) := by
    intro e he hm
    obtain ⟨h1, h2⟩ := htree e he hm
    refine (verTree_ok hI X hd hs hml he hm (hlt e he) h1 h2 tree rfl _ _).trans ?_
    rw [of_below_succ _ A e, of_below_succ _ B e]
  split_ifs with hmiss
  · refine ⟨(List.range I.numRounds).map tree, (forTo_state _ _ _ S h0 fun e he => hstep e he ?_).trans ?_⟩
    · rw [hmiss, getD_of_lt (by rw [List.length_map]; omega), List.getElem_map, prf, getD_of_lt (by omega)]
    · change Except.ok (⟨_, _, _⟩ : Trees) = _
      rw [of_below_full, of_below_full]
  · have hk : ∃ k, k < I.numRounds ∧ missing.getD k 0 ≠ (prf sig k).reveal.missing := by
      by_contra hc
      push Not at hc
      refine hmiss (ext_getD 0 hml (by rw [List.length_map, hs4]) fun e he => ?_)
      rw [hc e he, getD_of_lt (l := List.map _ _) (by rw [List.length_map]; omega), List.getElem_map, prf, getD_of_lt (by omega)]
    classical
    have hs := Nat.find_spec hk
    refine forTo_stop _ _ _ S (Nat.find hk) hs.1 .thrown h0 (fun i hi => hstep i (by omega) ?_) (verTree_thrown X dummy ‹_› hml hs.1 hs.2 _)
    by_contra hc
    exact Nat.find_min hk hi ⟨by omega, hc⟩

/-! ## Shares -/

/-- Accumulation over the other parties. -/
def others {β : Type} (g : β → Nat → β) (m : Nat) (x : β) (n : Nat) : β := ((List.range n).filter (· ≠ m)).foldl g x

theorem others_zero {β : Type} (g : β → Nat → β) (m : Nat) (x : β) : others g m x 0 = x := rfl

theorem others_skip {β : Type} (g : β → Nat → β) (m : Nat) (x : β) : others g m x (m + 1) = others g m x m := by
  unfold others
  rw [List.range_succ, List.filter_append]
  simp

theorem others_succ {β : Type} (g : β → Nat → β) {m n : Nat} (x : β) (h : n ≠ m) : others g m x (n + 1) = g (others g m x n) n := by
  unfold others
  rw [List.range_succ, List.filter_append, List.foldl_append]
  simp [h]

theorem others_xor_length {k m n : Nat} (b : Nat → Bytes) (hb : ∀ p < n, (b p).length = k) (x : Bytes) (hx : x.length = k) : (others (fun acc p => xorBytes (b p) acc) m x n).length = k := by
  induction n with
  | zero => exact hx
  | succ n ih =>
    have := ih fun p hp => hb p (by omega)
    by_cases h : n = m
    · subst h
      rw [others_skip]
      exact this
    · rw [others_succ _ _ h, length_xorBytes, this, hb n (by omega), Nat.min_self]

/-- Sharing of one value. -/
theorem verShare_ok {I : Instance} (hN : 0 < I.numParties) {T e start len : Nat} (he : e < T) (tape : Nat → Nat → Bytes) (ht : ∀ p < I.numParties, (tape e p).length = I.tapeSize) (h : start + len ≤ I.tapeSize)
    {d : Bytes} (hd : d.length = len) (f : Nat → Nat → Bytes) :
    verShare I (of T I.numParties I.tapeSize 0 tape) start len e d (of T I.numParties len 0 f) =
      .ok (of T I.numParties len 0 (rowUpd f e I.numParties fun p => if p = 0 then xorBytes d (tapeBytes (tape e p) start len) else tapeBytes (tape e p) start len)) := by
  have hl : ∀ p < I.numParties, (tapeBytes (tape e p) start len).length = len := fun p hp => tapeBytes_len (ht p hp) h
  unfold verShare
  rw [forTo_fill (g := fun p => tapeBytes (tape e p) start len) I.numParties le_rfl _ he hl _ (fun p hp c => by rw [getBytes_of he hp (ht p hp) h, ok_bind]), ok_bind, fix_row hN f he _ hl hd]

/-- The loop of banquet.cpp:897-959. -/
theorem verSharesAll_ok {I : Instance} (hI : Consistent I) (pt ct : Bytes) (hpt : I.ctSize ≤ pt.length) (hct : ct.length = I.ctSize) (sig : Signature) (hsl : sig.proofs.length = I.numRounds) {missing : List Nat} (hml : missing.length = I.numRounds)
    (hlt : ∀ e < I.numRounds, missing.getD e 0 < I.numParties) (c : Nat → Ctx) (hc : ∀ e < I.numRounds, ∀ p < I.numParties, ((c e).tape p).length = I.tapeSize)
    (hk : ∀ e < I.numRounds, (prf sig e).skDelta = (c e).skDelta ∧ (c e).skDelta.length = I.aes.keySize) (hd : ∀ e < I.numRounds, (prf sig e).tDelta = (c e).tDelta ∧ (c e).tDelta.length = I.aes.numSboxes) :
    forTo I.numRounds (verShares I pt ct sig missing (of I.numRounds I.numParties I.tapeSize 0 fun e p => (c e).tape p))
      ⟨.mk' 0 I.numRounds I.numParties I.aes.keySize, .mk' 0 I.numRounds I.numParties I.aes.numSboxes, .mk' 0 I.numRounds I.numParties I.aes.numSboxes, .mk' 0 I.numRounds I.numParties I.ctSize⟩ =
      .ok ⟨of I.numRounds I.numParties I.aes.keySize 0 fun e p => (c e).key I p, of I.numRounds I.numParties I.aes.numSboxes 0 fun e p => ((c e).out I pt p).1,
        of I.numRounds I.numParties I.aes.numSboxes 0 fun e p => (c e).t I p,
        of I.numRounds I.numParties I.ctSize 0 fun e p => if p = missing.getD e 0 then (c e).ctMissing I pt ct (missing.getD e 0) else ((c e).out I pt p).2⟩ := by
  have hN : 0 < I.numParties := by have := (parties_bounds hI).1; omega
  have t1 : 0 + I.aes.keySize ≤ I.tapeSize := by unfold Instance.tapeSize; omega
  have t2 : I.aes.keySize + I.aes.numSboxes ≤ I.tapeSize := by unfold Instance.tapeSize; omega
  let z : Nat → Nat → Bytes := fun _ _ => []
  let Q : Nat → Nat → Bytes := fun e p => if p = missing.getD e 0 then (c e).ctMissing I pt ct (missing.getD e 0) else ((c e).out I pt p).2
  refine (forTo_state _ _ _ (fun e => ⟨of I.numRounds I.numParties I.aes.keySize 0 (below z e fun e p => (c e).key I p), of I.numRounds I.numParties I.aes.numSboxes 0 (below z e fun e p => ((c e).out I pt p).1),
        of I.numRounds I.numParties I.aes.numSboxes 0 (below z e fun e p => (c e).t I p), of I.numRounds I.numParties I.ctSize 0 (below z e Q)⟩)
        (by rw [below_zero, below_zero, below_zero, below_zero, mk_of, mk_of, mk_of]) fun e he => ?_).trans
    (by rw [of_below_full, of_below_full, of_below_full, of_below_full])
  have hkl : ∀ p < I.numParties, ((c e).key I p).length = I.aes.keySize := by
    intro p hp
    have h1 := tapeBytes_len (hc e he p hp) t1
    unfold Ctx.key
    split
    · rw [length_xorBytes, h1, (hk e he).2, Nat.min_self]
    · exact h1
  have htl : ∀ p < I.numParties, ((c e).t I p).length = I.aes.numSboxes := by
    intro p hp
    have h1 := tapeBytes_len (hc e he p hp) t2
    unfold Ctx.t
    split
    · rw [length_xorBytes, h1, (hd e he).2, Nat.min_self]
    · exact h1
  have hm := hlt e he
  set m := missing.getD e 0 with hmdef
  have hol : ∀ p, ((c e).out I pt p).2.length = I.ctSize := fun p => (out_length hI (c e) pt p).2
  unfold verShares
  dsimp only
  rw [rd_getD noProof (by omega), ok_bind, (hk e he).1, (hd e he).1, of_objectSize, verShare_ok hN he (fun e p => (c e).tape p) (hc e he) t1 (hk e he).2, ok_bind,
    verShare_ok hN he (fun e p => (c e).tape p) (hc e he) t2 (hd e he).2, ok_bind]
  rw [show (rowUpd (below z e fun e p => (c e).key I p) e I.numParties fun p => if p = 0 then xorBytes (c e).skDelta (tapeBytes ((c e).tape p) 0 I.aes.keySize) else tapeBytes ((c e).tape p) 0 I.aes.keySize) =
      rowUpd (below z e fun e p => (c e).key I p) e I.numParties ((c e).key I) from rfl,
    show (rowUpd (below z e fun e p => (c e).t I p) e I.numParties fun p => if p = 0 then xorBytes (c e).tDelta (tapeBytes ((c e).tape p) I.aes.keySize I.aes.numSboxes)
      else tapeBytes ((c e).tape p) I.aes.keySize I.aes.numSboxes) = rowUpd (below z e fun e p => (c e).t I p) e I.numParties ((c e).t I) from rfl,
    of_below_succ _ (fun e p => (c e).key I p) e, of_below_succ _ (fun e p => (c e).t I p) e]
  rw [aesRep_ok hI pt hpt he _ _ _ _ (fun p hp => by rw [below, if_pos (Nat.lt_succ_self e)]; exact hkl p hp) (fun p hp => by rw [below, if_pos (Nat.lt_succ_self e)]; exact htl p hp), ok_bind]
  dsimp only
  have r1 : (fun p => (aesParty I.aes.keySize (p == 0) (below z (e + 1) (fun e p => (c e).key I p) e p) (below z (e + 1) (fun e p => (c e).t I p) e p) pt).2) = fun p => ((c e).out I pt p).2 := by
    funext p
    rw [below, if_pos (Nat.lt_succ_self e), below, if_pos (Nat.lt_succ_self e)]
    rfl
  have r2 : (fun p => (aesParty I.aes.keySize (p == 0) (below z (e + 1) (fun e p => (c e).key I p) e p) (below z (e + 1) (fun e p => (c e).t I p) e p) pt).1) = fun p => ((c e).out I pt p).1 := by
    funext p
    rw [below, if_pos (Nat.lt_succ_self e), below, if_pos (Nat.lt_succ_self e)]
    rfl
  have hxl := fun n (hn : n ≤ I.numParties) => others_xor_length (m := m) (n := n) (fun p => ((c e).out I pt p).2) (fun p _ => hol p) ct hct
  rw [r1, r2, of_below_succ _ (fun e p => ((c e).out I pt p).1) e, rd_getD 0 (by omega), ok_bind, ← hmdef, show (of I.numRounds I.numParties I.ctSize (0 : Byte) (rowUpd (below z e Q) e I.numParties fun p => ((c e).out I pt p).2)).numParties =
    I.numParties from rfl, decide_eq_true hm, require_true, ok_bind, fill_of he hm hct, ok_bind, upd_rowUpd _ _ _ _ hm,
    forTo_state _ _ _ (fun n => of I.numRounds I.numParties I.ctSize 0 (rowUpd (below z e Q) e I.numParties fun p => if p = m then others (fun acc p => xorBytes ((c e).out I pt p).2 acc) m ct n else ((c e).out I pt p).2))
      (by rw [others_zero]) (fun n hn => by
        by_cases hnm : n = m
        · rw [if_neg (fun h => h hnm)]
          subst hnm
          rw [others_skip]
        · rw [if_pos hnm, get_of he hn (by rw [rowUpd_in _ _ _ _ hn, if_neg hnm]; exact hol n), ok_bind, rowUpd_in _ _ _ _ hn, if_neg hnm, xorInto_of he hm (hol n) (by rw [rowUpd_in _ _ _ _ hm, if_pos rfl]; exact hxl n (by omega)),
            rowUpd_in _ _ _ _ hm, if_pos rfl, upd_rowUpd _ _ _ _ hm, others_succ _ _ hnm]
          congr 3
          funext p
          split_ifs <;> rfl), ok_bind]
  rw [← of_below_succ z Q e]
  rfl

end Banquet.Loops
