import Verif.Proofs.Forge

/-! How many hash values the forger uses. -/

namespace Banquet

open Spec FieldOk

/-- The hash functions agree on the seed tree, the tapes and the commitments of all repetitions. -/
structure SameTapes (I : Instance) (salt root : Bytes) (X X' : Xof) : Prop where
  node : ∀ e < I.numRounds, ∀ i < I.numParties, X' (kindOf (2 * root.length)) ([1] ++ seedAt X root salt e i ++ salt ++ le16 e ++ le16 i) = X (kindOf (2 * root.length)) ([1] ++ seedAt X root salt e i ++ salt ++ le16 e ++ le16 i)
  tape : ∀ e < I.numRounds, ∀ p < I.numParties, tapeStream X' (partySeed X I salt root e p) salt e p = tapeStream X (partySeed X I salt root e p) salt e p
  com : ∀ e < I.numRounds, ∀ p < I.numParties, X' (kindOf I.digestSize) (salt ++ le16 e ++ le16 p ++ partySeed X I salt root e p) = X (kindOf I.digestSize) (salt ++ le16 e ++ le16 p ++ partySeed X I salt root e p)

section
variable {I : Instance} (hI : Consistent I) {salt root : Bytes} {X X' : Xof} (h : SameTapes I salt root X X')
include hI h

omit hI in
theorem SameTapes.seedAt (e : Nat) (he : e < I.numRounds) (i : Nat) (hi : i < 2 * I.numParties) : seedAt X' root salt e i = seedAt X root salt e i := by
  induction i using Nat.strongRecOn with
  | ind i ih =>
    cases i with
    | zero => rw [Spec.seedAt, Spec.seedAt]
    | succ i =>
      rw [seedAt_succ, seedAt_succ, ih (i / 2) (by omega) (by omega), h.node e he (i / 2) (by omega)]

theorem SameTapes.partySeed (e : Nat) (he : e < I.numRounds) (p : Nat) (hp : p < I.numParties) : partySeed X' I salt root e p = partySeed X I salt root e p := by
  refine h.seedAt e he _ ?_
  unfold leafNode
  have := depth_pow hI
  omega

theorem SameTapes.genTape (e : Nat) (he : e < I.numRounds) (p : Nat) (hp : p < I.numParties) :
    genTape X' I.tapeSize (Banquet.partySeed X' I salt root e p) salt e p = genTape X I.tapeSize (Banquet.partySeed X I salt root e p) salt e p := by
  unfold Banquet.genTape
  rw [h.partySeed hI e he p hp, h.tape e he p hp]

theorem SameTapes.signRun (sk t : Bytes) (e : Nat) (he : e < I.numRounds) (d : List W64) : signRun X' I sk t salt root e d = signRun X I sk t salt root e d := by
  have : ∀ a b x, signDelta X' I salt root e a b x = signDelta X I salt root e a b x := fun a b x => by
    unfold signDelta
    congr 1
    refine List.map_congr_left fun p hp => ?_
    rw [h.genTape hI e he p (List.mem_range.1 hp)]
  unfold Banquet.signRun
  rw [this, this]

theorem SameTapes.agree (r : Run) (hr : r.root = root) (e : Nat) (he : e < I.numRounds) : Ctx.Agree I I.numParties (r.ctx X' I salt e) (r.ctx X I salt e) := by
  refine ⟨rfl, rfl, rfl, fun p hp => ?_⟩
  unfold Run.ctx
  dsimp only
  rw [hr]
  exact h.genTape hI e he p hp.1

theorem SameTapes.runCom (r : Run) (hr : r.root = root) (e : Nat) (he : e < I.numRounds) (p : Nat) (hp : p < I.numParties) : r.com X' I salt e p = r.com X I salt e p := by
  unfold Run.com commitSingle
  rw [hr, h.partySeed hI e he p hp, h.com e he p hp]

theorem SameTapes.reveal (e : Nat) (he : e < I.numRounds) (m : Nat) (hm : m < I.numParties) : revealOf X' I salt root e m = revealOf X I salt root e m := by
  unfold revealOf
  congr 1
  refine List.map_congr_left fun k hk => h.seedAt e he _ ?_
  obtain ⟨b1, b2, b3, b4⟩ := parties_bounds hI
  obtain ⟨_, s2⟩ := sib_level b1 b3 hm k (List.mem_range.1 hk)
  have : 2 ^ (depth I.numParties - k + 1) ≤ 2 ^ (depth I.numParties + 1) := Nat.pow_le_pow_right (by norm_num) (by omega)
  rw [pow_succ _ (depth I.numParties), ← depth_pow hI] at this
  omega
end

namespace Ctx
variable {I : Instance} {c c' : Ctx} (h : Agree I I.numParties c c')
include h

theorem Agree.sumA (F : FieldState) (pt : Bytes) (rs : List W64) (R : W64) (j : Nat) : c.sumA F I pt rs R j = c'.sumA F I pt rs R j := by
  unfold Ctx.sumA
  refine foldl_congr_mem _ _ _ (fun acc p hp => ?_) _
  have := List.mem_range.1 hp
  rw [h.a I F pt rs R p j ⟨this, by omega⟩]

theorem Agree.sumB (F : FieldState) (R : W64) (j : Nat) : c.sumB F I R j = c'.sumB F I R j := by
  unfold Ctx.sumB
  refine foldl_congr_mem _ _ _ (fun acc p hp => ?_) _
  have := List.mem_range.1 hp
  rw [h.b I F R p j ⟨this, by omega⟩]

theorem Agree.sumC (F : FieldState) (rs : List W64) (R : W64) : c.sumC F I rs R = c'.sumC F I rs R := by
  unfold Ctx.sumC
  refine foldl_congr_mem _ _ _ (fun acc p hp => ?_) _
  have := List.mem_range.1 hp
  rw [h.pc I F rs R p ⟨this, by omega⟩]

theorem Agree.hash1 (pt : Bytes) (com com' : Nat → Bytes) (hc : ∀ p < I.numParties, com p = com' p) : c.hash1 I pt com = c'.hash1 I pt com' := by
  unfold Ctx.hash1
  rw [Rep1Hash.mk.injEq]
  refine ⟨List.map_congr_left fun p hp => hc p (List.mem_range.1 hp), List.map_congr_left fun p hp => ?_, h.skDelta, h.tDelta⟩
  have := List.mem_range.1 hp
  rw [h.out I pt p ⟨this, by omega⟩]

theorem Agree.hash3 (F : FieldState) (pt : Bytes) (rs : List W64) (R : W64) : c.hash3 F I pt rs R = c'.hash3 F I pt rs R := by
  unfold Ctx.hash3
  rw [Rep3.mk.injEq]
  have hm : ∀ p ∈ List.range I.numParties, p < I.numParties ∧ p ≠ I.numParties := fun p hp => by
    have := List.mem_range.1 hp
    exact ⟨this, by omega⟩
  refine ⟨h.sumC F rs R, List.map_congr_left fun p hp => h.pc I F rs R p (hm p hp), List.map_congr_left fun j _ => h.sumA F pt rs R j, List.map_congr_left fun j _ => h.sumB F R j,
    List.map_congr_left fun p hp => List.map_congr_left fun j _ => h.a I F pt rs R p j (hm p hp), List.map_congr_left fun p hp => List.map_congr_left fun j _ => h.b I F R p j (hm p hp)⟩

theorem Agree.withDelta (d : List W64) : Agree I I.numParties { c with pDelta := d } { c' with pDelta := d } := ⟨h.skDelta, h.tDelta, rfl, h.tape⟩

theorem Agree.fitLast (F : FieldState) (pt : Bytes) (rs : List W64) (R : W64) : Banquet.fitLast F I pt c rs R = Banquet.fitLast F I pt c' rs R := by
  unfold Banquet.fitLast
  rw [(h.withDelta (lastOnly I 0)).sumC F rs R, (h.withDelta (lastOnly I 1)).sumC F rs R, List.map_congr_left fun j _ => h.sumA F pt rs R j, List.map_congr_left fun j _ => h.sumB F R j]

end Ctx

/-! ## All hash values used by the forger -/

/-- The run of the forger before the challenge is known. -/
def forgeRun0 (X : Xof) (I : Instance) (pk salt : Bytes) (e : Nat) : Run := forgeRun X I pk salt e 0
/-- The first hash. -/
def forgeH1 (X : Xof) (I : Instance) (pk salt msg : Bytes) : Bytes := proverH1 X I salt pk msg (forgeRun0 X I pk salt)
/-- The second hash. -/
def forgeH2 (X : Xof) (F : FieldState) (I : Instance) (pk salt msg : Bytes) : Bytes := proverH2 X F I salt (forgeH1 X I pk salt msg) (forgeRun0 X I pk salt)
/-- The final run. -/
def forgeRun1 (X : Xof) (F : FieldState) (I : Instance) (pk salt msg : Bytes) (Rs : List W64) (e : Nat) : Run :=
  forgeRun X I pk salt e (fitLast F I (slice pk 0 I.ctSize) ((forgeRun0 X I pk salt e).ctx X I salt e) ((phase1Expand X F I (forgeH1 X I pk salt msg)).getD e []) (Rs.getD e 0))
/-- The third hash. -/
def forgeH3 (X : Xof) (F : FieldState) (I : Instance) (pk salt msg : Bytes) (Rs : List W64) : Bytes :=
  proverH3 X F I (slice pk 0 I.ctSize) salt (forgeH1 X I pk salt msg) (forgeH2 X F I pk salt msg) (forgeRun1 X F I pk salt msg Rs) Rs

theorem forgeWith_eq (X : Xof) (fuel : Nat) (F : FieldState) (I : Instance) (pk salt msg : Bytes) : forgeWith X fuel F I pk salt msg =
    (phase2Expand X fuel F I (forgeH2 X F I pk salt msg) (F.firstN I.m2)).bind fun Rs => (phase3Expand X fuel I (forgeH3 X F I pk salt msg Rs)).bind fun ms =>
      .ok (proverSig X F I (slice pk 0 I.ctSize) salt (forgeH1 X I pk salt msg) (forgeH3 X F I pk salt msg Rs) (forgeRun1 X F I pk salt msg Rs) Rs ms) := rfl

/-- Input of the first hash. -/
def forgeIn1 (X : Xof) (I : Instance) (pk salt msg : Bytes) : Bytes :=
  phase1Input I salt pk msg ((List.range I.numRounds).map fun e => ((forgeRun0 X I pk salt e).ctx X I salt e).hash1 I (slice pk 0 I.ctSize) ((forgeRun0 X I pk salt e).com X I salt e))
/-- Input of the second hash. -/
def forgeIn2 (X : Xof) (F : FieldState) (I : Instance) (pk salt msg : Bytes) : Bytes := phase2Input F I salt (forgeH1 X I pk salt msg) ((List.range I.numRounds).map fun e => (forgeRun0 X I pk salt e).pDelta)
/-- Input of the third hash. -/
def forgeIn3 (X : Xof) (F : FieldState) (I : Instance) (pk salt msg : Bytes) (Rs : List W64) : Bytes :=
  phase3Input F I salt (forgeH2 X F I pk salt msg) ((List.range I.numRounds).map fun e =>
    ((forgeRun1 X F I pk salt msg Rs e).ctx X I salt e).hash3 F I (slice pk 0 I.ctSize) ((phase1Expand X F I (forgeH1 X I pk salt msg)).getD e []) (Rs.getD e 0))

theorem forgeH1_eq (X : Xof) (I : Instance) (pk salt msg : Bytes) : forgeH1 X I pk salt msg = (X (kindOf I.digestSize) (forgeIn1 X I pk salt msg)).squeeze 0 I.digestSize := by
  unfold forgeH1 proverH1 phase1Commit forgeIn1
  rfl
theorem forgeH2_eq (X : Xof) (F : FieldState) (I : Instance) (pk salt msg : Bytes) : forgeH2 X F I pk salt msg = (X (kindOf I.digestSize) (forgeIn2 X F I pk salt msg)).squeeze 0 I.digestSize := by
  unfold forgeH2 proverH2 phase2Commit forgeIn2
  rfl
theorem forgeH3_eq (X : Xof) (F : FieldState) (I : Instance) (pk salt msg : Bytes) (Rs : List W64) :
    forgeH3 X F I pk salt msg Rs = (X (kindOf I.digestSize) (forgeIn3 X F I pk salt msg Rs)).squeeze 0 I.digestSize := by
  unfold forgeH3 proverH3 phase3Commit forgeIn3
  rfl

/-- Tree, tapes and commitments. -/
def tapeQueries (X : Xof) (I : Instance) (salt root : Bytes) : List (ShakeKind × Bytes) :=
  (List.range I.numRounds).flatMap fun e => (List.range I.numParties).flatMap fun p =>
    [(kindOf (2 * root.length), [1] ++ seedAt X root salt e p ++ salt ++ le16 e ++ le16 p),
     (kindOf (2 * (partySeed X I salt root e p).length), partySeed X I salt root e p ++ salt ++ le16 e ++ le16 p),
     (kindOf I.digestSize, salt ++ le16 e ++ le16 p ++ partySeed X I salt root e p)]

/-- All inputs. -/
def forgeQueries (X : Xof) (fuel : Nat) (F : FieldState) (I : Instance) (pk salt msg : Bytes) : List (ShakeKind × Bytes) :=
  tapeQueries X I salt (List.replicate I.seedSize 0) ++
  [(kindOf I.digestSize, forgeIn1 X I pk salt msg), (kindOf I.digestSize, forgeH1 X I pk salt msg), (kindOf I.digestSize, forgeIn2 X F I pk salt msg), (kindOf I.digestSize, forgeH2 X F I pk salt msg)] ++
  match phase2Expand X fuel F I (forgeH2 X F I pk salt msg) (F.firstN I.m2) with
  | .ok Rs => [(kindOf I.digestSize, forgeIn3 X F I pk salt msg Rs), (kindOf I.digestSize, forgeH3 X F I pk salt msg Rs)]
  | .error _ => []

theorem length_forgeQueries (X : Xof) (fuel : Nat) (F : FieldState) (I : Instance) (pk salt msg : Bytes) : (forgeQueries X fuel F I pk salt msg).length ≤ 3 * I.numRounds * I.numParties + 6 := by
  unfold forgeQueries
  have h : (tapeQueries X I salt (List.replicate I.seedSize 0)).length = I.numRounds * (I.numParties * 3) := by
    unfold tapeQueries
    exact length_flatMap_range _ _ _ fun e _ => length_flatMap_range _ _ _ fun p _ => rfl
  rw [List.length_append, List.length_append, h, show I.numRounds * (I.numParties * 3) = 3 * I.numRounds * I.numParties by ring]
  split <;> simp

theorem sameTapes_of {X X' : Xof} {I : Instance} {salt root : Bytes} (h : ∀ x ∈ tapeQueries X I salt root, X' x.1 x.2 = X x.1 x.2) : SameTapes I salt root X X' := by
  have hm : ∀ e < I.numRounds, ∀ p < I.numParties, ∀ x ∈ [(kindOf (2 * root.length), [1] ++ seedAt X root salt e p ++ salt ++ le16 e ++ le16 p),
     (kindOf (2 * (partySeed X I salt root e p).length), partySeed X I salt root e p ++ salt ++ le16 e ++ le16 p),
     (kindOf I.digestSize, salt ++ le16 e ++ le16 p ++ partySeed X I salt root e p)], X' x.1 x.2 = X x.1 x.2 := fun e he p hp x hx =>
    h x (List.mem_flatMap.2 ⟨e, List.mem_range.2 he, List.mem_flatMap.2 ⟨p, List.mem_range.2 hp, hx⟩⟩)
  exact ⟨fun e he p hp => hm e he p hp _ (List.mem_cons_self ..), fun e he p hp => hm e he p hp _ (List.mem_cons_of_mem _ (List.mem_cons_self ..)),
    fun e he p hp => hm e he p hp _ (List.mem_cons_of_mem _ (List.mem_cons_of_mem _ (List.mem_cons_self ..)))⟩

theorem bind_congr_ok {α β : Type} (m : M α) {f g : α → M β} (h : ∀ a, m = .ok a → f a = g a) : m.bind f = m.bind g := by
  cases m with
  | error e => rfl
  | ok a => exact h a rfl

/-- The forger only uses the values of the hash function on these inputs. -/
theorem forgeWith_reads {I : Instance} (hI : Consistent I) (X X' : Xof) (fuel : Nat) (F : FieldState) (pk salt msg : Bytes)
    (h : ∀ x ∈ forgeQueries X fuel F I pk salt msg, X' x.1 x.2 = X x.1 x.2) : forgeWith X' fuel F I pk salt msg = forgeWith X fuel F I pk salt msg := by
  unfold forgeQueries at h
  simp only [List.mem_append] at h
  have hT : SameTapes I salt (List.replicate I.seedSize 0) X X' := sameTapes_of fun x hx => h x (.inl (.inl hx))
  have q1 : X' (kindOf I.digestSize) (forgeIn1 X I pk salt msg) = X (kindOf I.digestSize) (forgeIn1 X I pk salt msg) := h (kindOf I.digestSize, forgeIn1 X I pk salt msg) (.inl (.inr (by simp)))
  have q2 : X' (kindOf I.digestSize) (forgeH1 X I pk salt msg) = X (kindOf I.digestSize) (forgeH1 X I pk salt msg) := h (kindOf I.digestSize, forgeH1 X I pk salt msg) (.inl (.inr (by simp)))
  have q3 : X' (kindOf I.digestSize) (forgeIn2 X F I pk salt msg) = X (kindOf I.digestSize) (forgeIn2 X F I pk salt msg) := h (kindOf I.digestSize, forgeIn2 X F I pk salt msg) (.inl (.inr (by simp)))
  have q4 : X' (kindOf I.digestSize) (forgeH2 X F I pk salt msg) = X (kindOf I.digestSize) (forgeH2 X F I pk salt msg) := h (kindOf I.digestSize, forgeH2 X F I pk salt msg) (.inl (.inr (by simp)))
  have hr : ∀ e < I.numRounds, ∀ x, forgeRun X' I pk salt e x = forgeRun X I pk salt e x := fun e he x => hT.signRun hI _ _ e he _
  have r0 : ∀ e < I.numRounds, forgeRun0 X' I pk salt e = forgeRun0 X I pk salt e := fun e he => hr e he 0
  have i1 : forgeIn1 X' I pk salt msg = forgeIn1 X I pk salt msg := by
    unfold forgeIn1
    congr 1
    refine List.map_congr_left fun e he => ?_
    have he := List.mem_range.1 he
    rw [r0 e he]
    exact (hT.agree hI _ rfl e he).hash1 _ _ _ fun p hp => hT.runCom hI _ rfl e he p hp
  have e1 : forgeH1 X' I pk salt msg = forgeH1 X I pk salt msg := by
    rw [forgeH1_eq, forgeH1_eq, i1, q1]
  have i2 : forgeIn2 X' F I pk salt msg = forgeIn2 X F I pk salt msg := by
    unfold forgeIn2
    rw [e1]
    rfl
  have e2 : forgeH2 X' F I pk salt msg = forgeH2 X F I pk salt msg := by
    rw [forgeH2_eq, forgeH2_eq, i2, q3]
  have p1 : phase1Expand X' F I (forgeH1 X I pk salt msg) = phase1Expand X F I (forgeH1 X I pk salt msg) := by
    unfold phase1Expand
    rw [q2]
  have p2 : phase2Expand X' fuel F I (forgeH2 X F I pk salt msg) (F.firstN I.m2) = phase2Expand X fuel F I (forgeH2 X F I pk salt msg) (F.firstN I.m2) := by
    unfold phase2Expand
    rw [q4]
  rw [forgeWith_eq, forgeWith_eq, e2, p2]
  refine bind_congr_ok _ fun Rs hRs => ?_
  rw [hRs] at h
  have q5 : X' (kindOf I.digestSize) (forgeIn3 X F I pk salt msg Rs) = X (kindOf I.digestSize) (forgeIn3 X F I pk salt msg Rs) := h (kindOf I.digestSize, forgeIn3 X F I pk salt msg Rs) (.inr (by simp))
  have q6 : X' (kindOf I.digestSize) (forgeH3 X F I pk salt msg Rs) = X (kindOf I.digestSize) (forgeH3 X F I pk salt msg Rs) := h (kindOf I.digestSize, forgeH3 X F I pk salt msg Rs) (.inr (by simp))
  have r1 : ∀ e < I.numRounds, forgeRun1 X' F I pk salt msg Rs e = forgeRun1 X F I pk salt msg Rs e := fun e he => by
    unfold forgeRun1
    rw [hr e he, e1, p1, r0 e he, (hT.agree hI (forgeRun0 X I pk salt e) rfl e he).fitLast]
  have i3 : forgeIn3 X' F I pk salt msg Rs = forgeIn3 X F I pk salt msg Rs := by
    unfold forgeIn3
    rw [e1, e2, p1]
    refine congrArg (phase3Input F I salt _) (List.map_congr_left fun e he => ?_)
    have he := List.mem_range.1 he
    rw [r1 e he]
    exact (hT.agree hI _ rfl e he).hash3 _ _ _ _
  have e3 : forgeH3 X' F I pk salt msg Rs = forgeH3 X F I pk salt msg Rs := by
    rw [forgeH3_eq, forgeH3_eq, i3, q5]
  have p3 : phase3Expand X' fuel I (forgeH3 X F I pk salt msg Rs) = phase3Expand X fuel I (forgeH3 X F I pk salt msg Rs) := by
    unfold phase3Expand phase3ExpandJ
    rw [q6]
  rw [e3, p3]
  refine bind_congr_ok _ fun ms hms => ?_
  obtain ⟨ml, mlt⟩ := phase3Expand_spec X _ fuel I _ ms hms
  rw [e1]
  unfold proverSig
  refine congrArg (fun l => Except.ok (Signature.mk salt _ _ l)) (List.map_congr_left fun e he => ?_)
  have he := List.mem_range.1 he
  rw [r1 e he, p1]
  have hm : ms.getD e 0 < I.numParties := by
    rw [getD_of_lt (by omega)]
    exact mlt _ (List.getElem_mem _)
  have ag := hT.agree hI (forgeRun1 X F I pk salt msg Rs e) rfl e he
  unfold Run.proof
  rw [hT.runCom hI (forgeRun1 X F I pk salt msg Rs e) rfl e he _ hm, ag.sumC, List.map_congr_left fun j _ => ag.sumA F _ _ _ j, List.map_congr_left fun j _ => ag.sumB F _ j,
    show (forgeRun1 X F I pk salt msg Rs e).root = List.replicate I.seedSize 0 from rfl, hT.reveal hI e he _ hm]

end Banquet
