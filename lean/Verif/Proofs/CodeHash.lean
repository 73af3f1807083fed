import Verif.Model.Code
import Verif.Proofs.SpongeSim
import Verif.Proofs.Hash

/-! The hash computations of the code, piece by piece, give the output of SHAKE on the concatenated pieces. -/

namespace Banquet.Code

open Spec

/-- Lengths for which the 32-bit arithmetic of the sponge does not wrap. -/
def Small (n : Nat) : Prop := n + 168 ≤ 2 ^ 32

theorem Small.rate {n : Nat} (h : Small n) (k : ShakeKind) : n + kindRate k ≤ 2 ^ 32 := by
  unfold Small at h
  cases k <;> simp only [kindRate] <;> omega

section one

variable {f : St → St} {S : SnP} {view : S.State → St}

/-- The context has absorbed `msg`. -/
def Abs (f : St → St) (view : S.State → St) (k : ShakeKind) (msg : Bytes) (s : Sponge S) : Prop := s.abs view = Ideal.ctx f k msg

/-- The context has absorbed `msg`, and `p` bytes have been squeezed. -/
def Rd (f : St → St) (view : S.State → St) (k : ShakeKind) (msg : Bytes) (p : Nat) (s : Sponge S) : Prop :=
  Ideal.SqInv f (absorb f (shakeRate k) (padShake (shakeRate k) msg)) (kindRate k) p (s.abs view)

variable (hS : Snp f S view) {k : ShakeKind} {msg : Bytes} {s : Sponge S}
include hS

theorem init_abs (k : ShakeKind) : Abs f view k [] (hashInit S k) := by
  simp only [Abs, Sponge.abs, hashInit, hS.init]
  rfl

theorem update_abs (h : Abs f view k msg s) (d : Bytes) (hd : Small d.length) : ∃ s', hashUpdate S s d = .ok s' ∧ Abs f view k (msg ++ d) s' :=
  hashUpdate_sim hS h d (hd.rate k)

theorem update_fits (h : Abs f view k msg s) (d : Bytes) {n : Nat} (hn : msg.length = n) (hd : Fits (kindRate k) (n % kindRate k) d.length) : ∃ s', hashUpdate S s d = .ok s' ∧ Abs f view k (msg ++ d) s' :=
  hashUpdate_fits hS h d (hn ▸ hd)

omit hS in
theorem Small.fits {n : Nat} (h : Small n) (k : ShakeKind) (total : Nat) : Fits (kindRate k) (total % kindRate k) n := fits_of_small (Nat.mod_lt _ (kind_facts k).2.2) (h.rate k)

theorem u16_abs (h : Abs f view k msg s) (n : Nat) : ∃ s', updateU16 S s n = .ok s' ∧ Abs f view k (msg ++ le16 n) s' :=
  update_abs hS h (le16 n) (by rw [le16_length]; unfold Small; norm_num)

theorem prefix_abs (n : Nat) (b : Byte) : ∃ s', initPrefix S n b = .ok s' ∧ Abs f view (kindOf n) [b] s' :=
  update_abs hS (init_abs hS _) [b] (by unfold Small; norm_num)

theorem final_rd (h : Abs f view k msg s) : ∃ s', hashFinal S s = .ok s' ∧ Rd f view k msg 0 s' := by
  obtain ⟨s', e, g⟩ := hashFinal_sim hS h
  rw [Ideal.hashFinal_ctx] at g
  exact ⟨s', e, (congrArg Ideal.Sponge.rate g).trans (Ideal.kindRate_eq k).symm, congrArg Ideal.Sponge.squeezing g, by rw [g]; exact Nat.zero_le _, 0, congrArg Ideal.Sponge.state g, by rw [g]; simp⟩

theorem squeeze_rd {p : Nat} (h : Rd f view k msg p s) (n : Nat) (hn : Small n) :
    ∃ s', hashSqueeze S s n = .ok (s', (shake f k msg).squeeze p n) ∧ Rd f view k msg (p + n) s' := by
  obtain ⟨s', e, g⟩ := hashSqueeze_sim hS _ s n (kind_facts k).2.2 (kind_facts k).2.1 h (hn.rate k)
  refine ⟨s', ?_, g⟩
  rw [e, Ideal.kindRate_eq]
  rfl

omit hS in
/-- A loop of updates. -/
theorem fold_abs {α : Type} (g : Sponge S → α → M (Sponge S)) (b : α → Bytes) (l : List α)
    (hg : ∀ x ∈ l, ∀ msg s, Abs f view k msg s → ∃ s', g s x = .ok s' ∧ Abs f view k (msg ++ b x) s') (h : Abs f view k msg s) :
    ∃ s', l.foldlM g s = .ok s' ∧ Abs f view k (msg ++ l.flatMap b) s' := by
  induction l generalizing msg s with
  | nil => exact ⟨s, rfl, by simpa using h⟩
  | cons x l ih =>
    obtain ⟨s1, e1, a1⟩ := hg x List.mem_cons_self msg s h
    obtain ⟨s2, e2, a2⟩ := ih (fun y hy => hg y (List.mem_cons_of_mem _ hy)) a1
    refine ⟨s2, by rw [List.foldlM_cons, bindOk e1, e2], ?_⟩
    rw [List.flatMap_cons, ← List.append_assoc]
    exact a2

/-- A loop of squeezes. -/
theorem squeezeMany_rd (len n : Nat) {p : Nat} (h : Rd f view k msg p s) (hl : Small len) :
    ∃ s', squeezeMany S len n s = .ok (s', (List.range n).map fun i => (shake f k msg).squeeze (p + i * len) len) ∧ Rd f view k msg (p + n * len) s' := by
  induction n generalizing p s with
  | zero => exact ⟨s, rfl, by simpa using h⟩
  | succ n ih =>
    obtain ⟨s1, e1, a1⟩ := squeeze_rd hS h len hl
    obtain ⟨s2, e2, a2⟩ := ih a1
    refine ⟨s2, ?_, ?_⟩
    · rw [squeezeMany, bindOk e1, bindOk e2, List.range_succ_eq_map, List.map_cons, List.map_map]
      simp only [Function.comp_def, Nat.zero_mul, Nat.add_zero]
      congr 3
      apply List.map_congr_left
      intro i _
      congr 1
      rw [Nat.succ_mul]
      omega
    · rw [Nat.succ_mul, Nat.add_comm (n * len), ← Nat.add_assoc]
      exact a2

/-- A complete hash: final and one squeeze. -/
theorem digest_abs (h : Abs f view k msg s) (n : Nat) (hn : Small n) : (do
    let s ← hashFinal S s
    let r ← hashSqueeze S s n
    (.ok r.2 : M Bytes)) = .ok ((shake f k msg).squeeze 0 n) := by
  obtain ⟨s1, e1, a1⟩ := final_rd hS h
  obtain ⟨s2, e2, -⟩ := squeeze_rd hS a1 n hn
  rw [bindOk e1, bindOk e2]

theorem expandSeed_eq (seed salt : Bytes) (rep node : Nat) (two : Bool) (h1 : Small seed.length) (h2 : Small salt.length) :
    expandSeed S seed salt rep node two = .ok ((Banquet.expandSeed (shake f) seed salt rep node).1, if two then (Banquet.expandSeed (shake f) seed salt rep node).2 else []) := by
  obtain ⟨s1, e1, a1⟩ := prefix_abs hS (seed.length * 2) 1
  obtain ⟨s2, e2, a2⟩ := update_abs hS a1 seed h1
  obtain ⟨s3, e3, a3⟩ := update_abs hS a2 salt h2
  obtain ⟨s4, e4, a4⟩ := u16_abs hS a3 rep
  obtain ⟨s5, e5, a5⟩ := u16_abs hS a4 node
  obtain ⟨s6, e6, a6⟩ := final_rd hS a5
  obtain ⟨s7, e7, a7⟩ := squeeze_rd hS a6 seed.length h1
  obtain ⟨s8, e8, a8⟩ := squeeze_rd hS a7 seed.length h1
  unfold expandSeed Banquet.expandSeed
  rw [bindOk e1, bindOk e2, bindOk e3, bindOk e4, bindOk e5, bindOk e6, bindOk e7, Nat.mul_comm 2]
  cases two
  · rfl
  · simp only [if_true]
    rw [bindOk e8, Nat.zero_add]

theorem tapeInit_rd (seed salt : Bytes) (rep party : Nat) (h1 : Small seed.length) (h2 : Small salt.length) :
    ∃ s, tapeInit S seed salt rep party = .ok s ∧ Rd f view (kindOf (2 * seed.length)) (seed ++ salt ++ le16 rep ++ le16 party) 0 s := by
  obtain ⟨s1, e1, a1⟩ := update_abs hS (init_abs hS (kindOf (seed.length * 2))) seed h1
  obtain ⟨s2, e2, a2⟩ := update_abs hS a1 salt h2
  obtain ⟨s3, e3, a3⟩ := u16_abs hS a2 rep
  obtain ⟨s4, e4, a4⟩ := u16_abs hS a3 party
  obtain ⟨s5, e5, a5⟩ := final_rd hS a4
  refine ⟨s5, ?_, ?_⟩
  · unfold tapeInit
    rw [bindOk e1, bindOk e2, bindOk e3, bindOk e4, e5]
  · rw [Nat.mul_comm 2]
    exact a5

theorem genTape_eq (n : Nat) (seed salt : Bytes) (rep party : Nat) (h1 : Small seed.length) (h2 : Small salt.length) (h3 : Small n) :
    genTape S n seed salt rep party = .ok (Banquet.genTape (shake f) n seed salt rep party) := by
  obtain ⟨s1, e1, a1⟩ := tapeInit_rd hS seed salt rep party h1 h2
  obtain ⟨s2, e2, -⟩ := squeeze_rd hS a1 n h3
  unfold genTape
  rw [bindOk e1, bindOk e2]
  rfl

theorem genSaltAndSeeds_eq (I : Instance) (sk pk msg : Bytes) (h1 : Small sk.length) (h2 : Small pk.length)
    (h3 : Fits (kindRate (kindOf I.digestSize)) ((2 + sk.length + pk.length) % kindRate (kindOf I.digestSize)) msg.length) (h4 : Small I.seedSize) :
    genSaltAndSeeds S I sk pk msg = .ok (genSalt (shake f) I sk pk msg, (List.range I.numRounds).map (genSeed (shake f) I sk pk msg)) := by
  obtain ⟨s1, e1, a1⟩ := u16_abs hS (init_abs hS (kindOf I.digestSize)) I.params
  obtain ⟨s2, e2, a2⟩ := update_abs hS a1 sk h1
  obtain ⟨s3, e3, a3⟩ := update_abs hS a2 pk h2
  obtain ⟨s4, e4, a4⟩ := update_fits hS a3 msg (by simp [le16_length]; omega) h3
  obtain ⟨s5, e5, a5⟩ := final_rd hS a4
  obtain ⟨s6, e6, a6⟩ := squeeze_rd hS a5 32 (by unfold Small; norm_num)
  obtain ⟨s7, e7, -⟩ := squeezeMany_rd hS I.seedSize I.numRounds a6 h4
  unfold genSaltAndSeeds
  rw [bindOk e1, bindOk e2, bindOk e3, bindOk e4, bindOk e5, bindOk e6, bindOk e7]
  rfl

theorem commitParty_eq (I : Instance) (seed salt : Bytes) (rep party : Nat) (h1 : Small seed.length) (h2 : Small salt.length) (h3 : Small I.digestSize) :
    commitParty S I seed salt rep party = .ok (commitSingle (shake f) I seed salt rep party) := by
  obtain ⟨s1, e1, a1⟩ := update_abs hS (init_abs hS (kindOf I.digestSize)) salt h2
  obtain ⟨s2, e2, a2⟩ := u16_abs hS a1 rep
  obtain ⟨s3, e3, a3⟩ := u16_abs hS a2 party
  obtain ⟨s4, e4, a4⟩ := update_abs hS a3 seed h1
  unfold commitParty
  rw [bindOk e1, bindOk e2, bindOk e3, bindOk e4, digest_abs hS a4 _ h3]
  rfl

/-- Pieces of the first hash that are small enough. -/
def SmallRep (r : Rep1Hash) : Prop := (∀ c ∈ r.commitments, Small c.length) ∧ (∀ c ∈ r.broadcasts, Small c.length) ∧ Small r.keyDelta.length ∧ Small r.tDelta.length

omit hS in
theorem small_getD {l : List Bytes} (h : ∀ c ∈ l, Small c.length) (p : Nat) : Small (l.getD p []).length := by
  rw [List.getD_eq_getElem?_getD]
  cases e : l[p]? with
  | none => unfold Small; simp
  | some c => exact h c (List.mem_of_getElem? e)

theorem phase1Rep_abs (I : Instance) (r : Rep1Hash) (hr : SmallRep r) (h : Abs f view k msg s) : ∃ s', phase1Rep S I s r = .ok s' ∧ Abs f view k (msg ++ r.bytes I) s' := by
  obtain ⟨s1, e1, a1⟩ := fold_abs (fun s p => do
    let s ← hashUpdate S s (r.commitments.getD p [])
    hashUpdate S s (r.broadcasts.getD p [])) (fun p => r.commitments.getD p [] ++ r.broadcasts.getD p []) (List.range I.numParties) (by
      intro p _ msg s h
      obtain ⟨s1, e1, a1⟩ := update_abs hS h _ (small_getD hr.1 p)
      obtain ⟨s2, e2, a2⟩ := update_abs hS a1 _ (small_getD hr.2.1 p)
      refine ⟨s2, by rw [bindOk e1, e2], ?_⟩
      rw [← List.append_assoc]
      exact a2) h
  obtain ⟨s2, e2, a2⟩ := update_abs hS a1 _ hr.2.2.1
  obtain ⟨s3, e3, a3⟩ := update_abs hS a2 _ hr.2.2.2
  refine ⟨s3, ?_, ?_⟩
  · unfold phase1Rep
    rw [bindOk e1, bindOk e2, e3]
  · unfold Rep1Hash.bytes
    rw [← List.append_assoc, ← List.append_assoc]
    exact a3

theorem phase1Commit_eq (I : Instance) (salt pk msg : Bytes) (reps : List Rep1Hash) (h1 : Small salt.length) (h2 : Small pk.length)
    (h3 : Fits (kindRate (kindOf I.digestSize)) ((1 + salt.length + pk.length) % kindRate (kindOf I.digestSize)) msg.length) (h4 : ∀ r ∈ reps, SmallRep r) (h5 : Small I.digestSize) :
    phase1Commit S I salt pk msg reps = .ok (Banquet.phase1Commit (shake f) I salt pk msg reps) := by
  obtain ⟨s1, e1, a1⟩ := prefix_abs hS I.digestSize 1
  obtain ⟨s2, e2, a2⟩ := update_abs hS a1 salt h1
  obtain ⟨s3, e3, a3⟩ := update_abs hS a2 pk h2
  obtain ⟨s4, e4, a4⟩ := update_fits hS a3 msg (by simp; omega) h3
  obtain ⟨s5, e5, a5⟩ := fold_abs (phase1Rep S I) (Rep1Hash.bytes I) reps (fun r hr _ _ h => phase1Rep_abs hS I r (h4 r hr) h) a4
  unfold phase1Commit
  rw [bindOk e1, bindOk e2, bindOk e3, bindOk e4, bindOk e5, digest_abs hS a5 _ h5]
  rfl

theorem phase1Rounds_rd (F : FieldState) (I : Instance) (hl : Small I.lambda) (n : Nat) {p : Nat} (h : Rd f view k msg p s) :
    ∃ s', phase1Rounds S F I n s = .ok (s', (List.range n).map fun e => (List.range I.m1).map fun j => F.fromBytes ((shake f k msg).squeeze (p + (e * I.m1 + j) * I.lambda) I.lambda)) := by
  induction n generalizing p s with
  | zero => exact ⟨s, rfl⟩
  | succ n ih =>
    obtain ⟨s1, e1, a1⟩ := squeezeMany_rd hS I.lambda I.m1 h hl
    obtain ⟨s2, e2⟩ := ih a1
    refine ⟨s2, ?_⟩
    rw [phase1Rounds, bindOk e1, bindOk e2, List.range_succ_eq_map, List.map_cons, List.map_map, List.map_map]
    simp only [Function.comp_def, Nat.zero_mul, Nat.zero_add]
    congr 3
    apply List.map_congr_left
    intro e _
    apply List.map_congr_left
    intro j _
    congr 2
    rw [Nat.succ_mul, Nat.add_right_comm (e * I.m1), Nat.add_mul (e * I.m1 + j)]
    omega

theorem phase1Expand_eq (F : FieldState) (I : Instance) (h1 : Bytes) (hh : Small h1.length) (hl : Small I.lambda) :
    phase1Expand S F I h1 = .ok (Banquet.phase1Expand (shake f) F I h1) := by
  obtain ⟨s1, e1, a1⟩ := update_abs hS (init_abs hS (kindOf I.digestSize)) h1 hh
  obtain ⟨s2, e2, a2⟩ := final_rd hS a1
  obtain ⟨s3, e3⟩ := phase1Rounds_rd hS F I hl I.numRounds a2
  unfold phase1Expand
  rw [bindOk e1, bindOk e2, bindOk e3]
  simp only [Nat.zero_add, List.nil_append, Banquet.phase1Expand]

theorem updateGf_abs (F : FieldState) (hF : Small F.byteSize) (h : Abs f view k msg s) (x : W64) : ∃ s', updateGf S F s x = .ok s' ∧ Abs f view k (msg ++ gfHash F x) s' :=
  update_abs hS h _ (by rw [gfHash_length]; exact hF)

theorem phase2Rep_abs (F : FieldState) (I : Instance) (hF : Small F.byteSize) (d : List W64) (h : Abs f view k msg s) :
    ∃ s', phase2Rep S F I s d = .ok s' ∧ Abs f view k (msg ++ (List.range I.m2).flatMap fun k => gfHash F (d.getD k 0)) s' :=
  fold_abs (fun s k => updateGf S F s (d.getD k 0)) (fun k => gfHash F (d.getD k 0)) (List.range I.m2) (fun i _ _ _ h => updateGf_abs hS F hF h (d.getD i 0)) h

theorem phase2Commit_eq (F : FieldState) (I : Instance) (salt h1 : Bytes) (pDeltas : List (List W64)) (hs : Small salt.length) (hh : Small h1.length) (hF : Small F.byteSize) (hd : Small I.digestSize) :
    phase2Commit S F I salt h1 pDeltas = .ok (Banquet.phase2Commit (shake f) F I salt h1 pDeltas) := by
  obtain ⟨s1, e1, a1⟩ := prefix_abs hS I.digestSize 2
  obtain ⟨s2, e2, a2⟩ := update_abs hS a1 salt hs
  obtain ⟨s3, e3, a3⟩ := update_abs hS a2 h1 hh
  obtain ⟨s4, e4, a4⟩ := fold_abs (phase2Rep S F I) (fun d => (List.range I.m2).flatMap fun k => gfHash F (d.getD k 0)) pDeltas
    (fun d _ _ _ h => phase2Rep_abs hS F I hF d h) a3
  have e5 := digest_abs hS a4 I.digestSize hd
  rw [phase2Commit, bindOk e1, bindOk e2, bindOk e3, bindOk e4, e5, Banquet.phase2Commit, phase2Input]

/-- The loop with the hash context runs like the loop with the stream position. -/
theorem phase2Loop_rd (F : FieldState) (I : Instance) (hl : Small I.lambda) (forbidden : List W64) (fuel : Nat) {p : Nat} (h : Rd f view k msg p s) :
    (∃ e, phase2Loop S F I forbidden fuel s = .error e ∧ Banquet.phase2Loop F I (shake f k msg) forbidden fuel p = .error e) ∨
    ∃ c s' p', phase2Loop S F I forbidden fuel s = .ok (c, s') ∧ Banquet.phase2Loop F I (shake f k msg) forbidden fuel p = .ok (c, p') ∧ Rd f view k msg p' s' := by
  induction fuel generalizing p s with
  | zero => exact Or.inl ⟨_, rfl, rfl⟩
  | succ fuel ih =>
    obtain ⟨s1, e1, a1⟩ := squeeze_rd hS h I.lambda hl
    rw [phase2Loop, Banquet.phase2Loop, bindOk e1]
    simp only
    split
    · exact ih a1
    · exact Or.inr ⟨_, _, _, rfl, rfl, a1⟩

omit hS in
/-- Two loops that keep a relation. -/
theorem foldlM_rel {α σ τ : Type} (R : σ → τ → Prop) (g : σ → α → M σ) (g' : τ → α → M τ) (l : List α)
    (hg : ∀ x ∈ l, ∀ s t, R s t → (∃ e, g s x = .error e ∧ g' t x = .error e) ∨ ∃ s' t', g s x = .ok s' ∧ g' t x = .ok t' ∧ R s' t') (s : σ) (t : τ) (h : R s t) :
    (∃ e, l.foldlM g s = .error e ∧ l.foldlM g' t = .error e) ∨ ∃ s' t', l.foldlM g s = .ok s' ∧ l.foldlM g' t = .ok t' ∧ R s' t' := by
  induction l generalizing s t with
  | nil => exact Or.inr ⟨s, t, rfl, rfl, h⟩
  | cons x l ih =>
    rw [List.foldlM_cons, List.foldlM_cons]
    rcases hg x List.mem_cons_self s t h with ⟨e, e1, e2⟩ | ⟨s', t', e1, e2, h'⟩
    · exact Or.inl ⟨e, by rw [e1]; rfl, by rw [e2]; rfl⟩
    · rw [bindOk e1, bindOk e2]
      exact ih (fun y hy => hg y (List.mem_cons_of_mem _ hy)) s' t' h'

theorem phase2Expand_eq (fuel : Nat) (F : FieldState) (I : Instance) (h2 : Bytes) (forbidden : List W64) (hh : Small h2.length) (hl : Small I.lambda) :
    phase2Expand S fuel F I h2 forbidden = Banquet.phase2Expand (shake f) fuel F I h2 forbidden := by
  obtain ⟨s1, e1, a1⟩ := update_abs hS (init_abs hS (kindOf I.digestSize)) h2 hh
  obtain ⟨s2, e2, a2⟩ := final_rd hS a1
  unfold phase2Expand Banquet.phase2Expand
  rw [bindOk e1, bindOk e2]
  simp only
  rcases foldlM_rel (fun (st : List W64 × Sponge S) (st' : List W64 × Nat) => st.1 = st'.1 ∧ Rd f view (kindOf I.digestSize) h2 st'.2 st.2)
    (fun (st : List W64 × Sponge S) (_ : Nat) => do
      let (c, s) ← phase2Loop S F I forbidden fuel st.2
      .ok (st.1 ++ [c], s))
    (fun (st : List W64 × Nat) (_ : Nat) => do
      let (c, off) ← Banquet.phase2Loop F I (shake f (kindOf I.digestSize) h2) forbidden fuel st.2
      .ok (st.1 ++ [c], off)) (List.range I.numRounds) (by
        rintro e - ⟨l, s⟩ ⟨l', p⟩ ⟨rfl, h⟩
        rcases phase2Loop_rd hS F I hl forbidden fuel h with ⟨e, e1, e2⟩ | ⟨c, s', p', e1, e2, h'⟩
        · exact Or.inl ⟨e, by simp only; rw [e1]; rfl, by simp only; rw [e2]; rfl⟩
        · exact Or.inr ⟨_, _, by simp only; rw [bindOk e1], by simp only; rw [bindOk e2], rfl, h'⟩) ([], s2) ([], 0) ⟨rfl, a2⟩ with ⟨e, e1, e2⟩ | ⟨s', t', e1, e2, h⟩
  · rw [e1, e2]; rfl
  · rw [bindOk e1, bindOk e2, h.1]

theorem phase3Rep_abs (F : FieldState) (I : Instance) (hF : Small F.byteSize) (r : Rep3) (h : Abs f view k msg s) : ∃ s', phase3Rep S F I s r = .ok s' ∧ Abs f view k (msg ++ r.bytes F I) s' := by
  obtain ⟨s1, e1, a1⟩ := updateGf_abs hS F hF h r.c
  obtain ⟨s2, e2, a2⟩ := fold_abs (fun s p => updateGf S F s (r.cShares.getD p 0)) (fun p => gfHash F (r.cShares.getD p 0)) (List.range I.numParties) (fun i _ _ _ h => updateGf_abs hS F hF h _) a1
  obtain ⟨s3, e3, a3⟩ := fold_abs (fun s j => do
    let s ← updateGf S F s (r.a.getD j 0)
    let s ← updateGf S F s (r.b.getD j 0)
    (List.range I.numParties).foldlM (fun s p => do
      let s ← updateGf S F s ((r.aShares.getD p []).getD j 0)
      updateGf S F s ((r.bShares.getD p []).getD j 0)) s) (fun j => gfHash F (r.a.getD j 0) ++ gfHash F (r.b.getD j 0) ++
    (List.range I.numParties).flatMap fun p => gfHash F ((r.aShares.getD p []).getD j 0) ++ gfHash F ((r.bShares.getD p []).getD j 0)) (List.range I.m1) (by
      intro j _ msg s h
      obtain ⟨s1, e1, a1⟩ := updateGf_abs hS F hF h (r.a.getD j 0)
      obtain ⟨s2, e2, a2⟩ := updateGf_abs hS F hF a1 (r.b.getD j 0)
      obtain ⟨s3, e3, a3⟩ := fold_abs (fun s p => do
        let s ← updateGf S F s ((r.aShares.getD p []).getD j 0)
        updateGf S F s ((r.bShares.getD p []).getD j 0)) (fun p => gfHash F ((r.aShares.getD p []).getD j 0) ++ gfHash F ((r.bShares.getD p []).getD j 0)) (List.range I.numParties) (by
          intro p _ msg s h
          obtain ⟨s1, e1, a1⟩ := updateGf_abs hS F hF h ((r.aShares.getD p []).getD j 0)
          obtain ⟨s2, e2, a2⟩ := updateGf_abs hS F hF a1 ((r.bShares.getD p []).getD j 0)
          refine ⟨s2, by rw [bindOk e1, e2], ?_⟩
          rw [← List.append_assoc]
          exact a2) a2
      refine ⟨s3, by rw [bindOk e1, bindOk e2, e3], ?_⟩
      rw [← List.append_assoc, ← List.append_assoc]
      exact a3) a2
  refine ⟨s3, ?_, ?_⟩
  · unfold phase3Rep
    rw [bindOk e1, bindOk e2, e3]
  · unfold Rep3.bytes
    rw [← List.append_assoc, ← List.append_assoc]
    exact a3

theorem phase3Commit_eq (F : FieldState) (I : Instance) (salt h2 : Bytes) (reps : List Rep3) (hs : Small salt.length) (hh : Small h2.length) (hF : Small F.byteSize) (hd : Small I.digestSize) :
    phase3Commit S F I salt h2 reps = .ok (Banquet.phase3Commit (shake f) F I salt h2 reps) := by
  obtain ⟨s1, e1, a1⟩ := prefix_abs hS I.digestSize 3
  obtain ⟨s2, e2, a2⟩ := update_abs hS a1 salt hs
  obtain ⟨s3, e3, a3⟩ := update_abs hS a2 h2 hh
  obtain ⟨s4, e4, a4⟩ := fold_abs (phase3Rep S F I) (Rep3.bytes F I) reps (fun r _ _ _ h => phase3Rep_abs hS F I hF r h) a3
  unfold phase3Commit
  rw [bindOk e1, bindOk e2, bindOk e3, bindOk e4, digest_abs hS a4 _ hd]
  rfl

omit hS in
theorem and_mask_lo (a b m : Nat) (h : m < 256) : (a + 256 * b) &&& m = a &&& m := by
  apply Nat.eq_of_testBit_eq
  intro i
  rw [Nat.testBit_and, Nat.testBit_and]
  by_cases hi : i < 8
  · congr 1
    have e1 : (a + 256 * b) % 2 ^ 8 = a % 2 ^ 8 := by omega
    have := congrArg (fun x => Nat.testBit x i) e1
    simp only [Nat.testBit_mod_two_pow, hi, decide_true, Bool.true_and] at this
    exact this
  · have : m.testBit i = false := Nat.testBit_lt_two_pow (lt_of_lt_of_le h (Nat.pow_le_pow_right (n := 2) (by norm_num) (show 8 ≤ i by omega)))
    rw [this, Bool.and_false, Bool.and_false]

theorem phase3Loop_rd (n : Nat) (hm : numSqueezeBytes n = 1 → (2 ^ ceilLog2 n - 1) % 2 ^ 16 < 256) (fuel : Nat) {p : Nat} (party : Nat) (h : Rd f view k msg p s) :
    (∃ e, phase3Loop S n fuel s party = .error e ∧ Banquet.phase3Loop n (shake f k msg) (fun _ => 0) fuel p = .error e) ∨
    ∃ c s' p', phase3Loop S n fuel s party = .ok (c, s') ∧ Banquet.phase3Loop n (shake f k msg) (fun _ => 0) fuel p = .ok (c, p') ∧ Rd f view k msg p' s' := by
  induction fuel generalizing p s party with
  | zero => exact Or.inl ⟨_, rfl, rfl⟩
  | succ fuel ih =>
    obtain ⟨s1, e1, a1⟩ := squeeze_rd hS h (numSqueezeBytes n) (by unfold Small numSqueezeBytes; split <;> norm_num)
    have ec : ((((shake f k msg).squeeze p (numSqueezeBytes n)).getD 0 0).toNat + 256 * (if numSqueezeBytes n = 2 then (((shake f k msg).squeeze p (numSqueezeBytes n)).getD 1 0).toNat else party / 256)) &&&
        ((2 ^ ceilLog2 n - 1) % 2 ^ 16) = phase3Candidate n (shake f k msg) 0 p := by
      unfold phase3Candidate
      by_cases h2 : numSqueezeBytes n = 2
      · rw [h2]
        rfl
      · have h1 : numSqueezeBytes n = 1 := by unfold numSqueezeBytes at h2 ⊢; split at h2 <;> simp_all
        rw [h1]
        simp only [OfNat.one_ne_ofNat, if_false]
        rw [and_mask_lo _ _ _ (hm h1), and_mask_lo _ _ _ (hm h1)]
        rfl
    rw [phase3Loop, Banquet.phase3Loop, bindOk e1]
    simp only
    rw [ec]
    split
    · exact ih _ a1
    · exact Or.inr ⟨_, _, _, rfl, rfl, a1⟩

theorem phase3Expand_eq (junk : Nat → Nat) (fuel : Nat) (I : Instance) (h3 : Bytes) (hh : Small h3.length) (hm : numSqueezeBytes I.numParties = 1 → (2 ^ ceilLog2 I.numParties - 1) % 2 ^ 16 < 256) :
    phase3Expand S junk fuel I h3 = Banquet.phase3Expand (shake f) fuel I h3 := by
  obtain ⟨s1, e1, a1⟩ := update_abs hS (init_abs hS (kindOf I.digestSize)) h3 hh
  obtain ⟨s2, e2, a2⟩ := final_rd hS a1
  unfold phase3Expand Banquet.phase3Expand phase3ExpandJ
  rw [bindOk e1, bindOk e2]
  simp only
  rcases foldlM_rel (fun (st : List Nat × Sponge S) (st' : List Nat × Nat) => st.1 = st'.1 ∧ Rd f view (kindOf I.digestSize) h3 st'.2 st.2)
    (fun (st : List Nat × Sponge S) (e : Nat) => do
      let (p, s) ← phase3Loop S I.numParties fuel st.2 (junk e)
      .ok (st.1 ++ [p], s))
    (fun (st : List Nat × Nat) (_ : Nat) => do
      let (p, off) ← Banquet.phase3Loop I.numParties (shake f (kindOf I.digestSize) h3) (fun _ => 0) fuel st.2
      .ok (st.1 ++ [p], off)) (List.range I.numRounds) (by
        rintro e - ⟨l, s⟩ ⟨l', p⟩ ⟨rfl, h⟩
        rcases phase3Loop_rd hS I.numParties hm fuel (junk e) h with ⟨e, e1, e2⟩ | ⟨c, s', p', e1, e2, h'⟩
        · exact Or.inl ⟨e, by simp only; rw [e1]; rfl, by simp only; rw [e2]; rfl⟩
        · exact Or.inr ⟨_, _, by simp only; rw [bindOk e1], by simp only; rw [bindOk e2], rfl, h'⟩) ([], s2) ([], 0) ⟨rfl, a2⟩ with ⟨e, e1, e2⟩ | ⟨s', t', e1, e2, h⟩
  · rw [e1, e2]; rfl
  · rw [bindOk e1, bindOk e2, h.1]

end one

section four

variable {f : St → St} {S : PlSnP} {view : S.State → Fin 4 → St}

/-- The lanes have absorbed `msg`. -/
def Abs4 (f : St → St) (view : S.State → Fin 4 → St) (k : ShakeKind) (msg : Fin 4 → Bytes) (s : Sponge4 S) : Prop := ∀ l, (s.abs view).lane l = Ideal.ctx f k (msg l)

/-- The lanes have absorbed `msg`, and `p` bytes of each have been squeezed. -/
def Rd4 (f : St → St) (view : S.State → Fin 4 → St) (k : ShakeKind) (msg : Fin 4 → Bytes) (p : Nat) (s : Sponge4 S) : Prop :=
  ∀ l, Ideal.SqInv f (absorb f (shakeRate k) (padShake (shakeRate k) (msg l))) (kindRate k) p ((s.abs view).lane l)

variable (hS : PlSnp f S view) {k : ShakeKind} {msg : Fin 4 → Bytes} {s : Sponge4 S}
include hS

theorem init_abs4 (k : ShakeKind) : Abs4 f view k (fun _ => []) (hashInit4 S k) := by
  intro l
  simp only [Sponge4.abs, hashInit4, Ideal.Sponge4.lane, hS.init]
  rfl

theorem update_abs4 (h : Abs4 f view k msg s) (d : Fin 4 → Bytes) (len : Nat) (hd : ∀ l, len ≤ (d l).length) (hl : Small len) :
    ∃ s', update4 S s d len = .ok s' ∧ Abs4 f view k (fun l => msg l ++ (d l).take len) s' := by
  obtain ⟨s', e, a⟩ := hashUpdate4_sim hS h (fun l => (d l).take len) len (fun l => by rw [List.length_take]; exact Nat.min_eq_left (hd l)) (hl.rate k)
  refine ⟨s', ?_, a⟩
  unfold update4
  rw [decide_eq_true hd]
  exact e

theorem one_abs4 (h : Abs4 f view k msg s) (d : Bytes) (hd : Small d.length) : ∃ s', update4One S s d = .ok s' ∧ Abs4 f view k (fun l => msg l ++ d) s' := by
  obtain ⟨s', e, a⟩ := update_abs4 hS h (fun _ => d) d.length (fun _ => le_rfl) hd
  simp only [List.take_length] at a
  exact ⟨s', e, a⟩

theorem u16_abs4 (h : Abs4 f view k msg s) (n : Nat) : ∃ s', update4U16 S s n = .ok s' ∧ Abs4 f view k (fun l => msg l ++ le16 n) s' :=
  one_abs4 hS h (le16 n) (by rw [le16_length]; unfold Small; norm_num)

theorem u16s_abs4 (h : Abs4 f view k msg s) (n : Fin 4 → Nat) : ∃ s', update4U16s S s n = .ok s' ∧ Abs4 f view k (fun l => msg l ++ le16 (n l)) s' := by
  obtain ⟨s', e, a⟩ := update_abs4 hS h (fun l => le16 (n l)) 2 (fun _ => le_rfl) (by unfold Small; norm_num)
  exact ⟨s', e, a⟩

theorem prefix_abs4 (n : Nat) (b : Byte) : ∃ s', initPrefix4 S n b = .ok s' ∧ Abs4 f view (kindOf n) (fun _ => [b]) s' :=
  one_abs4 hS (init_abs4 hS _) [b] (by unfold Small; norm_num)

theorem final_rd4 (h : Abs4 f view k msg s) : ∃ s', hashFinal4 S s = .ok s' ∧ Rd4 f view k msg 0 s' := by
  obtain ⟨s', e, g⟩ := hashFinal4_sim hS h
  simp only [Ideal.hashFinal_ctx] at g
  exact ⟨s', e, fun l => ⟨(congrArg Ideal.Sponge.rate (g l)).trans (Ideal.kindRate_eq k).symm, congrArg Ideal.Sponge.squeezing (g l), by rw [g]; exact Nat.zero_le _, 0,
    congrArg Ideal.Sponge.state (g l), by rw [g]; simp⟩⟩

theorem squeeze_rd4 {p : Nat} (h : Rd4 f view k msg p s) (n : Nat) (hn : Small n) :
    ∃ s', hashSqueeze4 S s n = .ok (s', fun l => (shake f k (msg l)).squeeze p n) ∧ Rd4 f view k msg (p + n) s' := by
  obtain ⟨s', e, g⟩ := hashSqueeze4_sim hS _ s n (kind_facts k).2.2 (kind_facts k).2.1 h (hn.rate k)
  refine ⟨s', ?_, g⟩
  rw [e, Ideal.kindRate_eq]
  rfl

theorem expandSeed4_eq (seedSize : Nat) (seeds : Fin 4 → Bytes) (salt : Bytes) (rep node : Nat) (h0 : ∀ l, seedSize ≤ (seeds l).length) (h1 : Small seedSize) (h2 : Small salt.length) :
    expandSeed4 S seedSize seeds salt rep node = .ok fun l => expandSeedLane (shake f) seedSize (seeds l) salt rep (node + l.val) := by
  obtain ⟨s1, e1, a1⟩ := prefix_abs4 hS (seedSize * 2) 1
  obtain ⟨s2, e2, a2⟩ := update_abs4 hS a1 seeds seedSize h0 h1
  obtain ⟨s3, e3, a3⟩ := one_abs4 hS a2 salt h2
  obtain ⟨s4, e4, a4⟩ := u16_abs4 hS a3 rep
  obtain ⟨s5, e5, a5⟩ := u16s_abs4 hS a4 fun l => node + l.val
  obtain ⟨s6, e6, a6⟩ := final_rd4 hS a5
  obtain ⟨s7, e7, a7⟩ := squeeze_rd4 hS a6 seedSize h1
  obtain ⟨s8, e8, a8⟩ := squeeze_rd4 hS a7 seedSize h1
  unfold expandSeed4 expandSeedLane
  rw [bindOk e1, bindOk e2, bindOk e3, bindOk e4, bindOk e5, bindOk e6, bindOk e7, bindOk e8, Nat.mul_comm 2, Nat.zero_add]

theorem genTape4_eq (n : Nat) (seeds : Fin 4 → Bytes) (salt : Bytes) (rep party : Nat) (h0 : ∀ l, (seeds 0).length ≤ (seeds l).length) (h1 : Small (seeds 0).length) (h2 : Small salt.length) (h3 : Small n) :
    genTape4 S n seeds salt rep party = .ok fun l => genTapeLane (shake f) n (seeds 0).length (seeds l) salt rep (party + l.val) := by
  obtain ⟨s2, e2, a2⟩ := update_abs4 hS (init_abs4 hS (kindOf ((seeds 0).length * 2))) seeds (seeds 0).length h0 h1
  obtain ⟨s3, e3, a3⟩ := one_abs4 hS a2 salt h2
  obtain ⟨s4, e4, a4⟩ := u16_abs4 hS a3 rep
  obtain ⟨s5, e5, a5⟩ := u16s_abs4 hS a4 fun l => party + l.val
  obtain ⟨s6, e6, a6⟩ := final_rd4 hS a5
  obtain ⟨s7, e7, a7⟩ := squeeze_rd4 hS a6 n h3
  unfold genTape4 genTapeLane
  rw [bindOk e2, bindOk e3, bindOk e4, bindOk e5, bindOk e6, bindOk e7, Nat.mul_comm 2]
  rfl

theorem commit4_eq (I : Instance) (seeds : Fin 4 → Bytes) (salt : Bytes) (rep party : Nat) (h0 : ∀ l, I.seedSize ≤ (seeds l).length) (h1 : Small I.seedSize) (h2 : Small salt.length) (h3 : Small I.digestSize) :
    commit4 S I seeds salt rep party = .ok fun l => commitLane (shake f) I (seeds l) salt rep (party + l.val) := by
  obtain ⟨s2, e2, a2⟩ := one_abs4 hS (init_abs4 hS (kindOf I.digestSize)) salt h2
  obtain ⟨s3, e3, a3⟩ := u16_abs4 hS a2 rep
  obtain ⟨s4, e4, a4⟩ := u16s_abs4 hS a3 fun l => party + l.val
  obtain ⟨s5, e5, a5⟩ := update_abs4 hS a4 seeds I.seedSize h0 h1
  obtain ⟨s6, e6, a6⟩ := final_rd4 hS a5
  obtain ⟨s7, e7, a7⟩ := squeeze_rd4 hS a6 I.digestSize h3
  unfold commit4 commitLane
  rw [bindOk e2, bindOk e3, bindOk e4, bindOk e5, bindOk e6, bindOk e7]
  rfl

end four

end Banquet.Code
