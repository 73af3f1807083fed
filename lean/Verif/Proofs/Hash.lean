import Verif.Model.Banquet
import Verif.Proofs.Lift
import Verif.Proofs.Tree

/-! Injectivity of hash inputs, and the challenge expansions. -/

namespace Banquet

open Spec

theorem squeeze_len (s : Stream) (off len : Nat) : (s.squeeze off len).length = len := squeeze_length s off len

theorem getD_range_map {α : Type} (f : Nat → α) (n i : Nat) (d : α) (h : i < n) : ((List.range n).map f).getD i d = f i := by
  rw [List.getD_eq_getElem?_getD, List.getElem?_map, List.getElem?_range h]; rfl

/-- A list is the table of its entries. -/
theorem eq_range_map {α : Type} (l : List α) (n : Nat) (d : α) (h : l.length = n) : l = (List.range n).map fun i => l.getD i d := by
  subst h
  apply List.ext_getElem?
  intro i
  by_cases hi : i < l.length
  · rw [List.getElem?_map, List.getElem?_range hi, List.getElem?_eq_getElem hi, Option.map_some, List.getD_eq_getElem?_getD, List.getElem?_eq_getElem hi]; rfl
  · rw [List.getElem?_eq_none (by omega), List.getElem?_eq_none (by simp; omega)]

theorem ext_getD {α : Type} {l m : List α} {n : Nat} (d : α) (hl : l.length = n) (hm : m.length = n) (h : ∀ i < n, l.getD i d = m.getD i d) : l = m := by
  rw [eq_range_map l n d hl, eq_range_map m n d hm]
  apply List.map_congr_left
  intro i hi
  exact h i (List.mem_range.1 hi)

theorem length_flatMap_range {α : Type} (f : Nat → List α) (n k : Nat) (h : ∀ i < n, (f i).length = k) : ((List.range n).flatMap f).length = n * k := by
  induction n with
  | zero => simp
  | succ n ih =>
    rw [List.range_succ, List.flatMap_append, List.length_append, ih fun i hi => h i (by omega)]
    simp only [List.flatMap_cons, List.flatMap_nil, List.append_nil]
    rw [h n (by omega)]
    ring

theorem flatMap_range_inj {α : Type} (f g : Nat → List α) (n : Nat) (hl : ∀ i < n, (f i).length = (g i).length)
    (h : (List.range n).flatMap f = (List.range n).flatMap g) : ∀ i < n, f i = g i := by
  induction n with
  | zero => intro i hi; omega
  | succ n ih =>
    rw [List.range_succ, List.flatMap_append, List.flatMap_append] at h
    simp only [List.flatMap_cons, List.flatMap_nil, List.append_nil] at h
    have hn := hl n (by omega)
    obtain ⟨h1, h2⟩ := List.append_inj' h hn
    intro i hi
    rcases Nat.lt_succ_iff_lt_or_eq.1 hi with hlt | rfl
    · exact ih (fun i hi => hl i (by omega)) h1 i hlt
    · exact h2

theorem length_flatMap_const {α β : Type} (l : List β) (f : β → List α) (k : Nat) (h : ∀ x ∈ l, (f x).length = k) : (l.flatMap f).length = l.length * k := by
  induction l with
  | nil => simp
  | cons x xs ih =>
    rw [List.flatMap_cons, List.length_append, h x (by simp), ih fun y hy => h y (by simp [hy]), List.length_cons]
    ring

theorem flatMap_inj {α β : Type} (f : β → List α) (P : β → Prop) (k : Nat) (hk : ∀ x, P x → (f x).length = k)
    (hf : ∀ x y, P x → P y → f x = f y → x = y) (l m : List β) (hl : ∀ x ∈ l, P x) (hm : ∀ x ∈ m, P x) (hlen : l.length = m.length)
    (h : l.flatMap f = m.flatMap f) : l = m := by
  induction l generalizing m with
  | nil => cases m with
    | nil => rfl
    | cons => simp at hlen
  | cons x xs ih => cases m with
    | nil => simp at hlen
    | cons y ys =>
      rw [List.flatMap_cons, List.flatMap_cons] at h
      have hx := hl x (by simp)
      have hy := hm y (by simp)
      obtain ⟨h1, h2⟩ := List.append_inj h ((hk x hx).trans (hk y hy).symm)
      rw [hf x y hx hy h1, ih ys (fun z hz => hl z (by simp [hz])) (fun z hz => hm z (by simp [hz])) (by simpa using hlen) h2]

/-! Phase 2 challenges. -/

section
variable {F : FieldState} [hF : FieldOk F]

theorem phase2Loop_spec (I : Instance) (s : Stream) (forbidden : List W64) (fuel off : Nat) (c : W64) (off' : Nat)
    (h : phase2Loop F I s forbidden fuel off = .ok (c, off')) : Reduced F.byteSize c ∧ ∀ k < I.m2, c ≠ forbidden.getD k 0 := by
  induction fuel generalizing off with
  | zero => cases h
  | succ fuel ih =>
    rw [phase2Loop] at h
    split at h
    · exact ih _ h
    · rename_i hc
      have e : (F.fromBytes (s.squeeze off I.lambda), off + I.lambda) = (c, off') := by injection h
      have e1 : F.fromBytes (s.squeeze off I.lambda) = c := congrArg Prod.fst e
      subst e1
      refine ⟨reduced_fromBytes _, ?_⟩
      intro k hk he
      apply hc
      rw [List.any_eq_true]
      exact ⟨k, List.mem_range.2 hk, by rw [he]; exact beq_self_eq_true _⟩

theorem phase2Expand_spec (X : Xof) (fuel : Nat) (I : Instance) (h2 : Bytes) (forbidden : List W64) (Rs : List W64)
    (h : phase2Expand X fuel F I h2 forbidden = .ok Rs) : Rs.length = I.numRounds ∧ ∀ R ∈ Rs, Reduced F.byteSize R ∧ ∀ k < I.m2, R ≠ forbidden.getD k 0 := by
  unfold phase2Expand at h
  dsimp only at h
  cases hr : (List.range I.numRounds).foldlM (fun (st : List W64 × Nat) _ => do
    let (c, off) ← phase2Loop F I (X (kindOf I.digestSize) h2) forbidden fuel st.2
    (.ok (st.1 ++ [c], off) : M (List W64 × Nat))) ([], 0) with
  | error e => rw [hr] at h; cases h
  | ok r =>
    rw [hr] at h
    have h : r.1 = Rs := by injection h
    subst h
    refine (foldlM_range_inv _ (fun k (st : List W64 × Nat) => st.1.length = k ∧ ∀ R ∈ st.1, Reduced F.byteSize R ∧ ∀ k < I.m2, R ≠ forbidden.getD k 0) False I.numRounds ?_ _ ?_).2 r hr
    · intro i _ st hst
      refine ⟨fun hc => hc.elim, ?_⟩
      intro st' hst'
      cases hl : phase2Loop F I (X (kindOf I.digestSize) h2) forbidden fuel st.2 with
      | error e => rw [hl] at hst'; cases hst'
      | ok r =>
        rw [hl] at hst'
        have e : (st.1 ++ [r.1], r.2) = st' := by injection hst'
        subst e
        have := phase2Loop_spec I _ forbidden fuel st.2 r.1 r.2 hl
        refine ⟨by simp [hst.1], ?_⟩
        intro R hR
        rcases List.mem_append.1 hR with hR | hR
        · exact hst.2 R hR
        · rw [List.mem_singleton.1 hR]; exact this
    · exact ⟨rfl, by simp⟩

end

/-! Phase 3 challenges. -/

theorem phase3Loop_lt (n : Nat) (s : Stream) (junk : Nat → Byte) (fuel off p off' : Nat) (h : phase3Loop n s junk fuel off = .ok (p, off')) : p < n := by
  induction fuel generalizing off with
  | zero => cases h
  | succ fuel ih =>
    rw [phase3Loop] at h
    split at h
    · exact ih _ h
    · rename_i hc
      have e : (phase3Candidate n s (junk off) off, off + numSqueezeBytes n) = (p, off') := by injection h
      have e1 : phase3Candidate n s (junk off) off = p := congrArg Prod.fst e
      omega

theorem phase3Expand_spec (X : Xof) (junk : Nat → Byte) (fuel : Nat) (I : Instance) (h3 : Bytes) (ms : List Nat)
    (h : phase3ExpandJ X junk fuel I h3 = .ok ms) : ms.length = I.numRounds ∧ ∀ m ∈ ms, m < I.numParties := by
  unfold phase3ExpandJ at h
  dsimp only at h
  cases hr : (List.range I.numRounds).foldlM (fun (st : List Nat × Nat) _ => do
    let (p, off) ← phase3Loop I.numParties (X (kindOf I.digestSize) h3) junk fuel st.2
    (.ok (st.1 ++ [p], off) : M (List Nat × Nat))) ([], 0) with
  | error e => rw [hr] at h; cases h
  | ok r =>
    rw [hr] at h
    have h : r.1 = ms := by injection h
    subst h
    refine (foldlM_range_inv _ (fun k (st : List Nat × Nat) => st.1.length = k ∧ ∀ m ∈ st.1, m < I.numParties) False I.numRounds ?_ _ ?_).2 r hr
    · intro i _ st hst
      refine ⟨fun hc => hc.elim, ?_⟩
      intro st' hst'
      cases hl : phase3Loop I.numParties (X (kindOf I.digestSize) h3) junk fuel st.2 with
      | error e => rw [hl] at hst'; cases hst'
      | ok r =>
        rw [hl] at hst'
        have e : (st.1 ++ [r.1], r.2) = st' := by injection hst'
        subst e
        have := phase3Loop_lt _ _ junk fuel st.2 r.1 r.2 hl
        refine ⟨by simp [hst.1], ?_⟩
        intro m hm
        rcases List.mem_append.1 hm with hm | hm
        · exact hst.2 m hm
        · rw [List.mem_singleton.1 hm]; exact this
    · exact ⟨rfl, by simp⟩

theorem and_mask (x c : Nat) : x &&& (2 ^ c - 1) = x % 2 ^ c := Nat.and_two_pow_sub_one_eq_mod x c

theorem phase3Candidate_junk (n : Nat) (s : Stream) (j1 j2 : Byte) (off : Nat) : phase3Candidate n s j1 off = phase3Candidate n s j2 off := by
  unfold phase3Candidate
  dsimp only
  by_cases h : numSqueezeBytes n = 2
  · rw [if_pos h, if_pos h]
  · rw [if_neg h, if_neg h]
    have hn : n ≤ 256 := by
      by_contra hc
      exact h (if_pos (by omega))
    have hc : ceilLog2 n ≤ 8 := by
      rw [ceilLog2_eq n (by omega)]
      exact Nat.clog_le_of_le_pow (by norm_num; omega)
    have hp : 2 ^ ceilLog2 n ≤ 2 ^ 8 := Nat.pow_le_pow_right (by norm_num) hc
    have hpos : 0 < 2 ^ ceilLog2 n := by positivity
    rw [Nat.mod_eq_of_lt (by omega), and_mask, and_mask]
    have key : ∀ hi, ((s.get off).toNat + 256 * hi) % 2 ^ ceilLog2 n = (s.get off).toNat % 2 ^ ceilLog2 n := by
      intro hi
      have : 2 ^ ceilLog2 n ∣ 256 * hi := Dvd.dvd.mul_right (by
        calc 2 ^ ceilLog2 n ∣ 2 ^ 8 := pow_dvd_pow 2 hc
          _ = 256 := by norm_num) hi
      obtain ⟨q, hq⟩ := this
      rw [hq, Nat.add_mul_mod_self_left]
    rw [key, key]

theorem phase3Loop_junk (n : Nat) (s : Stream) (j1 j2 : Nat → Byte) (fuel off : Nat) : phase3Loop n s j1 fuel off = phase3Loop n s j2 fuel off := by
  induction fuel generalizing off with
  | zero => rfl
  | succ fuel ih =>
    rw [phase3Loop, phase3Loop]
    rw [phase3Candidate_junk n s (j1 off) (j2 off), ih]

/-! The inputs of the challenge hashes. -/

theorem le16_length (n : Nat) : (le16 n).length = 2 := rfl

/-- Sizes of what one repetition contributes to the first hash. -/
structure Rep1Hash.Sized (I : Instance) (r : Rep1Hash) : Prop where
  commitments : r.commitments.length = I.numParties ∧ ∀ c ∈ r.commitments, c.length = I.digestSize
  broadcasts : r.broadcasts.length = I.numParties ∧ ∀ c ∈ r.broadcasts, c.length = I.ctSize
  keyDelta : r.keyDelta.length = I.aes.keySize
  tDelta : r.tDelta.length = I.aes.numSboxes

theorem getD_len {l : List Bytes} {n k : Nat} (h : l.length = n ∧ ∀ c ∈ l, c.length = k) (i : Nat) (hi : i < n) : (l.getD i []).length = k := by
  rw [getD_of_lt (by omega)]
  exact h.2 _ (List.getElem_mem _)

theorem Rep1Hash.bytes_length (I : Instance) (r : Rep1Hash) (h : r.Sized I) :
    (r.bytes I).length = I.numParties * (I.digestSize + I.ctSize) + I.aes.keySize + I.aes.numSboxes := by
  unfold Rep1Hash.bytes
  rw [List.length_append, List.length_append, length_flatMap_range _ _ (I.digestSize + I.ctSize), h.keyDelta, h.tDelta]
  intro i hi
  rw [List.length_append, getD_len h.commitments i hi, getD_len h.broadcasts i hi]

theorem Rep1Hash.bytes_inj (I : Instance) (r r' : Rep1Hash) (h : r.Sized I) (h' : r'.Sized I) (e : r.bytes I = r'.bytes I) : r = r' := by
  unfold Rep1Hash.bytes at e
  obtain ⟨e1, e4⟩ := List.append_inj' e (h.tDelta.trans h'.tDelta.symm)
  obtain ⟨e1, e3⟩ := List.append_inj' e1 (h.keyDelta.trans h'.keyDelta.symm)
  have e2 := flatMap_range_inj _ _ _ (by
    intro i hi
    rw [List.length_append, List.length_append, getD_len h.commitments i hi, getD_len h.broadcasts i hi, getD_len h'.commitments i hi, getD_len h'.broadcasts i hi]) e1
  have key : ∀ i < I.numParties, r.commitments.getD i [] = r'.commitments.getD i [] ∧ r.broadcasts.getD i [] = r'.broadcasts.getD i [] := by
    intro i hi
    exact List.append_inj (e2 i hi) ((getD_len h.commitments i hi).trans (getD_len h'.commitments i hi).symm)
  have c1 := ext_getD [] h.commitments.1 h'.commitments.1 fun i hi => (key i hi).1
  have c2 := ext_getD [] h.broadcasts.1 h'.broadcasts.1 fun i hi => (key i hi).2
  cases r
  cases r'
  subst c1 c2 e3 e4
  rfl

theorem phase1Input_inj (I : Instance) (salt pk msg salt' pk' msg' : Bytes) (reps reps' : List Rep1Hash) (hs : salt.length = salt'.length) (hp : pk.length = pk'.length)
    (hr : reps.length = reps'.length) (h : ∀ r ∈ reps, r.Sized I) (h' : ∀ r ∈ reps', r.Sized I)
    (e : phase1Input I salt pk msg reps = phase1Input I salt' pk' msg' reps') : salt = salt' ∧ pk = pk' ∧ msg = msg' ∧ reps = reps' := by
  unfold phase1Input at e
  have hl : (reps.flatMap (Rep1Hash.bytes I)).length = (reps'.flatMap (Rep1Hash.bytes I)).length := by
    rw [length_flatMap_const _ _ _ fun r hr => r.bytes_length I (h r hr), length_flatMap_const _ _ _ fun r hr => r.bytes_length I (h' r hr), hr]
  obtain ⟨e1, e5⟩ := List.append_inj' e hl
  have hm := congrArg List.length e1
  simp only [List.length_append] at hm
  obtain ⟨e1, e4⟩ := List.append_inj' e1 (by omega)
  obtain ⟨e1, e3⟩ := List.append_inj' e1 hp
  obtain ⟨_, e2⟩ := List.append_inj' e1 hs
  exact ⟨e2, e3, e4, flatMap_inj _ (Rep1Hash.Sized I) _ (fun r hr => r.bytes_length I hr) (fun r r' a b => r.bytes_inj I r' a b) _ _ h h' hr e5⟩

section
variable {F : FieldState} [hF : FieldOk F]

omit hF in
theorem gfHash_length (x : W64) : (gfHash F x).length = F.byteSize := length_toBytes x

theorem gfHash_inj (x y : W64) (hx : Reduced F.byteSize x) (hy : Reduced F.byteSize y) (h : gfHash F x = gfHash F y) : x = y := toBytes_inj hx hy h

/-- Sizes of what one repetition contributes to the third hash. -/
structure Rep3.Sized (F : FieldState) (I : Instance) (r : Rep3) : Prop where
  c : Reduced F.byteSize r.c
  cShares : r.cShares.length = I.numParties ∧ ∀ x ∈ r.cShares, Reduced F.byteSize x
  a : r.a.length = I.m1 ∧ ∀ x ∈ r.a, Reduced F.byteSize x
  b : r.b.length = I.m1 ∧ ∀ x ∈ r.b, Reduced F.byteSize x
  aShares : r.aShares.length = I.numParties ∧ ∀ l ∈ r.aShares, l.length = I.m1 ∧ ∀ x ∈ l, Reduced F.byteSize x
  bShares : r.bShares.length = I.numParties ∧ ∀ l ∈ r.bShares, l.length = I.m1 ∧ ∀ x ∈ l, Reduced F.byteSize x

theorem getD_prop {α : Type} {l : List α} {n : Nat} {P : α → Prop} (d : α) (h : l.length = n ∧ ∀ c ∈ l, P c) (i : Nat) (hi : i < n) : P (l.getD i d) := by
  rw [getD_of_lt (by omega)]
  exact h.2 _ (List.getElem_mem _)

omit hF in
theorem Rep3.bytes_length (I : Instance) (r : Rep3) :
    (r.bytes F I).length = F.byteSize + I.numParties * F.byteSize + I.m1 * (F.byteSize + F.byteSize + I.numParties * (F.byteSize + F.byteSize)) := by
  unfold Rep3.bytes
  rw [List.length_append, List.length_append, gfHash_length, length_flatMap_range _ _ F.byteSize fun i _ => gfHash_length _,
    length_flatMap_range _ _ (F.byteSize + F.byteSize + I.numParties * (F.byteSize + F.byteSize))]
  intro j _
  rw [List.length_append, List.length_append, gfHash_length, gfHash_length, length_flatMap_range _ _ (F.byteSize + F.byteSize)]
  intro p _
  rw [List.length_append, gfHash_length, gfHash_length]

theorem Rep3.bytes_inj (I : Instance) (r r' : Rep3) (h : r.Sized F I) (h' : r'.Sized F I) (e : r.bytes F I = r'.bytes F I) : r = r' := by
  unfold Rep3.bytes at e
  have hl : ∀ (r r' : Rep3), (∀ j < I.m1, (gfHash F (r.a.getD j 0) ++ gfHash F (r.b.getD j 0) ++
    (List.range I.numParties).flatMap fun p => gfHash F ((r.aShares.getD p []).getD j 0) ++ gfHash F ((r.bShares.getD p []).getD j 0)).length =
      F.byteSize + F.byteSize + I.numParties * (F.byteSize + F.byteSize)) := by
    intro r r' j _
    rw [List.length_append, List.length_append, gfHash_length, gfHash_length, length_flatMap_range _ _ (F.byteSize + F.byteSize)]
    intro p _
    rw [List.length_append, gfHash_length, gfHash_length]
  obtain ⟨e1, e3⟩ := List.append_inj' e (by rw [length_flatMap_range _ _ _ (hl r r'), length_flatMap_range _ _ _ (hl r' r)])
  obtain ⟨e1, e2⟩ := List.append_inj e1 (by rw [gfHash_length, gfHash_length])
  have e1 := gfHash_inj _ _ h.c h'.c e1
  have e2 := flatMap_range_inj _ _ _ (fun i _ => by rw [gfHash_length, gfHash_length]) e2
  have e2 := ext_getD 0 h.cShares.1 h'.cShares.1 fun i hi => gfHash_inj _ _ (getD_prop 0 h.cShares i hi) (getD_prop 0 h'.cShares i hi) (e2 i hi)
  have e3 := flatMap_range_inj _ _ _ (fun i hi => by rw [hl r r' i hi, hl r' r i hi]) e3
  have e4 : ∀ j < I.m1, (r.a.getD j 0 = r'.a.getD j 0 ∧ r.b.getD j 0 = r'.b.getD j 0) ∧ ∀ p < I.numParties,
      (r.aShares.getD p []).getD j 0 = (r'.aShares.getD p []).getD j 0 ∧ (r.bShares.getD p []).getD j 0 = (r'.bShares.getD p []).getD j 0 := by
    intro j hj
    have e4 := e3 j hj
    obtain ⟨e5, e6⟩ := List.append_inj e4 (by rw [List.length_append, List.length_append, gfHash_length, gfHash_length, gfHash_length, gfHash_length])
    obtain ⟨e7, e8⟩ := List.append_inj e5 (by rw [gfHash_length, gfHash_length])
    refine ⟨⟨gfHash_inj _ _ (getD_prop 0 h.a j hj) (getD_prop 0 h'.a j hj) e7, gfHash_inj _ _ (getD_prop 0 h.b j hj) (getD_prop 0 h'.b j hj) e8⟩, ?_⟩
    intro p hp
    have e9 := flatMap_range_inj _ _ _ (fun i _ => by rw [List.length_append, List.length_append, gfHash_length, gfHash_length, gfHash_length, gfHash_length]) e6 p hp
    obtain ⟨e10, e11⟩ := List.append_inj e9 (by rw [gfHash_length, gfHash_length])
    exact ⟨gfHash_inj _ _ (getD_prop 0 (getD_prop [] h.aShares p hp) j hj) (getD_prop 0 (getD_prop [] h'.aShares p hp) j hj) e10,
      gfHash_inj _ _ (getD_prop 0 (getD_prop [] h.bShares p hp) j hj) (getD_prop 0 (getD_prop [] h'.bShares p hp) j hj) e11⟩
  have ea := ext_getD 0 h.a.1 h'.a.1 fun j hj => (e4 j hj).1.1
  have eb := ext_getD 0 h.b.1 h'.b.1 fun j hj => (e4 j hj).1.2
  have eas := ext_getD [] h.aShares.1 h'.aShares.1 fun p hp =>
    ext_getD 0 (getD_prop [] h.aShares p hp).1 (getD_prop [] h'.aShares p hp).1 fun j hj => ((e4 j hj).2 p hp).1
  have ebs := ext_getD [] h.bShares.1 h'.bShares.1 fun p hp =>
    ext_getD 0 (getD_prop [] h.bShares p hp).1 (getD_prop [] h'.bShares p hp).1 fun j hj => ((e4 j hj).2 p hp).2
  cases r
  cases r'
  subst e1 e2 ea eb eas ebs
  rfl

theorem phase3Input_inj (I : Instance) (salt h2 salt' h2' : Bytes) (reps reps' : List Rep3) (hs : salt.length = salt'.length) (hp : h2.length = h2'.length)
    (hr : reps.length = reps'.length) (h : ∀ r ∈ reps, r.Sized F I) (h' : ∀ r ∈ reps', r.Sized F I)
    (e : phase3Input F I salt h2 reps = phase3Input F I salt' h2' reps') : salt = salt' ∧ h2 = h2' ∧ reps = reps' := by
  unfold phase3Input at e
  obtain ⟨e1, e5⟩ := List.append_inj' e (by
    rw [length_flatMap_const _ _ _ fun r _ => r.bytes_length I, length_flatMap_const _ _ _ fun r _ => r.bytes_length I, hr])
  obtain ⟨e1, e3⟩ := List.append_inj' e1 hp
  obtain ⟨_, e2⟩ := List.append_inj' e1 hs
  exact ⟨e2, e3, flatMap_inj _ (Rep3.Sized F I) _ (fun r _ => r.bytes_length I) (fun r r' a b => r.bytes_inj I r' a b) _ _ h h' hr e5⟩

theorem phase2Input_inj (I : Instance) (salt h1 salt' h1' : Bytes) (ds ds' : List (List W64)) (hs : salt.length = salt'.length) (hp : h1.length = h1'.length)
    (hr : ds.length = ds'.length) (h : ∀ d ∈ ds, d.length = I.m2 + 1 ∧ ∀ x ∈ d, Reduced F.byteSize x) (h' : ∀ d ∈ ds', d.length = I.m2 + 1 ∧ ∀ x ∈ d, Reduced F.byteSize x)
    (e : phase2Input F I salt h1 ds = phase2Input F I salt' h1' ds') :
    salt = salt' ∧ h1 = h1' ∧ ds.map (List.take I.m2) = ds'.map (List.take I.m2) := by
  unfold phase2Input at e
  have hk : ∀ d : List W64, ((List.range I.m2).flatMap fun k => gfHash F (d.getD k 0)).length = I.m2 * F.byteSize := fun d =>
    length_flatMap_range _ _ _ fun i _ => gfHash_length _
  obtain ⟨e1, e5⟩ := List.append_inj' e (by
    rw [length_flatMap_const _ _ _ fun d _ => hk d, length_flatMap_const _ _ _ fun d _ => hk d, hr])
  obtain ⟨e1, e3⟩ := List.append_inj' e1 hp
  obtain ⟨_, e2⟩ := List.append_inj' e1 hs
  refine ⟨e2, e3, ?_⟩
  have conv : ∀ d : List W64, d.length = I.m2 + 1 → ((List.range I.m2).flatMap fun k => gfHash F (d.getD k 0)) = (List.range I.m2).flatMap fun k => gfHash F ((d.take I.m2).getD k 0) := by
    intro d hd
    simp only [List.flatMap_def]
    congr 1
    apply List.map_congr_left
    intro k hk
    have hk := List.mem_range.1 hk
    rw [getD_of_lt (by omega), getD_of_lt (by rw [List.length_take]; omega), List.getElem_take]
  have conv2 : ∀ ds : List (List W64), (∀ d ∈ ds, d.length = I.m2 + 1 ∧ ∀ x ∈ d, Reduced F.byteSize x) →
      (ds.flatMap fun d => (List.range I.m2).flatMap fun k => gfHash F (d.getD k 0)) =
      (ds.map (List.take I.m2)).flatMap fun d => (List.range I.m2).flatMap fun k => gfHash F (d.getD k 0) := by
    intro ds hds
    rw [List.flatMap_map]
    simp only [List.flatMap_def (f := fun d : List W64 => _)]
    congr 1
    apply List.map_congr_left
    intro d hd
    exact conv d (hds d hd).1
  rw [conv2 ds h, conv2 ds' h'] at e5
  have take_ok : ∀ ds : List (List W64), (∀ d ∈ ds, d.length = I.m2 + 1 ∧ ∀ x ∈ d, Reduced F.byteSize x) →
      ∀ d ∈ ds.map (List.take I.m2), d.length = I.m2 ∧ ∀ x ∈ d, Reduced F.byteSize x := by
    intro ds hds d hd
    obtain ⟨d', hd', rfl⟩ := List.mem_map.1 hd
    refine ⟨by rw [List.length_take, (hds d' hd').1]; omega, ?_⟩
    intro x hx
    exact (hds d' hd').2 x (List.mem_of_mem_take hx)
  refine flatMap_inj _ (fun d => d.length = I.m2 ∧ ∀ x ∈ d, Reduced F.byteSize x) _ (fun d _ => hk d) ?_ _ _ (take_ok ds h) (take_ok ds' h') (by simp [hr]) e5
  intro x y hx hy hxy
  have := flatMap_range_inj _ _ _ (fun i _ => by rw [gfHash_length, gfHash_length]) hxy
  exact ext_getD 0 hx.1 hy.1 fun k hk => gfHash_inj _ _ (getD_prop 0 hx k hk) (getD_prop 0 hy k hk) (this k hk)

end

end Banquet
