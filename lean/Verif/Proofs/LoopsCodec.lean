import Verif.Model.LoopsField
import Verif.Proofs.LoopsField
import Verif.Proofs.Serialize

/-! The loops of the encoding (Model/LoopsField.lean) compute the functions of Model/Banquet.lean. -/

namespace Banquet.Loops

variable {α β σ : Type}

/-! ## Writing -/

/-- A loop that appends and may fail with an access out of range. -/
theorem forTo_check (n : Nat) (body : Nat → Bytes → M Bytes) (c : Nat → Prop) [DecidablePred c] (f : Nat → Bytes) (acc : Bytes)
    (h : ∀ i < n, ∀ acc, body i acc = if c i then .ok (acc ++ f i) else .error .ub) :
    forTo n body acc = if ∀ i < n, c i then .ok (acc ++ (List.range n).flatMap f) else .error .ub := by
  induction n with
  | zero => simp [forTo_zero]
  | succ n ih =>
    rw [forTo_succ, ih fun i hi => h i (by omega)]
    by_cases h1 : ∀ i < n, c i
    · rw [if_pos h1, ok_bind, h n (by omega)]
      by_cases h2 : c n
      · rw [if_pos h2, if_pos fun i hi => by
          rcases Nat.lt_succ_iff_lt_or_eq.1 hi with h | h
          · exact h1 i h
          · exact h ▸ h2]
        rw [List.range_succ, List.flatMap_append, List.append_assoc]
        simp
      · rw [if_neg h2, if_neg fun h => h2 (h n (by omega))]
    · rw [if_neg h1, if_neg fun h => h1 fun i hi => h i (by omega)]
      rfl

theorem forall_lt_iff (n m : Nat) : (∀ i < n, i < m) ↔ n ≤ m := by
  constructor
  · intro h
    by_contra hn
    exact absurd (h m (by omega)) (by omega)
  · intro h i hi
    omega

theorem elements_loop (F : FieldState) (n : Nat) (v : List W64) (acc : Bytes) :
    forTo n (fun k out => do
      let x ← rd v k
      .ok (out ++ F.toBytes x)) acc = if n ≤ v.length then .ok (acc ++ (List.range n).flatMap fun k => F.toBytes (v.getD k 0)) else .error .ub := by
  rw [forTo_check n _ (fun i => i < v.length) (fun k => F.toBytes (v.getD k 0)) acc fun i _ acc => ?_]
  · simp only [forall_lt_iff]
  · by_cases h : i < v.length
    · rw [if_pos h, rd_getD 0 h, ok_bind]
    · rw [if_neg h, rd_out (by omega)]
      rfl

theorem foldl_append_flatten (l : List Bytes) (acc : Bytes) : l.foldl (fun out seed => out ++ seed) acc = acc ++ l.flatten := by
  induction l generalizing acc with
  | nil => simp
  | cons a l ih => rw [List.foldl_cons, ih, List.flatten_cons, List.append_assoc]

theorem if_bind {c : Prop} [Decidable c] (a : α) (f : α → M β) : ((if c then .ok a else .error .ub : M α) >>= f) = if c then f a else .error .ub := by
  split <;> rfl

theorem serialize_eq (F : FieldState) (I : Instance) (s : Signature) : serialize F I s = Banquet.serialize F I s := by
  unfold serialize
  let ok : Proof → Bool := fun p => decide (I.m2 + 1 ≤ p.pDelta.length) && decide (I.m1 ≤ p.sAtR.length) && decide (I.m1 ≤ p.tAtR.length)
  have step : ∀ e < I.numRounds, ∀ out, (do
      let proof ← rd s.proofs e
      let out := proof.reveal.seeds.foldl (fun out seed => out ++ seed) out
      let out := out ++ proof.cE ++ proof.skDelta ++ proof.tDelta
      let out ← forTo (I.m2 + 1) (fun k out => do
        let x ← rd proof.pDelta k
        .ok (out ++ F.toBytes x)) out
      let out := out ++ F.toBytes proof.pAtR
      let out ← forTo I.m1 (fun j out => do
        let x ← rd proof.sAtR j
        .ok (out ++ F.toBytes x)) out
      forTo I.m1 (fun j out => do
        let x ← rd proof.tAtR j
        .ok (out ++ F.toBytes x)) out : M Bytes) =
      if e < s.proofs.length ∧ ok (s.proofs.getD e noProof) = true then .ok (out ++ serializeProof F I (s.proofs.getD e noProof)) else .error .ub := by
    intro e _ out
    by_cases he : e < s.proofs.length
    · rw [rd_getD noProof he, ok_bind]
      generalize s.proofs.getD e noProof = p
      simp only [elements_loop, foldl_append_flatten, if_bind, he, true_and, ok, Bool.and_eq_true, decide_eq_true_eq]
      unfold serializeProof
      split_ifs <;> first | rfl | tauto | (congr 1; simp only [List.append_assoc])
    · rw [rd_out (by omega), if_neg fun h => he h.1]
      rfl
  rw [forTo_check I.numRounds _ _ _ _ step]
  unfold Banquet.serialize
  by_cases h1 : I.numRounds ≤ s.proofs.length
  · rw [decide_eq_true h1, require_true, ok_bind]
    have hm : ∀ p, p ∈ s.proofs.take I.numRounds ↔ ∃ e < I.numRounds, s.proofs.getD e noProof = p := by
      intro p
      rw [List.mem_iff_getElem]
      constructor
      · rintro ⟨e, he, rfl⟩
        simp only [List.length_take] at he
        exact ⟨e, by omega, by simp [List.getD_eq_getElem?_getD, show e < s.proofs.length by omega]⟩
      · rintro ⟨e, he, rfl⟩
        exact ⟨e, by simp; omega, by simp [List.getD_eq_getElem?_getD, show e < s.proofs.length by omega]⟩
    have hf : (List.range I.numRounds).flatMap (fun e => serializeProof F I (s.proofs.getD e noProof)) = (s.proofs.take I.numRounds).flatMap (serializeProof F I) := by
      rw [List.flatMap_def, List.flatMap_def]
      congr 1
      refine List.ext_getElem (by simp [h1]) fun i h2 h3 => ?_
      simp at h2
      simp [List.getD_eq_getElem?_getD, show i < s.proofs.length by omega]
    rw [hf]
    by_cases h2 : ∀ e < I.numRounds, ok (s.proofs.getD e noProof) = true
    · rw [if_pos fun e he => ⟨by omega, h2 e he⟩]
      have : ((s.proofs.take I.numRounds).all ok) = true := by
        rw [List.all_eq_true]
        intro p hp
        obtain ⟨e, he, rfl⟩ := (hm p).1 hp
        exact h2 e he
      rw [show ((s.proofs.take I.numRounds).all fun p => decide (I.m2 + 1 ≤ p.pDelta.length) && decide (I.m1 ≤ p.sAtR.length) && decide (I.m1 ≤ p.tAtR.length)) = true from this, require_true, ok_bind]
    · rw [if_neg fun h => h2 fun e he => (h e he).2]
      have : ((s.proofs.take I.numRounds).all ok) = false := by
        rw [Bool.eq_false_iff]
        intro h
        rw [List.all_eq_true] at h
        exact h2 fun e he => h _ ((hm _).2 ⟨e, he, rfl⟩)
      rw [show ((s.proofs.take I.numRounds).all fun p => decide (I.m2 + 1 ≤ p.pDelta.length) && decide (I.m1 ≤ p.sAtR.length) && decide (I.m1 ≤ p.tAtR.length)) = false from this, require_false]
      rfl
  · rw [decide_eq_false h1, require_false, if_neg fun h => absurd (h s.proofs.length (by omega)).1 (by omega)]
    rfl

/-! ## Reading -/

/-- The offset version `x` and the version `y` on the rest of the string agree. -/
def Agree (bs : Bytes) (x : M (α × Nat)) (y : M (α × Bytes)) : Prop :=
  match x, y with
  | .ok (a, o), .ok (b, r) => a = b ∧ o ≤ bs.length ∧ r = bs.drop o
  | .error e, .error e' => e = e'
  | _, _ => False

theorem Agree.bind {bs : Bytes} {x : M (α × Nat)} {y : M (α × Bytes)} (h : Agree bs x y) {f : α × Nat → M (β × Nat)} {g : α × Bytes → M (β × Bytes)}
    (hf : ∀ a o, o ≤ bs.length → Agree bs (f (a, o)) (g (a, bs.drop o))) : Agree bs (x >>= f) (y >>= g) := by
  match x, y, h with
  | .ok (a, o), .ok (b, r), h =>
    obtain ⟨rfl, ho, rfl⟩ := h
    exact hf a o ho
  | .error e, .error e', h => exact h

theorem copyAt_agree (bs : Bytes) (off n : Nat) (h : off ≤ bs.length) : Agree bs (copyAt bs off n) (takeBytes n (bs.drop off)) := by
  unfold copyAt takeBytes
  by_cases hn : off + n ≤ bs.length
  · rw [decide_eq_true hn, require_true, ok_bind, if_neg (by simp; omega)]
    exact ⟨rfl, hn, by rw [List.drop_drop]⟩
  · rw [decide_eq_false hn, require_false, if_pos (by simp; omega)]
    exact rfl

theorem elementAt_agree (F : FieldState) (I : Instance) (bs : Bytes) (off : Nat) (hF : F.byteSize ≤ I.lambda) (h : off ≤ bs.length) :
    Agree bs (elementAt F I bs off) (takeBytes I.lambda (bs.drop off) >>= fun r => .ok (F.fromBytes r.1, r.2)) := by
  unfold elementAt copyAt takeBytes
  by_cases hn : off + I.lambda ≤ bs.length
  · rw [decide_eq_true hn, require_true, if_neg (by simp; omega)]
    simp only [ok_bind]
    unfold fromPtr
    rw [decide_eq_true (by simp [slice]; omega), require_true]
    exact ⟨rfl, hn, by rw [List.drop_drop]⟩
  · rw [decide_eq_false hn, require_false, if_pos (by simp; omega)]
    exact rfl

theorem forTo_front (n : Nat) (body : Nat → σ → M σ) (s : σ) : forTo (n + 1) body s = body 0 s >>= fun s => forTo n (fun i => body (i + 1)) s := by
  unfold forTo
  rw [List.range_succ_eq_map, List.foldlM_cons]
  simp only [List.foldlM_map, Nat.succ_eq_add_one]

theorem chunks_agree (bs : Bytes) (n : Nat) (read : Nat → M (β × Nat)) (g : Bytes → β) (hr : ∀ off ≤ bs.length, Agree bs (read off) (takeBytes n (bs.drop off) >>= fun r => .ok (g r.1, r.2)))
    (count : Nat) (acc : List β) (off : Nat) (h : off ≤ bs.length) :
    Agree bs (forTo count (fun _ (st : List β × Nat) => do
      let (x, off) ← read st.2
      .ok (st.1 ++ [x], off)) (acc, off)) (takeChunks n count (bs.drop off) >>= fun r => .ok (acc ++ r.1.map g, r.2)) := by
  induction count generalizing acc off with
  | zero => exact ⟨by simp, h, rfl⟩
  | succ count ih =>
    rw [forTo_front, takeChunks]
    have e : ((takeBytes n (bs.drop off) >>= fun x => takeChunks n count x.2 >>= fun y => (.ok (x.1 :: y.1, y.2) : M (List Bytes × Bytes))) >>= fun r => .ok (acc ++ r.1.map g, r.2) : M (List β × Bytes)) =
        (takeBytes n (bs.drop off) >>= fun r => .ok (g r.1, r.2)) >>= fun x => takeChunks n count x.2 >>= fun r => .ok (acc ++ [x.1] ++ r.1.map g, r.2) := by
      rw [bind_assoc, bind_assoc]
      congr 1
      funext x
      rw [ok_bind, bind_assoc]
      congr 1
      funext y
      simp [ok_bind]
    refine e ▸ ?_
    rw [bind_assoc]
    refine (hr off h).bind fun a o ho => ?_
    exact ih (acc ++ [a]) o ho

theorem deserializeRep_agree (F : FieldState) (I : Instance) (bs : Bytes) (hF : F.byteSize ≤ I.lambda) (missing off : Nat) (h : off ≤ bs.length) :
    Agree bs (deserializeRep F I bs missing off) (deserializeProof F I missing (bs.drop off)) := by
  have hel : ∀ n off, off ≤ bs.length → Agree bs (elementsAt F I bs n off) (takeChunks I.lambda n (bs.drop off) >>= fun r => .ok (r.1.map F.fromBytes, r.2)) := fun n off ho =>
    chunks_agree bs I.lambda (elementAt F I bs) F.fromBytes (fun o => elementAt_agree F I bs o hF) n [] off ho
  have hseeds : ∀ off, off ≤ bs.length → Agree bs (forTo (ceilLog2 I.numParties) (fun _ (st : List Bytes × Nat) => do
      let (seed, off) ← copyAt bs st.2 I.seedSize
      .ok (st.1 ++ [seed], off)) ([], off)) (takeChunks I.seedSize (ceilLog2 I.numParties) (bs.drop off)) := by
    intro off ho
    have := chunks_agree bs I.seedSize (fun o => copyAt bs o I.seedSize) id (fun o h => by
      have := copyAt_agree bs o I.seedSize h
      have e : (takeBytes I.seedSize (bs.drop o) >>= fun r => (.ok (id r.1, r.2) : M (Bytes × Bytes))) = takeBytes I.seedSize (bs.drop o) := by
        cases takeBytes I.seedSize (bs.drop o) <;> rfl
      rwa [e]) (ceilLog2 I.numParties) [] off ho
    have e : (takeChunks I.seedSize (ceilLog2 I.numParties) (bs.drop off) >>= fun r => (.ok ([] ++ r.1.map id, r.2) : M (List Bytes × Bytes))) = takeChunks I.seedSize (ceilLog2 I.numParties) (bs.drop off) := by
      cases takeChunks I.seedSize (ceilLog2 I.numParties) (bs.drop off) <;> simp [ok_bind]; rfl
    rwa [e] at this
  have e : deserializeProof F I missing (bs.drop off) = (do
      let (seeds, bs) ← takeChunks I.seedSize (ceilLog2 I.numParties) (bs.drop off)
      let (cE, bs) ← takeBytes I.digestSize bs
      let (skDelta, bs) ← takeBytes I.aes.keySize bs
      let (tDelta, bs) ← takeBytes I.aes.numSboxes bs
      let (pDelta, bs) ← takeChunks I.lambda (I.m2 + 1) bs >>= fun r => .ok (r.1.map F.fromBytes, r.2)
      let (pAtR, bs) ← takeBytes I.lambda bs >>= fun r => .ok (F.fromBytes r.1, r.2)
      let (sAtR, bs) ← takeChunks I.lambda I.m1 bs >>= fun r => .ok (r.1.map F.fromBytes, r.2)
      let (tAtR, bs) ← takeChunks I.lambda I.m1 bs >>= fun r => .ok (r.1.map F.fromBytes, r.2)
      .ok (⟨⟨seeds, missing⟩, cE, skDelta, tDelta, pDelta, pAtR, sAtR, tAtR⟩, bs)) := by
    unfold deserializeProof
    simp only [bind_assoc, ok_bind]
  rw [e]
  unfold deserializeRep
  refine (hseeds off h).bind fun seeds off h => ?_
  refine (copyAt_agree bs off _ h).bind fun cE off h => ?_
  refine (copyAt_agree bs off _ h).bind fun sk off h => ?_
  refine (copyAt_agree bs off _ h).bind fun t off h => ?_
  refine (hel _ off h).bind fun pd off h => ?_
  refine (elementAt_agree F I bs off hF h).bind fun pr off h => ?_
  refine (hel _ off h).bind fun sr off h => ?_
  refine (hel _ off h).bind fun tr off h => ?_
  exact ⟨rfl, h, rfl⟩

theorem proofs_agree (F : FieldState) (I : Instance) (bs : Bytes) (hF : F.byteSize ≤ I.lambda) (ms : List Nat) (acc : List Proof) (off : Nat) (h : off ≤ bs.length) :
    Agree bs (forTo ms.length (fun e (st : List Proof × Nat) => do
      let m ← rd ms e
      let (p, off) ← deserializeRep F I bs m st.2
      .ok (st.1 ++ [p], off)) (acc, off)) (deserializeProofs F I ms (bs.drop off) >>= fun r => .ok (acc ++ r.1, r.2)) := by
  induction ms generalizing acc off with
  | nil => exact ⟨by simp, h, rfl⟩
  | cons m ms ih =>
    rw [List.length_cons, forTo_front, deserializeProofs, bind_assoc]
    have hrd : rd (m :: ms) 0 = .ok m := rfl
    simp only [hrd, ok_bind, bind_assoc]
    refine (deserializeRep_agree F I bs hF m off h).bind fun p o ho => ?_
    have := ih (acc ++ [p]) o ho
    have e : ∀ i, rd (m :: ms) (i + 1) = rd ms i := fun i => rfl
    simp only [e]
    simpa using this

theorem deserializeOffset_agree (X : Xof) (fuel : Nat) (F : FieldState) (I : Instance) (bs : Bytes) (hF : F.byteSize ≤ I.lambda) :
    Agree bs (deserializeOffset X fuel F I bs) (deserializeRest X fuel F I bs) := by
  unfold deserializeOffset deserializeRest
  rw [decide_eq_true hF, require_true, ok_bind]
  refine (copyAt_agree bs 0 32 (by omega)).bind fun salt off h => ?_
  refine (copyAt_agree bs off _ h).bind fun h1 off h => ?_
  refine (copyAt_agree bs off _ h).bind fun h3 off h => ?_
  simp only
  cases hm : phase3Expand X fuel I h3 with
  | error e => exact rfl
  | ok ms =>
    rw [ok_bind, ok_bind]
    have hl : ms.length = I.numRounds := (phase3Expand_spec X _ fuel I h3 ms hm).1
    have := proofs_agree F I bs hF ms [] off h
    rw [hl] at this
    have e : (deserializeProofs F I ms (bs.drop off) >>= fun r => (.ok ([] ++ r.1, r.2) : M (List Proof × Bytes))) = deserializeProofs F I ms (bs.drop off) := by
      cases deserializeProofs F I ms (bs.drop off) <;> rfl
    rw [e] at this
    exact this.bind fun ps o ho => ⟨rfl, ho, rfl⟩

theorem deserialize_eq (X : Xof) (fuel : Nat) (F : FieldState) (I : Instance) (bs : Bytes) (hF : F.byteSize ≤ I.lambda) : deserialize false X fuel F I bs = Banquet.deserialize X fuel F I bs := by
  have := deserializeOffset_agree X fuel F I bs hF
  unfold deserialize Banquet.deserialize
  match h1 : deserializeOffset X fuel F I bs, h2 : deserializeRest X fuel F I bs with
  | .ok (a, o), .ok (b, r) =>
    rw [h1, h2] at this
    rw [ok_bind]
    simp only [Bool.false_and]
    rw [this.1]
    rfl
  | .error e, .error e' =>
    rw [h1, h2] at this
    exact congrArg _ this
  | .ok _, .error _ => rw [h1, h2] at this; exact this.elim
  | .error _, .ok _ => rw [h1, h2] at this; exact this.elim

theorem deserializeDebug_eq (X : Xof) (fuel : Nat) (F : FieldState) (I : Instance) (bs : Bytes) (hF : F.byteSize ≤ I.lambda) : deserialize true X fuel F I bs = Banquet.deserializeDebug X fuel F I bs := by
  have := deserializeOffset_agree X fuel F I bs hF
  unfold deserialize Banquet.deserializeDebug
  match h1 : deserializeOffset X fuel F I bs, h2 : deserializeRest X fuel F I bs with
  | .ok (a, o), .ok (b, r) =>
    rw [h1, h2] at this
    obtain ⟨rfl, ho, rfl⟩ := this
    rw [ok_bind, ok_bind]
    simp only [Bool.true_and, bne_iff_ne, List.drop_eq_nil_iff]
    by_cases ho' : o = bs.length
    · rw [if_neg (by simpa using ho'), if_pos (by omega)]
    · rw [if_pos ho', if_neg (by omega)]
  | .error e, .error e' =>
    rw [h1, h2] at this
    exact congrArg _ this
  | .ok _, .error _ => rw [h1, h2] at this; exact this.elim
  | .error _, .ok _ => rw [h1, h2] at this; exact this.elim

/-! ## Buffers that are too short -/

theorem elementAt_short (F : FieldState) (I : Instance) (bs : Bytes) (off : Nat) (hF : I.lambda < F.byteSize) (r : W64 × Nat) : elementAt F I bs off ≠ .ok r := by
  intro h
  unfold elementAt at h
  obtain ⟨⟨b, o⟩, h1, h⟩ := bind_ok.1 h
  obtain ⟨x, h2, h⟩ := bind_ok.1 h
  unfold copyAt at h1
  obtain ⟨_, h3, h1⟩ := bind_ok.1 h1
  have hb : slice bs off I.lambda = b := by injection h1 with h1; exact congrArg Prod.fst h1
  unfold fromPtr at h2
  rw [decide_eq_false (by rw [← hb]; simp [slice]; omega), require_false] at h2
  cases h2

theorem deserialize_short (debug : Bool) (X : Xof) (fuel : Nat) (F : FieldState) (I : Instance) (bs : Bytes) (hF : I.lambda < F.byteSize) (hT : 0 < I.numRounds) (s : Signature) :
    deserialize debug X fuel F I bs ≠ .ok s := by
  intro h
  unfold deserialize deserializeOffset at h
  obtain ⟨_, h, _⟩ := bind_ok.1 h
  obtain ⟨_, _, h⟩ := bind_ok.1 h
  obtain ⟨_, _, h⟩ := bind_ok.1 h
  obtain ⟨_, _, h⟩ := bind_ok.1 h
  obtain ⟨_, _, h⟩ := bind_ok.1 h
  obtain ⟨_, h, _⟩ := bind_ok.1 h
  obtain ⟨T, hT⟩ := Nat.exists_eq_succ_of_ne_zero hT.ne'
  rw [hT, Nat.succ_eq_add_one, forTo_front] at h
  obtain ⟨_, h, _⟩ := bind_ok.1 h
  obtain ⟨_, _, h⟩ := bind_ok.1 h
  obtain ⟨_, h, _⟩ := bind_ok.1 h
  unfold deserializeRep at h
  obtain ⟨_, _, h⟩ := bind_ok.1 h
  obtain ⟨_, _, h⟩ := bind_ok.1 h
  obtain ⟨_, _, h⟩ := bind_ok.1 h
  obtain ⟨_, _, h⟩ := bind_ok.1 h
  obtain ⟨_, h, _⟩ := bind_ok.1 h
  unfold elementsAt at h
  rw [forTo_front] at h
  obtain ⟨_, h, _⟩ := bind_ok.1 h
  obtain ⟨_, h, _⟩ := bind_ok.1 h
  exact elementAt_short F I bs _ hF _ h

end Banquet.Loops
