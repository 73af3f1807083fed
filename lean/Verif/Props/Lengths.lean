import Verif.Proofs.Bounds
import Verif.Proofs.SpongeFail
import Verif.Props.Code
import Verif.Props.Sponge

/-! Property theorems for C38, C39 and C62: exactly which lengths the hash code can handle, and what happens with the others. -/

namespace Banquet.Props

open Spec

/-! ### C38 -/

/-- C38, exactly, for all chunks and output lengths: the FIPS 202 output if all pieces fit; otherwise an access beyond the state or an endless loop, as `misfit` says for the first piece that does not. -/
theorem C38_exact (f : St → St) (S : SnP) (view : S.State → St) (hS : Spec.Snp f S view) (hB : Bounded S) (k : ShakeKind) (chunks : List Bytes) (lens : List Nat) :
    runHash S k chunks lens = match inFailure (shakeRate k) 0 (chunks.map List.length), outFailure (shakeRate k) 0 lens with
      | some e, _ => .error e
      | none, some e => .error e
      | none, none => .ok ((Spec.shake f k chunks.flatten).squeeze 0 lens.sum) := by
  have hk := kind_facts k
  rw [← Ideal.kindRate_eq]
  have h1 : ∀ (chunks : List Bytes) (msg : Bytes) (s : Sponge S), s.abs view = Ideal.ctx f k msg →
      match inFailure (kindRate k) msg.length (chunks.map List.length) with
        | some e => chunks.foldlM (hashUpdate S) s = .error e
        | none => ∃ s', chunks.foldlM (hashUpdate S) s = .ok s' ∧ s'.abs view = Ideal.ctx f k (msg ++ chunks.flatten) := by
    intro chunks
    induction chunks with
    | nil =>
      intro msg s h
      refine ⟨s, rfl, ?_⟩
      rw [h, List.flatten_nil, List.append_nil]
    | cons c cs ih =>
      intro msg s h
      rw [List.map_cons, inFailure, List.foldlM_cons]
      by_cases hc : Fits (kindRate k) (msg.length % kindRate k) c.length
      · rw [if_pos hc]
        obtain ⟨s1, e1, g1⟩ := hashUpdate_fits hS h c hc
        have := ih (msg ++ c) s1 g1
        rw [List.length_append] at this
        rw [bindOk e1, List.flatten_cons, ← List.append_assoc]
        exact this
      · rw [if_neg hc, hashUpdate_misfit hS hB.write h c hc]
        rfl
  have h2 : ∀ (lens : List Nat) (s : Sponge S) (p : Nat) (acc : Bytes), (p = 0 ∨ 0 < s.idx) →
      Ideal.SqInv f (absorb f (shakeRate k) (padShake (shakeRate k) chunks.flatten)) (kindRate k) p (s.abs view) →
      match outFailure (kindRate k) p lens with
        | some e => lens.foldlM (fun (st : Sponge S × Bytes) n => do
            let r ← hashSqueeze S st.1 n
            .ok (r.1, st.2 ++ r.2)) (s, acc) = .error e
        | none => ∃ s', lens.foldlM (fun (st : Sponge S × Bytes) n => do
            let r ← hashSqueeze S st.1 n
            .ok (r.1, st.2 ++ r.2)) (s, acc) = .ok (s', acc ++ (Spec.shake f k chunks.flatten).squeeze p lens.sum) := by
    intro lens
    induction lens with
    | nil =>
      intro s p acc _ _
      refine ⟨s, ?_⟩
      simp [Stream.squeeze]
      rfl
    | cons n ns ih =>
      intro s p acc hp h
      have hi : s.idx = outPos (kindRate k) p := sq_idx h hp
      rw [outFailure, ← hi, List.foldlM_cons]
      simp only
      by_cases hc : FitsOut (kindRate k) s.idx n
      · rw [if_pos hc]
        obtain ⟨s1, e1, g1, g2⟩ := hashSqueeze_fits hS _ s n hk.2.2 hk.2.1 h hc
        have := ih s1 (p + n) (acc ++ (Spec.shake f k chunks.flatten).squeeze p n) (by
          rcases Nat.eq_zero_or_pos n with h0 | h0
          · rcases hp with h' | h'
            · exact .inl (by omega)
            · exact .inr (g2 (.inr h'))
          · exact .inr (g2 (.inl h0))) g1
        rw [e1]
        rw [List.append_assoc, Ideal.squeeze_add, ← List.sum_cons] at this
        rw [Ideal.kindRate_eq] at this ⊢
        exact this
      · rw [if_neg hc, hashSqueeze_misfit hS hB.read n hk.2.1 h hc]
        rfl
  have h3 := h1 chunks [] (hashInit S k) (by
    simp only [Sponge.abs, hashInit, hS.init]
    rfl)
  unfold runHash
  rw [List.length_nil] at h3
  cases hin : inFailure (kindRate k) 0 (chunks.map List.length) with
  | some e =>
    rw [hin] at h3
    simp only at h3 ⊢
    rw [h3]
    rfl
  | none =>
    rw [hin] at h3
    obtain ⟨s1, e1, g1⟩ := h3
    obtain ⟨s2, e2, g2⟩ := hashFinal_sim hS g1
    rw [List.nil_append, Ideal.hashFinal_ctx] at g2
    have h4 := h2 lens s2 0 [] (.inl rfl) ⟨congrArg Ideal.Sponge.rate g2, congrArg Ideal.Sponge.squeezing g2, by rw [g2]; exact Nat.zero_le _, 0, congrArg Ideal.Sponge.state g2, by rw [g2]; simp⟩
    rw [bindOk e1, bindOk e2]
    cases hout : outFailure (kindRate k) 0 lens with
    | some e =>
      rw [hout] at h4
      simp only at h4 ⊢
      rw [h4]
      rfl
    | none =>
      rw [hout] at h4
      obtain ⟨s3, e3⟩ := h4
      simp only
      rw [bindOk e3, List.nil_append]

/-- C38, where the failure is an endless loop: it does not end however long one waits. Any message is absorbed in one piece by a new context; then a piece for which `misfit` is not an access beyond the state. -/
theorem C38_endless (f : St → St) (S : SnP) (view : S.State → St) (hS : Spec.Snp f S view) (k : ShakeKind) (msg d : Bytes) (h : ¬Fits (shakeRate k) (msg.length % shakeRate k) d.length)
    (hw : misfit (msg.length % shakeRate k) d.length = .fuel) : ∃ s, hashUpdate S (hashInit S k) msg = .ok s ∧ ∀ fuel, absorbLoop S fuel s d = .error .fuel := by
  rw [← Ideal.kindRate_eq] at h hw
  have hk := kind_facts k
  obtain ⟨s, e, g⟩ := hashUpdate_fits hS (k := k) (msg := []) (s := hashInit S k) (by
    simp only [Sponge.abs, hashInit, hS.init]
    rfl) msg (.inl (Nat.zero_mod _))
  rw [List.nil_append] at g
  have hr : s.rate = kindRate k := congrArg Ideal.Sponge.rate g
  have hi : s.idx = msg.length % kindRate k := (congrArg Ideal.Sponge.idx g).trans (ctx_idx_eq k msg)
  have hm := Nat.mod_lt msg.length hk.2.2
  refine ⟨s, e, fun fuel => absorbLoop_never hS fuel s d (by omega) (by omega) (by rw [hi, hr]; exact h) ?_⟩
  unfold misfit at hw
  split at hw
  · cases hw
  · omega

/-- C38, for pieces of less than 4 GiB: absorbing fails exactly if a piece and the bytes already in the block make 4 GiB or more, and then it writes beyond the state. -/
theorem C38_threshold (rate total n : Nat) (hr : 0 < rate) (hn : n < 2 ^ 32) :
    (Fits rate (total % rate) n ↔ n + total % rate < 2 ^ 32) ∧ (¬Fits rate (total % rate) n → misfit (total % rate) n = .ub) := by
  have := Nat.mod_lt total hr
  unfold Fits NoWrap misfit
  rw [Nat.mod_eq_of_lt hn]
  refine ⟨by omega, fun h => if_pos (by omega)⟩

/-- Every build finds accesses beyond the state. -/
example : Bounded Opt64.snp ∧ Bounded Avx2.snp ∧ PlBounded Opt64.plSnp ∧ PlBounded X4.plSnp := ⟨Opt64.bounded, Avx2.bounded, Opt64.bounded4, X4.bounded⟩

/-- 4 GiB after one byte: an endless loop. 4 GiB and one block less one byte: works. 4 GiB - 1: written beyond the state. -/
example : (¬Fits 168 1 (2 ^ 32) ∧ misfit 1 (2 ^ 32) = .fuel) ∧ Fits 168 1 (2 ^ 32 + 167) ∧ ¬Fits 168 1 (2 ^ 32 - 1) ∧ misfit 1 (2 ^ 32 - 1) = .ub := by
  unfold Fits NoWrap misfit
  norm_num

/-- Asking a new context for 4 GiB of output: an endless loop. -/
example : outFailure 136 0 [2 ^ 32] = some .fuel := by
  unfold outFailure
  rw [if_neg (by unfold FitsOut NoWrap outPos; norm_num)]
  unfold misfit outPos
  norm_num

/-! ### C39 -/

/-- C39, exactly: every lane gives the FIPS 202 output of that lane's input if all pieces fit; otherwise the failure is that of the single sponge. -/
theorem C39_exact (f : St → St) (S : PlSnP) (view : S.State → Fin 4 → St) (hS : Spec.PlSnp f S view) (hB : PlBounded S) (k : ShakeKind) (chunks : List ((Fin 4 → Bytes) × Nat)) (lens : List Nat)
    (hd : ∀ c ∈ chunks, ∀ l, (c.1 l).length = c.2) :
    runHash4 S k chunks lens = match inFailure (shakeRate k) 0 (chunks.map Prod.snd), outFailure (shakeRate k) 0 lens with
      | some e, _ => .error e
      | none, some e => .error e
      | none, none => .ok fun l => (Spec.shake f k (chunks.map fun c => c.1 l).flatten).squeeze 0 lens.sum := by
  have hk := kind_facts k
  rw [← Ideal.kindRate_eq]
  have h1 : ∀ (chunks : List ((Fin 4 → Bytes) × Nat)) (msg : Fin 4 → Bytes) (s : Sponge4 S), (∀ c ∈ chunks, ∀ l, (c.1 l).length = c.2) → (∀ l, (s.abs view).lane l = Ideal.ctx f k (msg l)) →
      match inFailure (kindRate k) (msg 0).length (chunks.map Prod.snd) with
        | some e => chunks.foldlM (fun s c => hashUpdate4 S s c.1 c.2) s = .error e
        | none => ∃ s', chunks.foldlM (fun s c => hashUpdate4 S s c.1 c.2) s = .ok s' ∧ ∀ l, (s'.abs view).lane l = Ideal.ctx f k (msg l ++ (chunks.map fun c => c.1 l).flatten) := by
    intro chunks
    induction chunks with
    | nil =>
      intro msg s _ h
      refine ⟨s, rfl, fun l => ?_⟩
      rw [h, List.map_nil, List.flatten_nil, List.append_nil]
    | cons c cs ih =>
      intro msg s hd h
      rw [List.map_cons, inFailure, List.foldlM_cons]
      by_cases hc : Fits (kindRate k) ((msg 0).length % kindRate k) c.2
      · rw [if_pos hc]
        obtain ⟨s1, e1, g1⟩ := hashUpdate4_fits hS h c.1 c.2 (hd c List.mem_cons_self) hc
        have := ih (fun l => msg l ++ c.1 l) s1 (fun c' hc' => hd c' (List.mem_cons_of_mem _ hc')) g1
        simp only [List.length_append, hd c List.mem_cons_self 0] at this
        rw [bindOk e1]
        simp only [List.map_cons, List.flatten_cons, ← List.append_assoc]
        exact this
      · rw [if_neg hc, hashUpdate4_misfit hS hB h c.1 c.2 (hd c List.mem_cons_self) hc]
        rfl
  have h2 : ∀ (lens : List Nat) (s : Sponge4 S) (p : Nat) (acc : Fin 4 → Bytes), (p = 0 ∨ 0 < s.idx) →
      (∀ l, Ideal.SqInv f (absorb f (shakeRate k) (padShake (shakeRate k) (chunks.map fun c => c.1 l).flatten)) (kindRate k) p ((s.abs view).lane l)) →
      match outFailure (kindRate k) p lens with
        | some e => lens.foldlM (fun (st : Sponge4 S × (Fin 4 → Bytes)) n => do
            let r ← hashSqueeze4 S st.1 n
            .ok (r.1, fun l => st.2 l ++ r.2 l)) (s, acc) = .error e
        | none => ∃ s', lens.foldlM (fun (st : Sponge4 S × (Fin 4 → Bytes)) n => do
            let r ← hashSqueeze4 S st.1 n
            .ok (r.1, fun l => st.2 l ++ r.2 l)) (s, acc) = .ok (s', fun l => acc l ++ (Spec.shake f k (chunks.map fun c => c.1 l).flatten).squeeze p lens.sum) := by
    intro lens
    induction lens with
    | nil =>
      intro s p acc _ _
      refine ⟨s, ?_⟩
      simp [Stream.squeeze]
      rfl
    | cons n ns ih =>
      intro s p acc hp h
      have hi : s.idx = outPos (kindRate k) p := sq_idx (h 0) hp
      rw [outFailure, ← hi, List.foldlM_cons]
      simp only
      by_cases hc : FitsOut (kindRate k) s.idx n
      · rw [if_pos hc]
        obtain ⟨s1, e1, g1, g2⟩ := hashSqueeze4_fits hS _ s n hk.2.2 hk.2.1 h hc
        have := ih s1 (p + n) (fun l => acc l ++ (Spec.shake f k (chunks.map fun c => c.1 l).flatten).squeeze p n) (by
          rcases Nat.eq_zero_or_pos n with h0 | h0
          · rcases hp with h' | h'
            · exact .inl (by omega)
            · exact .inr (g2 (.inr h'))
          · exact .inr (g2 (.inl h0))) g1
        rw [e1]
        simp only [List.append_assoc, Ideal.squeeze_add, ← List.sum_cons] at this
        rw [Ideal.kindRate_eq] at this ⊢
        exact this
      · rw [if_neg hc, hashSqueeze4_misfit hS hB n hk.2.1 h hc]
        rfl
  have h3 := h1 chunks (fun _ => []) (hashInit4 S k) hd (fun l => by
    simp only [Sponge4.abs, hashInit4, Ideal.Sponge4.lane, hS.init]
    rfl)
  unfold runHash4
  rw [List.length_nil] at h3
  cases hin : inFailure (kindRate k) 0 (chunks.map Prod.snd) with
  | some e =>
    rw [hin] at h3
    simp only at h3 ⊢
    rw [h3]
    rfl
  | none =>
    rw [hin] at h3
    obtain ⟨s1, e1, g1⟩ := h3
    obtain ⟨s2, e2, g2⟩ := hashFinal4_sim hS g1
    simp only [List.nil_append, Ideal.hashFinal_ctx] at g2
    have h4 := h2 lens s2 0 (fun _ => []) (.inl rfl) fun l => ⟨congrArg Ideal.Sponge.rate (g2 l), congrArg Ideal.Sponge.squeezing (g2 l), by rw [g2]; exact Nat.zero_le _, 0,
      congrArg Ideal.Sponge.state (g2 l), by rw [g2]; simp⟩
    rw [bindOk e1, bindOk e2]
    cases hout : outFailure (kindRate k) 0 lens with
    | some e =>
      rw [hout] at h4
      simp only at h4 ⊢
      rw [h4]
      rfl
    | none =>
      rw [hout] at h4
      obtain ⟨s3, e3⟩ := h4
      simp only
      rw [bindOk e3]
      simp

/-- C39, exactly: the 4-way sponge gives in every lane what the single sponge gives, including the failures, for all lengths. -/
theorem C39_lanes_exact (f : St → St) (S4 : PlSnP) (view4 : S4.State → Fin 4 → St) (hS4 : Spec.PlSnp f S4 view4) (hB4 : PlBounded S4) (S : SnP) (view : S.State → St) (hS : Spec.Snp f S view) (hB : Bounded S)
    (k : ShakeKind) (chunks : List ((Fin 4 → Bytes) × Nat)) (lens : List Nat) (hd : ∀ c ∈ chunks, ∀ l, (c.1 l).length = c.2) (l : Fin 4) :
    runHash S k (chunks.map fun c => c.1 l) lens = (runHash4 S4 k chunks lens).map fun r => r l := by
  have hlen : (chunks.map fun c => c.1 l).map List.length = chunks.map Prod.snd := by
    rw [List.map_map]
    exact List.map_congr_left fun c hc => hd c hc l
  rw [C38_exact f S view hS hB, C39_exact f S4 view4 hS4 hB4 k chunks lens hd, hlen]
  split <;> rfl

/-! ### C62 -/

section
variable {f : St → St} {H : Code.Hash}

theorem rateOf_eq (I : Instance) : rateOf I = kindRate (kindOf I.digestSize) := (Ideal.kindRate_eq _).symm

/-- C62, exactly, for sign and every key pair. The message is hashed twice, after 2 + |sk| + |pk| and after 33 + |pk| bytes. If its length fits both times, sign is the protocol with SHAKE (C61), which is defined
(C41). Otherwise sign fails at the first hash that it does not fit: it writes beyond the state or loops forever. -/
theorem C62_sign_exact (hH : Correct f H) (hg : Guarded H.one) (J : Code.Junk) (hJ : Buffers J) (fuel : Nat) (I : Instance) (hI : Consistent I) (sk pk msg : Bytes) (hk : KeyPair I sk pk) :
    (Fits (rateOf I) (blockPos I (2 + sk.length + pk.length)) msg.length → Fits (rateOf I) (blockPos I (33 + pk.length)) msg.length → Code.sign H J fuel I sk pk msg = sign (shake f) fuel I sk pk msg) ∧
    (¬Fits (rateOf I) (blockPos I (2 + sk.length + pk.length)) msg.length → Code.sign H J fuel I sk pk msg = .error (misfit (blockPos I (2 + sk.length + pk.length)) msg.length)) ∧
    (Fits (rateOf I) (blockPos I (2 + sk.length + pk.length)) msg.length → ¬Fits (rateOf I) (blockPos I (33 + pk.length)) msg.length →
      Code.sign H J fuel I sk pk msg = .error (misfit (blockPos I (33 + pk.length)) msg.length)) := by
  obtain ⟨k1, k2, k3, -⟩ := KeyPair.facts hI hk
  obtain ⟨⟨v1, h1⟩, v4, h4⟩ := hH
  obtain ⟨z1, z2, z3, z4, z5, z6, z7⟩ := Code.sizes hI
  have hpk : Code.Small pk.length := Code.small_of (by omega)
  have hsk : Code.Small sk.length := Code.small_of (by omega)
  have hJ' : ∀ e b, I.seedSize ≤ (J.tree e b).length := fun e b => by rw [hJ]; omega
  obtain ⟨F, hF⟩ := init_supported hI.lambda
  have hsaved : (aesSave I.aes.keySize sk (slice pk 0 I.ctSize)).2.2.length = I.aes.numSboxes := by
    obtain ⟨saved, e, h, -⟩ := saved_facts hI sk (slice pk 0 I.ctSize) k3
    rw [e, h]
  unfold blockPos
  rw [rateOf_eq]
  refine ⟨fun hm1 hm2 => ?_, fun hm1 => ?_, fun hm1 hm2 => ?_⟩
  · refine Code.sign_eq_of J fuel sk pk msg _ fun F hF => Code.signWith_eq h1 h4 hI J hJ' fuel F ?_ sk pk msg hpk hm1 hm2
    rw [(initExtensionField_ok hF).2.1]
    exact Code.small_of (by omega)
  · unfold Code.sign
    rw [hF, ok_bind]
    exact Code.signWith_long H J fuel F hI sk pk msg k1 k2.ge hsaved (Code.salt_misfit h1 hg I sk pk msg hsk hpk hm1)
  · unfold Code.sign
    rw [hF, ok_bind]
    refine Code.signWith_long2 h1 h4 J fuel F hI hJ' sk pk msg k1 k2.ge hsaved hpk hm1 fun salt reps hs => ?_
    have := Code.phase1_misfit h1 hg I salt pk msg reps (by rw [hs]; exact Code.small_of (by norm_num)) hpk (by rw [hs]; exact hm2)
    rw [hs] at this
    exact this

/-- C62, exactly, for sign and messages shorter than 4 GiB: the behaviour is undefined exactly if the message and the longer of the two prefixes have 4 GiB or more together. -/
theorem C62_sign_threshold (hH : Correct f H) (hg : Guarded H.one) (J : Code.Junk) (hJ : Buffers J) (fuel : Nat) (I : Instance) (hI : Consistent I) (sk pk msg : Bytes) (hk : KeyPair I sk pk) (hm : msg.length < 2 ^ 32) :
    Code.sign H J fuel I sk pk msg = .error .ub ↔ 2 ^ 32 ≤ msg.length + max (2 + sk.length + pk.length) (33 + pk.length) := by
  obtain ⟨k1, k2, k3, -⟩ := KeyPair.facts hI hk
  obtain ⟨z1, z2, z3, z4, z5, z6, z7⟩ := Code.sizes hI
  obtain ⟨e1, e2, e3⟩ := C62_sign_exact hH hg J hJ fuel I hI sk pk msg hk
  have hr : 136 ≤ rateOf I := by
    rw [rateOf_eq]
    cases kindOf I.digestSize <;> decide
  have p1 : blockPos I (2 + sk.length + pk.length) = 2 + sk.length + pk.length := Nat.mod_eq_of_lt (by omega)
  have p2 : blockPos I (33 + pk.length) = 33 + pk.length := Nat.mod_eq_of_lt (by omega)
  rw [p1] at e1 e2 e3
  rw [p2] at e1 e3
  have hmod : msg.length % 2 ^ 32 = msg.length := Nat.mod_eq_of_lt hm
  have f1 : ∀ n, 0 < n → (Fits (rateOf I) n msg.length ↔ msg.length + n < 2 ^ 32) := by
    intro n hn
    unfold Fits NoWrap
    omega
  have f2 : ∀ n, 0 < n → ¬Fits (rateOf I) n msg.length → misfit n msg.length = .ub := by
    intro n hn h
    rw [f1 n hn] at h
    exact if_pos (by omega)
  by_cases c1 : Fits (rateOf I) (2 + sk.length + pk.length) msg.length
  · by_cases c2 : Fits (rateOf I) (33 + pk.length) msg.length
    · rw [e1 c1 c2]
      rw [f1 _ (by omega)] at c1 c2
      constructor
      · intro h
        rcases C41_total (shake f) fuel I hI sk pk msg k1 k2.ge k3 with ⟨sig, h'⟩ | h' <;> rw [h'] at h <;> cases h
      · intro h
        omega
    · rw [e3 c1 c2, f2 _ (by omega) c2]
      rw [f1 _ (by omega)] at c2
      exact ⟨fun _ => by omega, fun _ => rfl⟩
  · rw [e2 c1, f2 _ (by omega) c1]
    rw [f1 _ (by omega)] at c1
    exact ⟨fun _ => by omega, fun _ => rfl⟩

/-- C62, exactly, for verify, which hashes the message once, after 33 + |pk| bytes. If the length fits, it is the protocol with SHAKE, which is defined for signatures of the right shape (C34). Otherwise it fails, for
every signature that it can process with any other message. -/
theorem C62_verify_exact (hH : Correct f H) (hg : Guarded H.one) (J : Code.Junk) (hJ : Buffers J) (fuel : Nat) (I : Instance) (hI : Consistent I) (pk : Bytes) (hpk : pk.length = 2 * I.ctSize) (sig : Signature) (msg : Bytes) :
    (Fits (rateOf I) (blockPos I (33 + pk.length)) msg.length → Code.verify H J fuel I pk sig msg = verify (shake f) fuel I pk sig msg) ∧
    (¬Fits (rateOf I) (blockPos I (33 + pk.length)) msg.length → ∀ msg' b, Code.verify H J fuel I pk sig msg' = .ok b → Code.verify H J fuel I pk sig msg = .error (misfit (blockPos I (33 + pk.length)) msg.length)) := by
  obtain ⟨⟨v1, h1⟩, v4, h4⟩ := hH
  obtain ⟨z1, z2, z3, z4, z5, z6, z7⟩ := Code.sizes hI
  have hpk' : Code.Small pk.length := Code.small_of (by omega)
  obtain ⟨F, hF⟩ := init_supported hI.lambda
  unfold blockPos
  rw [rateOf_eq]
  refine ⟨fun hm => ?_, fun hm msg' b hv => ?_⟩
  · refine Code.bind_eq rfl fun F hF => Code.verifyWith_eq h1 h4 hI J (fun e b => by rw [hJ]; omega) _ (by simp) fuel F ?_ pk sig msg hpk' hm
    rw [(initExtensionField_ok hF).2.1]
    exact Code.small_of (by omega)
  · unfold Code.verify at hv ⊢
    rw [hF, ok_bind] at hv ⊢
    have hs := (shaped_facts (Code.verifyWith_shaped _ _ _ _ _ _ _ _ _ _ hv)).1
    refine Code.verifyWith_long H J _ fuel F I pk sig msg' msg b hv fun reps => ?_
    have := Code.phase1_misfit h1 hg I sig.salt pk msg reps (by rw [hs]; exact Code.small_of (by norm_num)) hpk' (by rw [hs]; exact hm)
    rw [hs] at this
    exact this

end

/-- For the key of the known answer test and a message of 2^32 - 65 bytes, the first hash of the message works and the second writes beyond the state; one byte less is fine. -/
example (msg : Bytes) (h : msg.length = 2 ^ 32 - 65) (msg' : Bytes) (h' : msg'.length = 2 ^ 32 - 66) : Code.sign portable someJunk 1 smallInstance katKey katPk msg = .error .ub ∧
    Code.sign portable someJunk 1 smallInstance katKey katPk msg' = sign shakeFips 1 smallInstance katKey katPk msg' := by
  have hb := builds (H := portable) (.inl rfl)
  have l1 : katKey.length = 16 := rfl
  have l2 : katPk.length = 32 := rfl
  have hr : rateOf smallInstance = 168 := rfl
  refine ⟨(C62_sign_threshold hb.1 hb.2 someJunk (fun _ _ => rfl) 1 smallInstance small_consistent katKey katPk msg (kat_pair _ rfl) (by omega)).2 (by rw [l1, l2]; omega),
    (C62_sign_exact hb.1 hb.2 someJunk (fun _ _ => rfl) 1 smallInstance small_consistent katKey katPk msg' (kat_pair _ rfl)).1 (.inr (.inl ?_)) (.inr (.inl ?_))⟩
  · unfold blockPos
    rw [hr, l1, l2, h']
    norm_num
  · unfold blockPos
    rw [hr, l2, h']
    norm_num

end Banquet.Props
