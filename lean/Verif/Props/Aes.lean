import Verif.Proofs.AesMain
import Verif.Proofs.View
import Verif.Props.Hash

/-! C23, C24, C31, C32, C33, C49: AES. -/

namespace Banquet.Props

open Spec Spec.Aes

/-- The three uses of AES: key of `4 nk` bytes, number of blocks, number of S-boxes (16 per round and block, and the key schedule). -/
def Variant (nk blocks n : Nat) : Prop :=
  (nk, blocks, n) = (4, 1, 10 * 16 + 10 * 4) ∨ (nk, blocks, n) = (6, 2, 2 * (12 * 16) + 8 * 4) ∨ (nk, blocks, n) = (8, 2, 2 * (14 * 16) + 13 * 4)

theorem Variant.spec {nk blocks n : Nat} (h : Variant nk blocks n) :
    (4 * nk = 16 ∨ 4 * nk = 24 ∨ 4 * nk = 32) ∧ 4 * nk / 4 = nk ∧ nBlocks (4 * nk) = blocks ∧ sboxCount (4 * nk) = n ∧ ctLength (4 * nk) = 16 * blocks := by
  rcases h with h | h | h <;> (simp only [Prod.mk.injEq] at h; obtain ⟨rfl, rfl, rfl⟩ := h; decide)

/-! ## C32 -/

/-- C32: `aes_*` returns true exactly if no S-box input is zero, and then the output is that of FIPS 197. -/
theorem C32_aes (nk blocks n : Nat) (hv : Variant nk blocks n) (key pt ct : Bytes) :
    aesPlain (4 * nk) key pt = some ct ↔ 0 ∉ sboxInputs nk blocks key pt ∧ ct = encrypt nk blocks key pt := by
  obtain ⟨h, e1, e2, _⟩ := hv.spec
  rw [aesPlain_fips _ h, e1, e2]
  by_cases h0 : 0 ∈ sboxInputs nk blocks key pt
  · rw [if_pos h0]
    exact ⟨fun e => by simp at e, fun e => absurd h0 e.1⟩
  · rw [if_neg h0, Option.some.injEq]
    exact ⟨fun e => ⟨h0, e.symm⟩, fun e => e.2.symm⟩

/-- A usable key and plaintext (those of the known answer test of the repository). -/
theorem kat_usable : aesPlain 16 (List.replicate 16 0xff) ([1, 1, 1, 1] ++ List.replicate 12 0) = some [11, 90, 129, 77, 149, 96, 28, 199, 239, 231, 18, 40, 62, 5, 239, 143] := by decide +kernel
/-- Usable keys for the other two sizes, and an unusable key. -/
theorem usable192 : (aesPlain 24 (List.replicate 24 2) (List.replicate 32 1)).isSome = true := by decide +kernel
theorem usable256 : (aesPlain 32 (List.replicate 32 3) (List.replicate 32 1)).isSome = true := by decide +kernel
theorem unusable128 : aesPlain 16 (List.replicate 16 0) (List.replicate 16 1) = none := by decide +kernel

theorem kat_nonzero : 0 ∉ sboxInputs 4 1 (List.replicate 16 0xff) ([1, 1, 1, 1] ++ List.replicate 12 0) :=
  ((C32_aes 4 1 200 (.inl rfl) _ _ _).1 kat_usable).1
theorem zero_unusable : 0 ∈ sboxInputs 4 1 (List.replicate 16 0) (List.replicate 16 1) := by
  by_contra h
  have := (C32_aes 4 1 200 (.inl rfl) _ _ _).2 ⟨h, rfl⟩
  rw [unusable128] at this
  exact absurd this (by simp)

/-! ## C33 -/

/-- C33: for a usable key the recorded vectors have one entry per S-box, all products are 1, the first vector lists exactly the S-box inputs of FIPS 197 (in the order of the code), and both vectors are what the
shared evaluation needs and returns: with the second vector as S-box outputs it reproduces the first one and the ciphertext. -/
theorem C33_pairs (nk blocks n : Nat) (hv : Variant nk blocks n) (key pt : Bytes) (h0 : 0 ∉ sboxInputs nk blocks key pt) :
    ∃ s t : Bytes, aesSave (4 * nk) key pt = (some (encrypt nk blocks key pt), (s, t)) ∧ s.length = n ∧ t.length = n ∧ (∀ i < n, mul (s.getD i 0) (t.getD i 0) = 1) ∧
      s.Perm (sboxInputs nk blocks key pt) ∧ aesParty (4 * nk) true key t pt = (s, encrypt nk blocks key pt) := by
  obtain ⟨h, e1, e2, e3, _⟩ := hv.spec
  have hs := aesSave_fips _ h key pt (by rwa [e1, e2])
  have hp := aesParty_fips _ h key pt
  have hl := length_codeInputs _ h key pt
  rw [e1, e2] at hs hp hl
  rw [e3] at hl
  refine ⟨_, _, hs, hl, by rw [List.length_map, hl], ?_, codeInputs_perm _ _ _ _, hp⟩
  intro i hi
  have hi' : i < (codeInputs nk blocks key pt).length := by omega
  rw [← aesMul_eq, List.getD_eq_getElem?_getD, List.getD_eq_getElem?_getD, List.getElem?_map, List.getElem?_eq_getElem hi']
  refine aesMul_inv _ fun hz => h0 ?_
  have : (codeInputs nk blocks key pt)[i] ∈ sboxInputs nk blocks key pt := (codeInputs_perm _ _ _ _).mem_iff.1 (List.getElem_mem _)
  simp only [Option.getD_some] at hz
  rwa [hz] at this

example : 0 ∉ sboxInputs 4 1 (List.replicate 16 0xff) ([1, 1, 1, 1] ++ List.replicate 12 0) := kat_nonzero

/-! ## C31 -/

/-- C31: for any number of parties, of which the first adds the constants and the plaintext: the XOR of all `s` shares and of all ciphertext shares is the result of a single party holding the XOR of the key
shares and of the `t` shares. -/
theorem C31_shares (nk blocks n : Nat) (hv : Variant nk blocks n) (pt : Bytes) (k0 t0 : Bytes) (ps : List (Bytes × Bytes)) (hk0 : k0.length = 4 * nk) (ht0 : t0.length = n)
    (hps : ∀ q ∈ ps, q.1.length = 4 * nk ∧ q.2.length = n) :
    (xorOf n ((aesParty (4 * nk) true k0 t0 pt).1 :: ps.map fun q => (aesParty (4 * nk) false q.1 q.2 pt).1),
      xorOf (16 * blocks) ((aesParty (4 * nk) true k0 t0 pt).2 :: ps.map fun q => (aesParty (4 * nk) false q.1 q.2 pt).2)) =
    aesParty (4 * nk) true (xorOf (4 * nk) (k0 :: ps.map (·.1))) (xorOf n (t0 :: ps.map (·.2))) pt := by
  obtain ⟨_, _, _, e3, e4⟩ := hv.spec
  have hlen : ∀ f k t, (aesParty (4 * nk) f k t pt).1.length = n ∧ (aesParty (4 * nk) f k t pt).2.length = 16 * blocks := fun f k t => by
    obtain ⟨h1, h2⟩ := aesParty_length (4 * nk) f k t pt
    exact ⟨h1.trans e3, h2.trans e4⟩
  obtain ⟨h1, h2⟩ := parties_fold (4 * nk) true pt ps hps k0 t0 hk0 ht0
  rw [xorOf_eq k0 _ hk0 (by simp only [List.mem_map]; rintro _ ⟨q, hq, rfl⟩; exact (hps q hq).1), xorOf_eq t0 _ ht0 (by simp only [List.mem_map]; rintro _ ⟨q, hq, rfl⟩; exact (hps q hq).2),
    xorOf_eq _ _ (hlen _ _ _).1 (by simp only [List.mem_map]; rintro _ ⟨q, hq, rfl⟩; exact (hlen _ _ _).1),
    xorOf_eq _ _ (hlen _ _ _).2 (by simp only [List.mem_map]; rintro _ ⟨q, hq, rfl⟩; exact (hlen _ _ _).2), ← h1, ← h2]

/-- C31: with the recorded S-box outputs shared in any way, the parties' results add up to the FIPS 197 ciphertext and the S-box inputs. -/
theorem C31_fips (nk blocks n : Nat) (hv : Variant nk blocks n) (key pt : Bytes) (h0 : 0 ∉ sboxInputs nk blocks key pt) (k0 t0 : Bytes) (ps : List (Bytes × Bytes)) (hk0 : k0.length = 4 * nk)
    (ht0 : t0.length = n) (hps : ∀ q ∈ ps, q.1.length = 4 * nk ∧ q.2.length = n) (hk : xorOf (4 * nk) (k0 :: ps.map (·.1)) = key)
    (ht : xorOf n (t0 :: ps.map (·.2)) = (aesSave (4 * nk) key pt).2.2) :
    xorOf n ((aesParty (4 * nk) true k0 t0 pt).1 :: ps.map fun q => (aesParty (4 * nk) false q.1 q.2 pt).1) = (aesSave (4 * nk) key pt).2.1 ∧
    xorOf (16 * blocks) ((aesParty (4 * nk) true k0 t0 pt).2 :: ps.map fun q => (aesParty (4 * nk) false q.1 q.2 pt).2) = encrypt nk blocks key pt := by
  obtain ⟨s, t, e, _, _, _, _, hp⟩ := C33_pairs nk blocks n hv key pt h0
  have h := C31_shares nk blocks n hv pt k0 t0 ps hk0 ht0 hps
  rw [hk, ht, e, hp, Prod.mk.injEq] at h
  rw [e]
  exact h

/-- Three parties, shares of the usable key: `0xff = 0xf0 ^ 0x3c ^ 0x33`. -/
example : xorOf 16 (List.replicate 16 0xf0 :: [(List.replicate 16 0x3c, List.replicate 200 1), (List.replicate 16 0x33, List.replicate 200 2)].map (·.1)) = List.replicate 16 0xff := by decide +kernel

/-! ## C49 -/

/-- C49: if all products of the values computed from a key and S-box outputs `t` are 1, then the computation is FIPS 197 AES with that key, without zero S-box input. -/
theorem C49_relation (nk blocks n : Nat) (hv : Variant nk blocks n) (key t pt s ct : Bytes) (hr : aesParty (4 * nk) true key t pt = (s, ct)) (hc : ∀ i < n, mul (s.getD i 0) (t.getD i 0) = 1) :
    ct = encrypt nk blocks key pt ∧ 0 ∉ sboxInputs nk blocks key pt := by
  obtain ⟨h, e1, e2, e3, _⟩ := hv.spec
  have := aesParty_conv _ h key t pt (fun i hi => by
    rw [aesMul_eq, hr]
    exact hc i (by omega))
  rw [hr, e1, e2] at this
  exact this.2

/-- The hypothesis is met by the recorded values of a usable key. -/
example : ∃ t s ct : Bytes, aesParty (4 * 4) true (List.replicate 16 0xff) t ([1, 1, 1, 1] ++ List.replicate 12 0) = (s, ct) ∧ ∀ i < 200, mul (s.getD i 0) (t.getD i 0) = 1 := by
  obtain ⟨s, t, _, _, _, hm, _, hp⟩ := C33_pairs 4 1 200 (.inl rfl) _ _ kat_nonzero
  exact ⟨t, s, _, hp, hm⟩

/-! ## C23 -/

theorem length_encrypt (nk blocks : Nat) (key pt : Bytes) : (encrypt nk blocks key pt).length = 16 * blocks := by
  have h : ∀ i, (encryptBlock nk key (slice pt (16 * i) 16)).length = 16 := fun i => by
    unfold encryptBlock
    rw [← ofState_cipher]
    simp
  unfold encrypt
  rw [List.length_flatMap]
  simp only [h, List.map_const', List.sum_replicate, List.length_range, smul_eq_mul]
  rw [Nat.mul_comm]

theorem consistent_variant {I : Instance} (hI : Consistent I) : Variant (I.aes.keySize / 4) I.aes.numBlocks I.aes.numSboxes ∧ 4 * (I.aes.keySize / 4) = I.aes.keySize ∧ I.aes.blockSize = 16 := by
  rcases hI.aes with h | h | h <;> (simp only [Prod.mk.injEq] at h; obtain ⟨h1, h2, h3, h4⟩ := h; rw [h1, h3, h4])
  · exact ⟨.inl rfl, rfl, h2⟩
  · exact ⟨.inr (.inl rfl), rfl, h2⟩
  · exact ⟨.inr (.inr rfl), rfl, h2⟩

/-- C23: whatever the random source returns, a key pair returned by keygen is usable: the key and plaintext are those of one attempt, the ciphertext is the FIPS 197 encryption, no S-box input is zero, and
all earlier attempts had a zero S-box input. -/
theorem C23_keygen (I : Instance) (hI : Consistent I) (draws : Nat → Bytes × Bytes) (hd : ∀ i, (draws i).1.length = I.aes.keySize ∧ (draws i).2.length = I.ctSize) (fuel : Nat) (sk pk : Bytes)
    (h : keygen I draws fuel 0 = .ok (sk, pk)) :
    sk.length = I.aes.keySize ∧ pk.length = 2 * I.aes.blockSize * I.aes.numBlocks ∧
    ∃ pt, pk = pt ++ encrypt (I.aes.keySize / 4) I.aes.numBlocks sk pt ∧ pt.length = I.aes.blockSize * I.aes.numBlocks ∧ 0 ∉ sboxInputs (I.aes.keySize / 4) I.aes.numBlocks sk pt ∧
      ∃ i < fuel, draws i = (sk, pt) ∧ ∀ j < i, 0 ∈ sboxInputs (I.aes.keySize / 4) I.aes.numBlocks (draws j).1 (draws j).2 := by
  obtain ⟨hv, e4, hb⟩ := consistent_variant hI
  have hs : I.aes.keySize = 16 ∨ I.aes.keySize = 24 ∨ I.aes.keySize = 32 := by rw [← e4]; exact hv.spec.1
  have key : ∀ fuel i, keygen I draws fuel i = .ok (sk, pk) → ∃ k, i ≤ k ∧ k < i + fuel ∧ aesPlain I.aes.keySize (draws k).1 (draws k).2 = some (pk.drop I.ctSize) ∧ sk = (draws k).1 ∧
      pk = (draws k).2 ++ pk.drop I.ctSize ∧ ∀ j, i ≤ j → j < k → aesPlain I.aes.keySize (draws j).1 (draws j).2 = none := by
    intro fuel
    induction fuel with
    | zero => intro i h; exact absurd h (by simp [keygen])
    | succ fuel ih =>
      intro i h
      unfold keygen at h
      rw [if_pos hs] at h
      cases hp : aesPlain I.aes.keySize (draws i).1 (draws i).2 with
      | some ct =>
        rw [hp] at h
        simp only [Except.ok.injEq, Prod.mk.injEq] at h
        obtain ⟨rfl, rfl⟩ := h
        have : ((draws i).2 ++ ct).drop I.ctSize = ct := by rw [← (hd i).2, List.drop_left]
        rw [this]
        exact ⟨i, le_refl _, by omega, hp, rfl, rfl, fun j h1 h2 => by omega⟩
      | none =>
        rw [hp] at h
        obtain ⟨k, h1, h2, h3, h4, h5, h6⟩ := ih (i + 1) h
        refine ⟨k, by omega, by omega, h3, h4, h5, fun j hj1 hj2 => ?_⟩
        by_cases hji : j = i
        · rw [hji]; exact hp
        · exact h6 j (by omega) hj2
  obtain ⟨k, _, h2, h3, h4, h5, h6⟩ := key fuel 0 h
  rw [← e4, C32_aes _ _ _ hv] at h3
  obtain ⟨h7, h8⟩ := h3
  rw [h8] at h5
  refine ⟨?_, ?_, (draws k).2, by rw [h4]; exact h5, (hd k).2, by rw [h4]; exact h7, k, by omega, by rw [h4], fun j hj => ?_⟩
  · rw [h4]; exact (hd k).1
  · rw [h5, List.length_append, length_encrypt, (hd k).2, hb]
    unfold Instance.ctSize
    rw [hb]
    ring
  · by_contra hz
    have := (C32_aes _ _ _ hv (draws j).1 (draws j).2 _).2 ⟨hz, rfl⟩
    rw [e4, h6 j (by omega) hj] at this
    exact absurd this (by simp)

/-- Keygen with a first attempt that is rejected. -/
example : keygen smallInstance (fun i => if i = 0 then (List.replicate 16 0, List.replicate 16 1) else (List.replicate 16 0xff, [1, 1, 1, 1] ++ List.replicate 12 0)) 5 0 =
    .ok (List.replicate 16 0xff, ([1, 1, 1, 1] ++ List.replicate 12 0) ++ [11, 90, 129, 77, 149, 96, 28, 199, 239, 231, 18, 40, 62, 5, 239, 143]) := by
  have h1 : aesPlain smallInstance.aes.keySize (List.replicate 16 0) (List.replicate 16 1) = none := unusable128
  have h2 : aesPlain smallInstance.aes.keySize (List.replicate 16 0xff) ([1, 1, 1, 1] ++ List.replicate 12 0) = some [11, 90, 129, 77, 149, 96, 28, 199, 239, 231, 18, 40, 62, 5, 239, 143] := kat_usable
  have h3 : smallInstance.aes.keySize = 16 ∨ smallInstance.aes.keySize = 24 ∨ smallInstance.aes.keySize = 32 := .inl rfl
  unfold keygen
  rw [if_pos h3]
  simp only [if_true, h1]
  unfold keygen
  rw [if_pos h3]
  simp only [Nat.zero_add, Nat.one_ne_zero, if_false, h2]

/-! ## C24 -/

/-- C24: the claim: signing with a key of the right length has defined behaviour. -/
def C24_statement : Prop := ∀ (X : Xof) (fuel : Nat) (I : Instance), Consistent I → ∀ sk pk msg : Bytes, sk.length = I.aes.keySize → pk.length = 2 * I.ctSize → sign X fuel I sk pk msg ≠ .error .ub

/-- C24: with every key that has a zero S-box input for the plaintext of the public key, sign reads beyond the end of the recorded values. -/
theorem C24_ub (X : Xof) (fuel : Nat) (I : Instance) (hI : Consistent I) (sk pk msg : Bytes) (hsk : sk.length = I.aes.keySize) (hpk : pk.length = 2 * I.ctSize)
    (h0 : 0 ∈ sboxInputs (I.aes.keySize / 4) I.aes.numBlocks sk (slice pk 0 I.ctSize)) : sign X fuel I sk pk msg = .error .ub := by
  obtain ⟨F, hF⟩ := init_supported hI.lambda
  obtain ⟨hv, e4, hb⟩ := consistent_variant hI
  obtain ⟨h, e1, e2, e3, _⟩ := hv.spec
  rw [e4] at h e1 e2 e3
  have hz := aesSave_zero I.aes.keySize h sk (slice pk 0 I.ctSize) (by rwa [e2])
  unfold sign
  rw [hF, ok_bind]
  unfold signWith
  rw [checkAes_ok hI, ok_bind, decide_eq_true ⟨hsk, hpk.ge⟩, require_true, ok_bind]
  dsimp only
  rw [decide_eq_false (by rintro ⟨h1, _⟩; rw [e3] at hz; omega)]
  rfl

/-- C24 does not hold: the all-zero key. -/
theorem C24_violated : ¬C24_statement := by
  intro h
  refine h toyXof 5 smallInstance small_consistent (List.replicate 16 0) (List.replicate 32 1) [] rfl rfl ?_
  exact C24_ub _ _ _ small_consistent _ _ _ rfl rfl zero_unusable

end Banquet.Props
