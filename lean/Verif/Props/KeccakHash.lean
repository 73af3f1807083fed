import Verif.Proofs.KeccakHash
import Verif.Proofs.Keccak64State

/-! Property theorems C88 and C89: the hash functions of keccak/KeccakHash.c for any rate, suffix and bit length, and the sponge in one call. -/

namespace Banquet.Props

open Spec

/-! ### C88 -/

/-- C88: initialising succeeds exactly for a delimited suffix that is not zero and a rate that is a positive multiple of 8 and makes 1600 together with the capacity (the sum of two `unsigned int` may wrap, but not to 1600). -/
theorem C88_init (S : SnP) (rate capacity hashbitlen : Nat) (suffix : Byte) (hr : rate < 2 ^ 32) (hc : capacity < 2 ^ 32) :
    (hashInitialize S rate capacity hashbitlen suffix).isSome = true ↔ suffix ≠ 0 ∧ 0 < rate ∧ rate % 8 = 0 ∧ rate + capacity = 1600 := by
  unfold hashInitialize
  by_cases h0 : suffix = 0
  · simp [h0]
  · rw [if_neg h0]
    by_cases hb : badRate rate capacity = true
    · rw [if_pos hb]
      simp only [Option.isSome_none, Bool.false_eq_true, false_iff]
      rintro ⟨-, h1, h2, h3⟩
      unfold badRate at hb
      simp only [Bool.or_eq_true, decide_eq_true_eq] at hb
      omega
    · rw [if_neg hb]
      simp only [Option.isSome_some, true_iff]
      unfold badRate at hb
      simp only [Bool.or_eq_true, decide_eq_true_eq, not_or, not_not] at hb
      refine ⟨h0, ?_, ?_, ?_⟩ <;> omega

/-- Parameters of SHA3-256, and wrong ones. -/
example : (hashInitialize Opt64.snp 1088 512 256 0x06).isSome = true ∧ (hashInitialize Opt64.snp 1088 512 256 0).isSome = false ∧ (hashInitialize Opt64.snp 1088 500 256 0x06).isSome = false ∧
    (hashInitialize Opt64.snp 1601 4294967295 256 0x06).isSome = false := by decide

/-- Updates by whole bytes, one after the other; `false` if one of them fails. -/
def updateAll (S : SnP) : HashInst S → List Bytes → M (HashInst S × Bool)
  | h, [] => .ok (h, true)
  | h, c :: cs => do
    let (h, ok) ← hashUpdateBits S h c (8 * c.length)
    if ok then updateAll S h cs else .ok (h, false)

/-- Squeezing several times; `none` if one of the calls fails, otherwise all bytes. The lengths are in bytes. -/
def squeezeAll (S : SnP) : HashInst S → List Nat → M (Option Bytes)
  | _, [] => .ok (some [])
  | h, n :: ns => do
    let (h, out) ← hashSqueezeBits S h (8 * n)
    match out with
    | none => .ok none
    | some out => do
      let rest ← squeezeAll S h ns
      .ok (rest.map (out ++ ·))

/-- A whole use: initialising, updates by whole bytes, a last update of `n` bits, the hash value, further output. -/
def hashRun (S : SnP) (rate capacity hashbitlen : Nat) (suffix : Byte) (chunks : List Bytes) (last : Bytes) (n : Nat) (lens : List Nat) : M (Option (Bytes × Bytes)) :=
  match hashInitialize S rate capacity hashbitlen suffix with
  | none => .ok none
  | some h => do
    let (h, ok) ← updateAll S h chunks
    if ok then do
      let (h, ok) ← hashUpdateBits S h last n
      if ok then do
        let (h, hash) ← hashFinalFixed S h
        let more ← squeezeAll S h lens
        .ok (hash.bind fun a => more.map fun b => (a, b))
      else .ok none
    else .ok none

theorem updateAll_eq {f : St → St} {S : SnP} {view : S.State → St} (hS : Snp f S view) {rate : Nat} (h0 : 0 < rate) (hr : rate < 200) {d : Byte} (hd : d ≠ 0) (chunks : List Bytes) (hl : ∀ c ∈ chunks, c.length + rate ≤ 2 ^ 32)
    (msg : Bytes) (h : HashInst S) (hc : h.sponge.abs view = ctxR f rate d msg) :
    ∃ h', updateAll S h chunks = .ok (h', true) ∧ h'.fixedBits = h.fixedBits ∧ h'.sponge.abs view = ctxR f rate d (msg ++ chunks.flatten) := by
  induction chunks generalizing msg h with
  | nil => exact ⟨h, rfl, rfl, by simpa using hc⟩
  | cons c cs ih =>
    have h8 : 8 * c.length / 8 = c.length := Nat.mul_div_cancel_left _ (by omega)
    obtain ⟨h1, d', msg', e1, e2, e3, -, -, e4⟩ := updateBits hS h0 hr hd hc c (8 * c.length) le_rfl (by rw [h8]; exact hl c (by simp))
    obtain ⟨rfl, rfl⟩ := e4 (Nat.mul_mod_right _ _)
    rw [h8, List.take_length] at e3
    obtain ⟨h2, g1, g2, g3⟩ := ih (fun x hx => hl x (by simp [hx])) _ h1 e3
    refine ⟨h2, ?_, by rw [g2, e2], by rw [g3, List.flatten_cons, List.append_assoc]⟩
    unfold updateAll
    rw [bindOk e1]
    exact g1

theorem squeezeAll_eq {f : St → St} {S : SnP} {view : S.State → St} (hS : Snp f S view) {rate : Nat} (h0 : 0 < rate) (hr : rate < 200) (T : St) (lens : List Nat) (hl : ∀ n ∈ lens, n + rate ≤ 2 ^ 32)
    (p : Nat) (h : HashInst S) (hc : Ideal.SqInv f T rate p (h.sponge.abs view)) :
    squeezeAll S h lens = .ok (some ((squeezeStream f rate T).squeeze p lens.sum)) := by
  induction lens generalizing p h with
  | nil => rfl
  | cons n ns ih =>
    obtain ⟨s1, e1, e2⟩ := hashSqueeze_sim hS T h.sponge n h0 hr hc (hl n (by simp))
    have e3 : hashSqueezeBits S h (8 * n) = .ok ({ h with sponge := s1 }, some ((squeezeStream f rate T).squeeze p n)) := by
      unfold hashSqueezeBits
      rw [if_neg (by simp), Nat.mul_div_cancel_left _ (by omega), bindOk e1]
    unfold squeezeAll
    rw [bindOk e3]
    simp only
    rw [bindOk (ih (fun x hx => hl x (by simp [hx])) (p + n) _ e2), Option.map_some, Ideal.squeeze_add, List.sum_cons]

theorem start_eq {f : St → St} {S : SnP} {view : S.State → St} (hS : Snp f S view) {R capacity hashbitlen : Nat} {suffix : Byte} (hR : 0 < R) (hR' : R < 200) (hcap : 8 * R + capacity = 1600) (hd : suffix ≠ 0) :
    ∃ h, hashInitialize S (8 * R) capacity hashbitlen suffix = some h ∧ h.fixedBits = hashbitlen ∧ h.sponge.abs view = ctxR f R suffix [] := by
  have hbad : badRate (8 * R) capacity = false := by
    unfold badRate
    simp
    omega
  refine ⟨⟨⟨S.init, R, 0, false, suffix⟩, hashbitlen⟩, ?_, rfl, ?_⟩
  · unfold hashInitialize
    rw [if_neg hd, hbad, if_neg (by simp), Nat.mul_div_cancel_left _ (by omega)]
  · simp only [Sponge.abs, hS.init]
    rfl

/-- C88: for any rate below 1600 bits, any suffix, a message in any number of whole bytes per call followed by a last call with any number of bits, the hash value and the bytes squeezed afterwards are the output of the sponge
construction of FIPS 202 on the bits of the message followed by those of the suffix. -/
theorem C88_hash {f : St → St} {S : SnP} {view : S.State → St} (hS : Snp f S view) (R capacity hashbitlen : Nat) (suffix : Byte) (chunks : List Bytes) (last : Bytes) (n : Nat) (lens : List Nat)
    (hR : 0 < R) (hR' : R < 200) (hcap : 8 * R + capacity = 1600) (hd : suffix ≠ 0) (hn : n ≤ 8 * last.length)
    (hchunks : ∀ c ∈ chunks, c.length + R ≤ 2 ^ 32) (hlast : n / 8 + R ≤ 2 ^ 32) (hhash : hashbitlen / 8 + R ≤ 2 ^ 32) (hlens : ∀ n ∈ lens, n + R ≤ 2 ^ 32) :
    let out := sponge f (8 * R) (bitsOf chunks.flatten ++ (bitsOf last).take n ++ suffixBits suffix)
    hashRun S (8 * R) capacity hashbitlen suffix chunks last n lens = .ok (some (out.squeeze 0 (hashbitlen / 8), out.squeeze (hashbitlen / 8) lens.sum)) := by
  intro out
  obtain ⟨h, e1, e2, e3⟩ := start_eq hS (hashbitlen := hashbitlen) hR hR' hcap hd
  obtain ⟨h1, e4, e5, e6⟩ := updateAll_eq hS hR hR' hd chunks hchunks [] h e3
  rw [List.nil_append] at e6
  obtain ⟨h2, d', msg', e7, e8, e9, hd', e10, -⟩ := updateBits hS hR hR' hd e6 last n hn hlast
  have hf : h2.fixedBits = hashbitlen := by rw [e8, e5, e2]
  obtain ⟨h3, e11, e12⟩ := finalR hS hR hR' hd' e9 (by rw [hf]; exact hhash)
  have e13 := squeezeAll_eq hS hR hR' _ lens hlens _ h3 e12
  rw [padded_stream hR d' hd', e10, hf] at e13
  rw [e10, hf] at e11
  unfold hashRun
  rw [e1]
  simp only
  rw [bindOk e4]
  simp only [if_true]
  rw [bindOk e7]
  simp only [if_true]
  rw [bindOk e11, bindOk e13]
  rfl

/-- SHA3-256 on the portable code: 300 bytes in two calls, then three bits. -/
example : hashRun Opt64.snp 1088 512 256 0x06 [List.replicate 100 7, List.replicate 200 1] [0x05] 3 [] =
    .ok (some ((sponge keccakF 1088 (bitsOf [List.replicate 100 7, List.replicate 200 1].flatten ++ [true, false, true] ++ [false, true])).squeeze 0 32, [])) := by
  rw [show [true, false, true] = (bitsOf [0x05]).take 3 by decide, show [false, true] = suffixBits 0x06 by decide]
  exact C88_hash Opt64.snp_ok 136 512 256 0x06 [List.replicate 100 7, List.replicate 200 1] [0x05] 3 [] (by omega) (by omega) (by omega) (by decide) (by decide)
    (fun c hc => by simp only [List.mem_cons, List.not_mem_nil, or_false] at hc; rcases hc with rfl | rfl <;> rw [List.length_replicate] <;> omega) (by omega) (by omega) (by simp)

/-- The published value of SHA3-256 for the message of the five bits 11001, computed by the model of the code. -/
example : hashRun Opt64.snp 1088 512 256 0x06 [] [0x13] 5 [] = .ok (some ([0x7B, 0x00, 0x47, 0xCF, 0x5A, 0x45, 0x68, 0x82, 0x36, 0x3C, 0xBF, 0x0F, 0xB0, 0x53, 0x22, 0xCF, 0x65, 0xF4, 0xB7, 0x05, 0x9A, 0x46, 0x36, 0x5E, 0x83,
    0x01, 0x32, 0xE3, 0xB5, 0xD9, 0x57, 0xAF], [])) := by decide +kernel

/-- C88: SHAKE of the specification of the other properties, whose padding is written byte by byte, is the bit-wise definition of FIPS 202 (6.2): the sponge on the message followed by 1111. -/
theorem C88_shake (f : St → St) (k : ShakeKind) (msg : Bytes) : shake f k msg = sponge f (8 * shakeRate k) (bitsOf msg ++ [true, true, true, true]) := by
  have h0 : 0 < shakeRate k := by cases k <;> decide
  rw [show [true, true, true, true] = suffixBits 0x1F by decide, ← padded_stream h0 0x1F (by decide)]
  rfl

/-- C88: output without `Keccak_HashFinal` is that of the sponge on the message alone: the suffix given at initialising is not used. -/
theorem C88_noFinal {f : St → St} {S : SnP} {view : S.State → St} (hS : Snp f S view) (R capacity hashbitlen : Nat) (suffix : Byte) (msg : Bytes) (n : Nat)
    (hR : 0 < R) (hR' : R < 200) (hcap : 8 * R + capacity = 1600) (hd : suffix ≠ 0) (hmsg : msg.length + R ≤ 2 ^ 32) (hn : n + R ≤ 2 ^ 32) :
    ∃ h0 h1 h2, hashInitialize S (8 * R) capacity hashbitlen suffix = some h0 ∧ hashUpdateBits S h0 msg (8 * msg.length) = .ok (h1, true) ∧
      hashSqueezeBits S h1 (8 * n) = .ok (h2, some ((sponge f (8 * R) (bitsOf msg)).squeeze 0 n)) := by
  obtain ⟨h, e1, e2, e3⟩ := start_eq hS (hashbitlen := hashbitlen) hR hR' hcap hd
  have h8 : 8 * msg.length / 8 = msg.length := Nat.mul_div_cancel_left _ (by omega)
  obtain ⟨h1, d', msg', g1, g2, g3, -, -, g4⟩ := updateBits hS hR hR' hd e3 msg (8 * msg.length) le_rfl (by rw [h8]; exact hmsg)
  obtain ⟨rfl, rfl⟩ := g4 (Nat.mul_mod_right _ _)
  rw [h8, List.take_length, List.nil_append] at g3
  obtain ⟨s2, l1, -, l2⟩ := lastR hS hR hR' g3 0x01 (by decide)
  have hq : h1.sponge.squeezing = false := congrArg Ideal.Sponge.squeezing g3
  have hq2 : s2.squeezing = true := l2.2.1
  obtain ⟨s3, k1, -⟩ := hashSqueeze_sim hS _ s2 n hR hR' l2 hn
  have k2 : hashSqueeze S h1.sponge n = .ok (s3, (squeezeStream f R (padded f R 0x01 msg)).squeeze 0 n) := by
    rw [← k1]
    unfold hashSqueeze
    rw [hq, if_neg (by simp), bindOk l1, hq2, if_pos rfl]
    rfl
  refine ⟨h, h1, { h1 with sponge := s3 }, e1, g1, ?_⟩
  unfold hashSqueezeBits
  rw [if_neg (by simp), Nat.mul_div_cancel_left _ (by omega), bindOk k2, padded_stream hR 0x01 (by decide), show suffixBits 0x01 = [] by decide, List.append_nil]

example : (0x06 : Byte) ≠ 0 ∧ 8 * 136 + 512 = 1600 ∧ suffixBits 0x06 ≠ [] := by decide

/-- C88: once output has begun, further input and a second `Keccak_HashFinal` fail and change nothing; output that is not a whole number of bytes fails and changes nothing. -/
theorem C88_late (S : SnP) (h : HashInst S) (data : Bytes) (n : Nat) : (h.sponge.squeezing = true → hashUpdateBits S h data n = .ok (h, false) ∧ hashFinalFixed S h = .ok (h, none)) ∧
    (n % 8 ≠ 0 → hashSqueezeBits S h n = .ok (h, none)) := by
  refine ⟨fun hq => ⟨?_, ?_⟩, fun hn => ?_⟩
  · unfold hashUpdateBits
    rw [if_pos hq]
  · unfold hashFinalFixed
    rw [if_pos (.inr hq)]
  · unfold hashSqueezeBits
    rw [if_pos hn]

/-- Both situations occur. -/
example : (match hashSqueezeBits Opt64.snp ⟨⟨Opt64.snp.init, 136, 0, false, 6⟩, 256⟩ 0 with
    | .ok (h, some []) => h.sponge.squeezing && (8 + 3) % 8 != 0
    | _ => false) = true := by decide +kernel

/-! ### C89 -/

/-- C89: the sponge in one call, `KeccakWidth1600_Sponge`, is the sponge construction of FIPS 202 for every length of input and output - also beyond 2^32 bytes, where the functions with a context fail (C38, C39) -, every suffix and every
rate below 1600 bits. -/
theorem C89_oneCall {f : St → St} {S : SnP} {view : S.State → St} (hS : Snp f S view) (R capacity : Nat) (suffix : Byte) (input : Bytes) (outputByteLen : Nat)
    (hR : 0 < R) (hR' : R < 200) (hcap : 8 * R + capacity = 1600) (hd : suffix ≠ 0) :
    spongeOneCall S (8 * R) capacity input suffix outputByteLen = .ok (some ((sponge f (8 * R) (bitsOf input ++ suffixBits suffix)).squeeze 0 outputByteLen)) := oneCall hS hR hR' hd capacity hcap input outputByteLen

/-- SHAKE256 of a message of 2^32 bytes and a rate of 17 bytes that is no whole number of lanes. -/
example : spongeOneCall Opt64.snp 1088 512 (List.replicate (2 ^ 32) 0) 0x1F (2 ^ 33) = .ok (some ((shake keccakF .shake256 (List.replicate (2 ^ 32) 0)).squeeze 0 (2 ^ 33))) := by
  rw [C88_shake]
  exact C89_oneCall Opt64.snp_ok 136 512 0x1F (List.replicate (2 ^ 32) 0) (2 ^ 33) (by omega) (by omega) (by omega) (by decide)
example : spongeOneCall Opt64.snp 136 1464 (List.replicate 40 1) 0x80 100 = .ok (some ((sponge keccakF 136 (bitsOf (List.replicate 40 1) ++ suffixBits 0x80)).squeeze 0 100)) :=
  C89_oneCall Opt64.snp_ok 17 1464 0x80 (List.replicate 40 1) 100 (by omega) (by omega) (by omega) (by decide)

/-- The published value of SHA3-256 for the empty message. -/
example : spongeOneCall Opt64.snp 1088 512 [] 0x06 32 = .ok (some [0xa7, 0xff, 0xc6, 0xf8, 0xbf, 0x1e, 0xd7, 0x66, 0x51, 0xc1, 0x47, 0x56, 0xa0, 0x61, 0xd6, 0x62, 0xf5, 0x80, 0xff, 0x4d, 0xe4, 0x3b, 0x49, 0xfa, 0x82, 0xd8, 0x0a,
    0x4b, 0x80, 0xf8, 0x43, 0x4a]) := by decide +kernel

/-- C89: it fails exactly for the same parameters as the other functions. -/
theorem C89_fails (S : SnP) (rate capacity : Nat) (suffix : Byte) (input : Bytes) (n : Nat) (hr : rate < 2 ^ 32) (hc : capacity < 2 ^ 32) (h : ¬ (suffix ≠ 0 ∧ 0 < rate ∧ rate % 8 = 0 ∧ rate + capacity = 1600)) :
    spongeOneCall S rate capacity input suffix n = .ok none := by
  have key := mt (C88_init S rate capacity 0 suffix hr hc).1 h
  unfold hashInitialize at key
  unfold spongeOneCall
  by_cases hb : badRate rate capacity = true
  · rw [if_pos hb]
  · rw [if_neg hb]
    by_cases h0 : suffix = 0
    · rw [if_pos h0]
    · rw [if_neg h0, if_neg hb] at key
      exact absurd rfl key

example : ¬ ((6 : Byte) ≠ 0 ∧ 0 < 1090 ∧ 1090 % 8 = 0 ∧ 1090 + 510 = 1600) := by decide

end Banquet.Props
