import Verif.Proofs.KeccakHash4
import Verif.Proofs.Keccak64State
import Verif.Proofs.KeccakX4

/-! Property theorems C93: the four hash functions side by side of keccak/KeccakHashtimes4.c, for any rate and suffix. -/

namespace Banquet.Props

open Spec

/-! ### C93 -/

/-- C93: initialising succeeds exactly for a delimited suffix that is not zero and a rate that is a positive multiple of 8 and makes 1600 together with the capacity. -/
theorem C93_init (S : PlSnP) (rate capacity hashbitlen : Nat) (suffix : Byte) (hr : rate < 2 ^ 32) (hc : capacity < 2 ^ 32) :
    (hashInitialize4 S rate capacity hashbitlen suffix).isSome = true ↔ suffix ≠ 0 ∧ 0 < rate ∧ rate % 8 = 0 ∧ rate + capacity = 1600 := by
  unfold hashInitialize4
  by_cases h0 : suffix = 0
  · simp [h0]
  · rw [if_neg h0]
    by_cases hb : badRate rate capacity = true
    · rw [if_pos hb]
      simp only [Option.isSome_none, Bool.false_eq_true, false_iff]
      rintro ⟨-, h1, h2, h3⟩
      unfold badRate at hb
      simp only [Bool.or_eq_true, decide_eq_true_eq] at hb
      omega
    · rw [if_neg hb]
      simp only [Option.isSome_some, true_iff]
      unfold badRate at hb
      simp only [Bool.or_eq_true, decide_eq_true_eq, not_or, not_not] at hb
      refine ⟨h0, ?_, ?_, ?_⟩ <;> omega

/-- Parameters of SHA3-512, and wrong ones. -/
example : (hashInitialize4 X4.plSnp 576 1024 512 0x06).isSome = true ∧ (hashInitialize4 X4.plSnp 576 1024 512 0).isSome = false ∧ (hashInitialize4 X4.plSnp 577 1023 512 0x06).isSome = false ∧
    (hashInitialize4 X4.plSnp 576 1000 512 0x06).isSome = false := by decide

/-- Updates by whole bytes, one after the other, each with four buffers and a common length; `false` if one of them fails. -/
def updateAll4 (S : PlSnP) : HashInst4 S → List ((Fin 4 → Bytes) × Nat) → M (HashInst4 S × Bool)
  | h, [] => .ok (h, true)
  | h, c :: cs => do
    let (h, ok) ← hashUpdateBits4 S h c.1 (8 * c.2)
    if ok then updateAll4 S h cs else .ok (h, false)

/-- Squeezing several times; `none` if one of the calls fails, otherwise all bytes of the four outputs. The lengths are in bytes. -/
def squeezeAll4 (S : PlSnP) : HashInst4 S → List Nat → M (Option (Fin 4 → Bytes))
  | _, [] => .ok (some fun _ => [])
  | h, n :: ns => do
    let (h, out) ← hashSqueezeBits4 S h (8 * n)
    match out with
    | none => .ok none
    | some out => do
      let rest ← squeezeAll4 S h ns
      .ok (rest.map fun r l => out l ++ r l)

/-- A whole use: initialising, updates, the four hash values, further output. -/
def hashRun4 (S : PlSnP) (rate capacity hashbitlen : Nat) (suffix : Byte) (chunks : List ((Fin 4 → Bytes) × Nat)) (lens : List Nat) : M (Option ((Fin 4 → Bytes) × (Fin 4 → Bytes))) :=
  match hashInitialize4 S rate capacity hashbitlen suffix with
  | none => .ok none
  | some h => do
    let (h, ok) ← updateAll4 S h chunks
    if ok then do
      let (h, hash) ← hashFinalFixed4 S h
      let more ← squeezeAll4 S h lens
      .ok (hash.bind fun a => more.map fun b => (a, b))
    else .ok none

theorem updateAll4_eq {f : St → St} {S : PlSnP} {view : S.State → Fin 4 → St} (hS : PlSnp f S view) {rate : Nat} (h0 : 0 < rate) (hr : rate < 200) {d : Byte} (chunks : List ((Fin 4 → Bytes) × Nat))
    (hc : ∀ c ∈ chunks, ∀ l, c.2 ≤ (c.1 l).length) (hl : ∀ c ∈ chunks, c.2 + rate ≤ 2 ^ 32) (msg : Fin 4 → Bytes) (h : HashInst4 S) (hh : ∀ l, (h.sponge.abs view).lane l = ctxR f rate d (msg l)) :
    ∃ h', updateAll4 S h chunks = .ok (h', true) ∧ h'.fixedBits = h.fixedBits ∧ ∀ l, (h'.sponge.abs view).lane l = ctxR f rate d (msg l ++ (chunks.map fun c => (c.1 l).take c.2).flatten) := by
  induction chunks generalizing msg h with
  | nil => exact ⟨h, rfl, rfl, by simpa using hh⟩
  | cons c cs ih =>
    obtain ⟨h1, e1, e2, e3⟩ := updateBits4 hS h0 hr hh c.1 c.2 (hc c (by simp)) (hl c (by simp))
    obtain ⟨h2, g1, g2, g3⟩ := ih (fun x hx => hc x (by simp [hx])) (fun x hx => hl x (by simp [hx])) _ h1 e3
    refine ⟨h2, ?_, by rw [g2, e2], fun l => by rw [g3 l, List.map_cons, List.flatten_cons, List.append_assoc]⟩
    unfold updateAll4
    rw [bindOk e1]
    exact g1

theorem squeezeAll4_eq {f : St → St} {S : PlSnP} {view : S.State → Fin 4 → St} (hS : PlSnp f S view) {rate : Nat} (h0 : 0 < rate) (hr : rate < 200) (T : Fin 4 → St) (lens : List Nat) (hl : ∀ n ∈ lens, n + rate ≤ 2 ^ 32)
    (p : Nat) (h : HashInst4 S) (hc : ∀ l, Ideal.SqInv f (T l) rate p ((h.sponge.abs view).lane l)) :
    squeezeAll4 S h lens = .ok (some fun l => (squeezeStream f rate (T l)).squeeze p lens.sum) := by
  induction lens generalizing p h with
  | nil => rfl
  | cons n ns ih =>
    obtain ⟨s1, e1, e2⟩ := hashSqueeze4_sim hS T h.sponge n h0 hr hc (hl n (by simp))
    have e3 : hashSqueezeBits4 S h (8 * n) = .ok ({ h with sponge := s1 }, some fun l => (squeezeStream f rate (T l)).squeeze p n) := by
      unfold hashSqueezeBits4
      rw [if_neg (by simp), Nat.mul_div_cancel_left _ (by omega), bindOk e1]
    unfold squeezeAll4
    rw [bindOk e3]
    simp only
    rw [bindOk (ih (fun x hx => hl x (by simp [hx])) (p + n) _ e2), Option.map_some]
    simp only [Ideal.squeeze_add, List.sum_cons]

theorem start4_eq {f : St → St} {S : PlSnP} {view : S.State → Fin 4 → St} (hS : PlSnp f S view) {R capacity hashbitlen : Nat} {suffix : Byte} (hR : 0 < R) (hR' : R < 200) (hcap : 8 * R + capacity = 1600) (hd : suffix ≠ 0) :
    ∃ h, hashInitialize4 S (8 * R) capacity hashbitlen suffix = some h ∧ h.fixedBits = hashbitlen ∧ ∀ l, (h.sponge.abs view).lane l = ctxR f R suffix [] := by
  have hbad : badRate (8 * R) capacity = false := by
    unfold badRate
    simp
    omega
  refine ⟨⟨⟨S.init, R, 0, false, suffix⟩, hashbitlen⟩, ?_, rfl, fun l => ?_⟩
  · unfold hashInitialize4
    rw [if_neg hd, hbad, if_neg (by simp), Nat.mul_div_cancel_left _ (by omega)]
  · simp only [Sponge4.abs, Ideal.Sponge4.lane, hS.init]
    rfl

/-- C93: for any rate below 1600 bits, any suffix, four messages in any number of calls (the same number of bytes of each per call), the four hash values and the bytes squeezed afterwards are the outputs of the sponge construction of
FIPS 202 on the bits of each message followed by those of the suffix. -/
theorem C93_hash {f : St → St} {S : PlSnP} {view : S.State → Fin 4 → St} (hS : PlSnp f S view) (R capacity hashbitlen : Nat) (suffix : Byte) (chunks : List ((Fin 4 → Bytes) × Nat)) (lens : List Nat)
    (hR : 0 < R) (hR' : R < 200) (hcap : 8 * R + capacity = 1600) (hd : suffix ≠ 0) (hc : ∀ c ∈ chunks, ∀ l, c.2 ≤ (c.1 l).length)
    (hchunks : ∀ c ∈ chunks, c.2 + R ≤ 2 ^ 32) (hhash : hashbitlen / 8 + R ≤ 2 ^ 32) (hlens : ∀ n ∈ lens, n + R ≤ 2 ^ 32) :
    let out := fun l => sponge f (8 * R) (bitsOf (chunks.map fun c => (c.1 l).take c.2).flatten ++ suffixBits suffix)
    hashRun4 S (8 * R) capacity hashbitlen suffix chunks lens = .ok (some (fun l => (out l).squeeze 0 (hashbitlen / 8), fun l => (out l).squeeze (hashbitlen / 8) lens.sum)) := by
  intro out
  obtain ⟨h, e1, e2, e3⟩ := start4_eq hS (hashbitlen := hashbitlen) hR hR' hcap hd
  obtain ⟨h1, e4, e5, e6⟩ := updateAll4_eq hS hR hR' chunks hc hchunks (fun _ => []) h e3
  simp only [List.nil_append] at e6
  have hf : h1.fixedBits = hashbitlen := by rw [e5, e2]
  obtain ⟨h3, e11, e12⟩ := final4R hS hR hR' hd e6 (by rw [hf]; exact hhash)
  have e13 := squeezeAll4_eq hS hR hR' _ lens hlens _ h3 e12
  simp only [padded_stream hR suffix hd, hf] at e13
  rw [hf] at e11
  unfold hashRun4
  rw [e1]
  simp only
  rw [bindOk e4]
  simp only [if_true]
  rw [bindOk e11, bindOk e13]
  rfl

/-- SHA3-256 of four messages of 300 bytes in two calls, with the AVX2 code and with the portable code. -/
example (l : Fin 4) : ∃ out more, hashRun4 X4.plSnp 1088 512 256 0x06 [(fun l => List.replicate 100 (BitVec.ofNat 8 l.val), 100), (fun _ => List.replicate 250 1, 200)] [] = .ok (some (out, more)) ∧
    hashRun4 Opt64.plSnp 1088 512 256 0x06 [(fun l => List.replicate 100 (BitVec.ofNat 8 l.val), 100), (fun _ => List.replicate 250 1, 200)] [] = .ok (some (out, more)) ∧
    out l = (sponge keccakF 1088 (bitsOf (List.replicate 100 (BitVec.ofNat 8 l.val) ++ List.replicate 200 1) ++ [false, true])).squeeze 0 32 := by
  have hc : ∀ c ∈ ([(fun l => List.replicate 100 (BitVec.ofNat 8 l.val), 100), (fun _ => List.replicate 250 1, 200)] : List ((Fin 4 → Bytes) × Nat)), ∀ l, c.2 ≤ (c.1 l).length := fun c hc l => by
    simp only [List.mem_cons, List.not_mem_nil, or_false] at hc
    rcases hc with rfl | rfl <;> simp only [List.length_replicate] <;> omega
  have hn : ∀ c ∈ ([(fun l => List.replicate 100 (BitVec.ofNat 8 l.val), 100), (fun _ => List.replicate 250 1, 200)] : List ((Fin 4 → Bytes) × Nat)), c.2 + 136 ≤ 2 ^ 32 := fun c hc => by
    simp only [List.mem_cons, List.not_mem_nil, or_false] at hc
    rcases hc with rfl | rfl <;> simp only <;> omega
  refine ⟨_, _, C93_hash X4.plSnp_ok 136 512 256 0x06 _ [] (by omega) (by omega) (by omega) (by decide) hc hn (by omega) (by simp),
    C93_hash Opt64.plSnp_ok 136 512 256 0x06 _ [] (by omega) (by omega) (by omega) (by decide) hc hn (by omega) (by simp), ?_⟩
  simp only [List.map_cons, List.map_nil, List.flatten_cons, List.flatten_nil, List.append_nil, List.take_replicate]
  rfl

/-- The published value of SHA3-256 for the empty message, four times, computed by the model of the portable code. -/
example : (match hashRun4 Opt64.plSnp 1088 512 256 0x06 [] [] with
    | .ok (some (out, _)) => (List.finRange 4).all fun l => out l == [0xa7, 0xff, 0xc6, 0xf8, 0xbf, 0x1e, 0xd7, 0x66, 0x51, 0xc1, 0x47, 0x56, 0xa0, 0x61, 0xd6, 0x62, 0xf5, 0x80, 0xff, 0x4d, 0xe4, 0x3b, 0x49, 0xfa, 0x82, 0xd8, 0x0a,
    0x4b, 0x80, 0xf8, 0x43, 0x4a]
    | _ => false) = true := by decide +kernel

/-- C93: output without `Keccak_HashFinaltimes4` is that of the sponge on the messages alone. -/
theorem C93_noFinal {f : St → St} {S : PlSnP} {view : S.State → Fin 4 → St} (hS : PlSnp f S view) (R capacity hashbitlen : Nat) (suffix : Byte) (msg : Fin 4 → Bytes) (len n : Nat)
    (hR : 0 < R) (hR' : R < 200) (hcap : 8 * R + capacity = 1600) (hd : suffix ≠ 0) (hmsg : ∀ l, (msg l).length = len) (hlen : len + R ≤ 2 ^ 32) (hn : n + R ≤ 2 ^ 32) :
    ∃ h0 h1 h2, hashInitialize4 S (8 * R) capacity hashbitlen suffix = some h0 ∧ hashUpdateBits4 S h0 msg (8 * len) = .ok (h1, true) ∧
      hashSqueezeBits4 S h1 (8 * n) = .ok (h2, some fun l => (sponge f (8 * R) (bitsOf (msg l))).squeeze 0 n) := by
  obtain ⟨h, e1, e2, e3⟩ := start4_eq hS (hashbitlen := hashbitlen) hR hR' hcap hd
  obtain ⟨h1, g1, g2, g3⟩ := updateBits4 hS hR hR' e3 msg len (fun l => (hmsg l).ge) hlen
  have ht : ∀ l, (msg l).take len = msg l := fun l => List.take_of_length_le (hmsg l).le
  simp only [List.nil_append, ht] at g3
  obtain ⟨s2, l1, -, l2⟩ := last4R hS hR hR' g3 0x01 (by decide)
  have hq : h1.sponge.squeezing = false := congrArg Ideal.Sponge.squeezing (g3 0)
  have hq2 : s2.squeezing = true := (l2 0).2.1
  obtain ⟨s3, k1, -⟩ := hashSqueeze4_sim hS _ s2 n hR hR' l2 hn
  have k2 : hashSqueeze4 S h1.sponge n = .ok (s3, fun l => (squeezeStream f R (padded f R 0x01 (msg l))).squeeze 0 n) := by
    rw [← k1]
    unfold hashSqueeze4
    rw [hq, if_neg (by simp), bindOk l1, hq2, if_pos rfl]
    rfl
  refine ⟨h, h1, { h1 with sponge := s3 }, e1, g1, ?_⟩
  unfold hashSqueezeBits4
  rw [if_neg (by simp), Nat.mul_div_cancel_left _ (by omega), bindOk k2]
  simp only [padded_stream hR 0x01 (by decide), show suffixBits 0x01 = [] by decide, List.append_nil]

example : (0x06 : Byte) ≠ 0 ∧ 8 * 72 + 1024 = 1600 ∧ ∀ l : Fin 4, (List.replicate 5 (BitVec.ofNat 8 l.val)).length = 5 := by decide

/-- C93: lengths that are not whole bytes fail and change nothing, both for input (where the function for one message would accept them, C88) and for output; once output has begun, further input and a second
`Keccak_HashFinaltimes4` fail and change nothing. Buffers shorter than announced are undefined behaviour. -/
theorem C93_late (S : PlSnP) (h : HashInst4 S) (data : Fin 4 → Bytes) (n : Nat) : (h.sponge.squeezing = true → hashUpdateBits4 S h data n = .ok (h, false) ∧ hashFinalFixed4 S h = .ok (h, none)) ∧
    (n % 8 ≠ 0 → hashUpdateBits4 S h data n = .ok (h, false) ∧ hashSqueezeBits4 S h n = .ok (h, none)) ∧
    (n % 8 = 0 → h.sponge.squeezing = false → (∃ l, (data l).length < n / 8) → hashUpdateBits4 S h data n = .error .ub) := by
  refine ⟨fun hq => ⟨?_, ?_⟩, fun hn => ⟨?_, ?_⟩, fun hn hq hl => ?_⟩
  · unfold hashUpdateBits4
    by_cases hn : n % 8 ≠ 0
    · rw [if_pos hn]
    · rw [if_neg hn, if_pos hq]
  · unfold hashFinalFixed4
    rw [if_pos (.inr hq)]
  · unfold hashUpdateBits4
    rw [if_pos hn]
  · unfold hashSqueezeBits4
    rw [if_pos hn]
  · unfold hashUpdateBits4
    rw [if_neg (by simp [hn]), hq, if_neg (by simp), if_pos hl]

/-- All three situations occur. -/
example : (match hashSqueezeBits4 Opt64.plSnp ⟨⟨Opt64.plSnp.init, 136, 0, false, 6⟩, 256⟩ 0 with
    | .ok (h, some _) => h.sponge.squeezing && (8 + 3) % 8 != 0
    | _ => false) = true ∧ ∃ l : Fin 4, (if l = 3 then [] else [1, 2] : Bytes).length < 16 / 8 := by decide +kernel

/-- C93: the question in KeccakSpongetimes4.c:23-24, whether `KeccakF1600times4_FastLoop_Absorb` can be used for absorbing, must be answered no: the call prepared in KeccakSpongetimes4.inc:78, with both offsets zero, never returns once
there is a whole block (whatever number of iterations it is granted, it has not ended). -/
theorem C93_fastLoop_hangs (rounds : X4.Regs → X4.Regs) (s : X4.Regs) (laneCount : Nat) (data : List W64) (hn : laneCount ≤ 25) (hd : laneCount ≤ data.length) (hl : 8 * data.length < 2 ^ 64) (fuel : Nat) :
    X4.fastLoopAbsorb rounds fuel s laneCount 0 0 data = .error .fuel := by
  unfold X4.fastLoopAbsorb
  obtain ⟨a, b⟩ := X4.fastLoop_stuck rounds data laneCount hn hd hl fuel s
  by_cases h : laneCount = 21
  · rw [if_pos h, a h]
    rfl
  · rw [if_neg h, b]
    rfl

/-- One block of SHAKE256. -/
example (fuel : Nat) : X4.fastLoopAbsorb X4.rounds24 fuel X4.init 17 0 0 (List.replicate 17 5) = .error .fuel :=
  C93_fastLoop_hangs _ _ 17 _ (by decide) (by simp) (by simp) fuel

end Banquet.Props
