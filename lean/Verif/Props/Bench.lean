import Verif.Proofs.Bench
import Verif.Props.Api
import Verif.Props.Sign

/-! C74: command lines of the benchmark tools. C75: the benchmark. C76: the benchmark with free parameters. -/

namespace Banquet.Props
open Spec Spec.Line Bench

/-! ## C74 -/

/-- C74 in full: what is accepted as a number is a decimal numeral for it. -/
def C74_statement : Prop := ∀ s n, parseU32 s = some n → Numeral s n

theorem numeral_begins {s : Bytes} {n : Nat} (h : Numeral s n) : Begins s false n := by
  obtain ⟨ds, hd, rfl, rfl⟩ := h
  exact ⟨[], [], [], ds, by simp, by simp, by simp, rfl, .inr (.inr ⟨rfl, rfl, fun h => absurd h hd⟩)⟩

/-- C74 for numerals: they are read as what they stand for, and those of 2^32 and more are refused. -/
theorem C74_partial (s : Bytes) (n : Nat) (h : Numeral s n) : parseU32 s = if n < 2 ^ 32 then some n else none := by
  by_cases hn : n < 2 ^ 32
  · rw [if_pos hn, parseU32_iff]
    exact ⟨hn, .inl (numeral_begins h)⟩
  · rw [if_neg hn]
    cases hp : parseU32 s with
    | none => rfl
    | some v =>
      obtain ⟨hv, hb⟩ := (parseU32_iff s v).1 hp
      have e := (begins_iff s false n).1 (numeral_begins h)
      rcases hb with hb | ⟨hb, -⟩
      · have e' := (begins_iff s false v).1 hb
        omega
      · have e' := (begins_iff s true 0).1 hb
        rw [e.1] at e'
        cases e'.1

/-- `4294967295` and `0012`. -/
example : Numeral [52, 50, 57, 52, 57, 54, 55, 50, 57, 53] 4294967295 ∧ Numeral [48, 48, 49, 50] 12 :=
  ⟨⟨[4, 2, 9, 4, 9, 6, 7, 2, 9, 5], by simp, by decide, by decide⟩, ⟨[0, 0, 1, 2], by simp, by decide, by decide⟩⟩

/-- C74 fails: `x` is read as 0. -/
theorem C74_violated : ¬C74_statement := by
  intro h
  obtain ⟨ds, hd, h1, h2⟩ := h [120] 0 (by decide)
  cases ds with
  | nil => exact hd rfl
  | cons d ds =>
    have hx : ∀ d, (120 : Byte) ≠ digit d := by decide
    exact hx d (List.cons.inj h1).1

/-- C74: exactly what is accepted as a number, and as what. -/
theorem C74_number (s : Bytes) (n : Nat) : parseU32 s = some n ↔ ReadAs s n := parseU32_iff s n

/-- ` +12x`, `-0`, and the empty string. -/
example : parseU32 [32, 43, 49, 50, 120] = some 12 ∧ parseU32 [45, 48] = some 0 ∧ parseU32 [] = some 0 ∧ parseU32 [45, 49] = none := by decide

/-- C74: exactly which command lines bench accepts, and what it takes from them: one word that begins with a parameter set from 1 to 23, and the number of the last option `-i` or `--iter`, or 10. -/
theorem C74_args (l : List Bytes) (p n : Nat) :
    parseArgs l = some (p, n) ↔ ∃ its ns s, Parsed l its [s] ∧ List.Forall₂ ReadAs its ns ∧ n = ns.getLastD 10 ∧ ReadAs s p ∧ 1 ≤ p ∧ p ≤ 23 := parseArgs_iff l p n

/-- `-i 3 7 --it=5`, `7`, and what is refused: `-x 7`, `7 -i`, `24`. -/
example : parseArgs [[45, 105], [51], [55], [45, 45, 105, 116, 61, 53]] = some (7, 5) ∧ parseArgs [[55]] = some (7, 10) ∧ parseArgs [[45, 120], [55]] = none ∧ parseArgs [[55], [45, 105]] = none ∧
    parseArgs [[50, 52]] = none := by decide

/-- C74: of no command line does bench accept a parameter set that does not exist. -/
theorem C74_instance (l : List Bytes) (p n : Nat) (h : parseArgs l = some (p, n)) : ∃ I, instanceGet p = .ok I ∧ Consistent I := by
  obtain ⟨_, _, _, _, _, _, _, h1, h2⟩ := (C74_args l p n).1 h
  exact C36_consistent p (by omega) (by omega)

/-! ## C75 -/

theorem iteration_good (X : Xof) (fuel : Nat) (I : Instance) (hI : Consistent I) (draws : Nat → Bytes × Bytes) (hd : ∀ i, (draws i).1.length = I.aes.keySize ∧ (draws i).2.length = I.ctSize) (G : FieldState)
    (hG : G.lut.length = 256) : (∃ G', iteration X fuel I draws G = .ok (sigLength I, true, G') ∧ G'.lut.length = 256) ∨ iteration X fuel I draws G = .error .fuel := by
  obtain ⟨F, hF⟩ := init_supported hI.lambda
  have g1 : initGlobals G I.lambda = (.ok (), F) := by rw [initGlobals_eq G hG, hF]
  have hFl : F.lut.length = 256 := by
    have := initGlobals_lut G hG I.lambda
    rw [g1] at this
    exact this
  have g2 : initGlobals F I.lambda = (.ok (), F) := by rw [initGlobals_eq F hFl, hF]
  unfold iteration
  simp only [g1, g2]
  cases hk : keygen I draws fuel 0 with
  | error e =>
    right
    have : ∀ n i, keygen I draws n i = .error e → e = .fuel := by
      intro n
      induction n with
      | zero => intro i h; cases h; rfl
      | succ n ih =>
        intro i h
        obtain ⟨hv, e4, hb⟩ := consistent_variant hI
        have hs : I.aes.keySize = 16 ∨ I.aes.keySize = 24 ∨ I.aes.keySize = 32 := by rw [← e4]; exact hv.spec.1
        rw [keygen, if_pos hs] at h
        split at h
        · cases h
        · exact ih _ h
    rw [this _ _ hk]
    rfl
  | ok k =>
    obtain ⟨sk, pk⟩ := k
    have hp := keygen_pair I hI draws hd fuel sk pk hk
    have sgn : signWith X fuel F I sk pk message = sign X fuel I sk pk message := by rw [sign, hF]; rfl
    have ver : ∀ s, verifyWith X (List.replicate I.seedSize 0) fuel F I pk s message = verify X fuel I pk s message := fun s => by rw [verify, hF]; rfl
    simp only [ok_bind, sgn, ver]
    obtain ⟨c1, c2, pt, c3, c4, c5, -⟩ := C23_keygen I hI draws hd fuel sk pk hk
    rcases C41_total X fuel I hI sk pk message c1 (by rw [c2, Instance.ctSize]; exact le_of_eq (by ring)) (by
        have : slice pk 0 I.ctSize = pt := by
          rw [slice, c3, List.drop_zero, Instance.ctSize, ← c4, List.take_left]
        rw [this]; exact c5) with ⟨sig, hs⟩ | hs
    · left
      obtain ⟨bs, e1, e2, s', e3, rfl, e4⟩ := C16_encoded X fuel I hI sk pk message hp sig hs F hF
      refine ⟨F, ?_, hFl⟩
      simp only [hs, ok_bind, e1, e3, e4, e2]
    · right
      rw [hs]
      rfl

theorem iterations_good (X : Xof) (fuel : Nat) (I : Instance) (hI : Consistent I) (draws : Nat → Nat → Bytes × Bytes) (hd : ∀ i j, (draws i j).1.length = I.aes.keySize ∧ (draws i j).2.length = I.ctSize) (n : Nat) :
    ∀ (i : Nat) (G : FieldState), G.lut.length = 256 → iterations X fuel I draws n i G = .ok (List.replicate n (sigLength I, true)) ∨ iterations X fuel I draws n i G = .error .fuel := by
  induction n with
  | zero => intro i G hG; exact .inl rfl
  | succ n ih =>
    intro i G hG
    rw [iterations]
    rcases iteration_good X fuel I hI (draws i) (hd i) G hG with ⟨G', h1, h2⟩ | h1
    · rw [h1, ok_bind]
      rcases ih (i + 1) G' h2 with h | h
      · left; simp only [h, ok_bind, List.replicate_succ]
      · right; simp only [h]; rfl
    · right; rw [h1]; rfl

/-- C75: whatever the command line, the hash and the random bytes, bench ends without undefined behaviour and without exception, or a rejection loop goes on: it prints a usage message, or every iteration reports the length of an encoded signature
and no failure to verify. -/
theorem C75_bench (X : Xof) (fuel : Nat) (draws : Nat → Nat → Bytes × Bytes) (l : List Bytes)
    (hd : ∀ p n I, parseArgs l = some (p, n) → instanceGet p = .ok I → ∀ i j, (draws i j).1.length = I.aes.keySize ∧ (draws i j).2.length = I.ctSize) :
    (parseArgs l = none ∧ bench X fuel draws l = .ok none) ∨
    (∃ p n I, parseArgs l = some (p, n) ∧ instanceGet p = .ok I ∧ (bench X fuel draws l = .ok (some (List.replicate n (sigLength I, true))) ∨ bench X fuel draws l = .error .fuel)) := by
  unfold bench
  cases hp : parseArgs l with
  | none => exact .inl ⟨rfl, rfl⟩
  | some o =>
    obtain ⟨p, n⟩ := o
    right
    obtain ⟨I, h1, h2⟩ := C74_instance l p n hp
    refine ⟨p, n, I, rfl, h1, ?_⟩
    simp only [h1, ok_bind]
    rcases iterations_good X fuel I h2 draws (hd p n I hp h1) n 0 FieldState.initial List.length_replicate with h | h
    · left; rw [h, ok_bind]
    · right; rw [h]; rfl

/-- A command line of bench (`-i2 1`) and random bytes of the lengths of its parameter set. -/
example : ∃ draws : Nat → Nat → Bytes × Bytes, ∀ p n I, parseArgs [[45, 105, 50], [49]] = some (p, n) → instanceGet p = .ok I → n = 2 ∧ ∀ i j, (draws i j).1.length = I.aes.keySize ∧ (draws i j).2.length = I.ctSize := by
  refine ⟨fun i j => (List.replicate 16 (BitVec.ofNat 8 i), List.replicate 16 (BitVec.ofNat 8 j)), fun p n I h1 h2 => ?_⟩
  have : parseArgs [[45, 105, 50], [49]] = some (1, 2) := by decide
  rw [this] at h1
  cases h1
  cases h2
  exact ⟨rfl, fun i j => ⟨List.length_replicate, List.length_replicate⟩⟩

/-! ## C76 -/

theorem parseArgsFree_six (l : List Bytes) (n : Nat) (words : List Bytes) (hl : 6 ≤ l.length) (h : readOptions 10 (getopt false l).1 = some n ∧ (getopt false l).2 = words) : parseArgsFree l = sixNumbers n words := by
  unfold parseArgsFree
  rw [if_neg (by omega)]
  simp only [h.1, h.2]
  rfl

/-- C76 in full: bench_free never has undefined behaviour, whatever the command line. -/
def C76_statement : Prop :=
  ∀ (X : Xof) (fuel : Nat) (draws : Nat → Nat → Bytes × Bytes) (l : List Bytes), (∀ i j, (draws i j).1.length = 16 ∧ (draws i j).2.length = 16) → benchFree X fuel draws l ≠ .error .ub

/-- C76: exactly when parsing reads the null pointer at the end of `argv`: there are at least six arguments, but because some belong to `-i`, fewer than six words, and all of them can be read as numbers. -/
theorem C76_missing (l : List Bytes) : parseArgsFree l = .error .ub ↔ 6 ≤ l.length ∧ ∃ its ns words, Parsed l its words ∧ List.Forall₂ ReadAs its ns ∧ words.length < 6 ∧ ∀ s ∈ words, ∃ v, ReadAs s v := by
  constructor
  · intro h
    have hl : 6 ≤ l.length := by
      by_contra hl
      unfold parseArgsFree at h
      rw [if_pos (by omega)] at h
      cases h
    cases ho : readOptions 10 (getopt false l).1 with
    | none =>
      unfold parseArgsFree at h
      rw [if_neg (by omega)] at h
      simp only [ho] at h
      cases h
    | some n =>
      rw [parseArgsFree_six l n _ hl ⟨ho, rfl⟩] at h
      obtain ⟨h1, h2⟩ := (sixNumbers_ub _ _).1 h
      obtain ⟨its, ns, g1, g2, -⟩ := (options_iff l n _).1 ⟨ho, rfl⟩
      exact ⟨hl, its, ns, _, g1, g2, h1, h2⟩
  · rintro ⟨hl, its, ns, words, g1, g2, h1, h2⟩
    rw [parseArgsFree_six l _ words hl ((options_iff l _ words).2 ⟨its, ns, g1, g2, rfl⟩)]
    exact (sixNumbers_ub _ _).2 ⟨h1, h2⟩

/-- C76: exactly which options are taken from a command line. More than six words are accepted; the others are ignored. -/
theorem C76_args (l : List Bytes) (o : FreeOptions) : parseArgsFree l = .ok (some o) ↔
    ∃ its ns a b c d e f rest, Parsed l its (a :: b :: c :: d :: e :: f :: rest) ∧ List.Forall₂ ReadAs its ns ∧ o.iter = ns.getLastD 10 ∧
      ReadAs a o.kappa ∧ ReadAs b o.n ∧ ReadAs c o.tau ∧ ReadAs d o.m1 ∧ ReadAs e o.m2 ∧ ReadAs f o.lambda := by
  constructor
  · intro h
    have hl : 6 ≤ l.length := by
      by_contra hl
      unfold parseArgsFree at h
      rw [if_pos (by omega)] at h
      cases h
    cases ho : readOptions 10 (getopt false l).1 with
    | none =>
      unfold parseArgsFree at h
      rw [if_neg (by omega)] at h
      simp only [ho] at h
      cases h
    | some n =>
      rw [parseArgsFree_six l n _ hl ⟨ho, rfl⟩] at h
      obtain ⟨h1, a, b, c, d, e, f, rest, h2, h3⟩ := (sixNumbers_ok _ _ _).1 h
      obtain ⟨its, ns, g1, g2, g3⟩ := (options_iff l n _).1 ⟨ho, h2⟩
      exact ⟨its, ns, a, b, c, d, e, f, rest, g1, g2, h1.trans g3, h3⟩
  · rintro ⟨its, ns, a, b, c, d, e, f, rest, g1, g2, g3, h⟩
    have len : ∀ {l its words : List Bytes}, Parsed l its words → words.length ≤ l.length := by
      intro l its words h
      induction h with
      | done => simp
      | stop rest => simp
      | word a rest its words h _ ih => simp; omega
      | short v rest its words _ ih => simp; omega
      | joined v rest its words _ _ ih => simp; omega
      | long name v rest its words _ _ ih => simp; omega
      | equals name v rest its words _ _ ih => simp; omega
    have hl := len g1
    simp only [List.length_cons] at hl
    rw [parseArgsFree_six l _ _ (by omega) ((options_iff l _ _).2 ⟨its, ns, g1, g2, g3⟩)]
    exact (sixNumbers_ok _ _ _).2 ⟨rfl, a, b, c, d, e, f, rest, rfl, h⟩

/-- `-i 3 16 16 31 10` -/
def shortLine : List Bytes := [[45, 105], [51], [49, 54], [49, 54], [51, 49], [49, 48]]

/-- C76 fails: with six arguments of which two belong to `-i`, a null pointer is read. -/
theorem C76_violated : ¬C76_statement := fun h =>
  h onesXof 1 (fun _ _ => (List.replicate 16 0, List.replicate 16 0)) shortLine (fun _ _ => ⟨List.length_replicate, List.length_replicate⟩) rfl

/-- C76 fails: with a first number other than 16, 24 and 32, the parameters of the AES are read though nothing was stored there. -/
theorem C76_kappa_violated (o : FreeOptions) (h : o.kappa ≠ 16 ∧ o.kappa ≠ 24 ∧ o.kappa ≠ 32) : freeInstance o = .error .ub := by
  unfold freeInstance
  split
  · rename_i e; exact absurd e h.1
  · rename_i e; exact absurd e h.2.1
  · rename_i e; exact absurd e h.2.2
  · rfl

/-- C76 fails: the product of `m1` and `m2` is computed modulo 2^32, so that the check does not exclude other products than the number of S-boxes (`m1 = 8`, `m2 = 536870937`). -/
theorem C76_product_violated : ∃ o I, o.m1 < 2 ^ 32 ∧ o.m2 < 2 ^ 32 ∧ freeInstance o = .ok (some I) ∧ I.m1 * I.m2 ≠ I.aes.numSboxes :=
  ⟨⟨1, 16, 8, 536870937, 31, 16, 4⟩, _, by decide, by decide, rfl, by decide⟩

/-- C76 with parameters that fit together: the tool behaves as C75 says. -/
theorem C76_partial (X : Xof) (fuel : Nat) (draws : Nat → Nat → Bytes × Bytes) (l : List Bytes) (o : FreeOptions) (ho : parseArgsFree l = .ok (some o)) (I : Instance) (hi : freeInstance o = .ok (some I)) (hI : Consistent I)
    (hd : ∀ i j, (draws i j).1.length = I.aes.keySize ∧ (draws i j).2.length = I.ctSize) :
    benchFree X fuel draws l = .ok (some (List.replicate o.iter (sigLength I, true))) ∨ benchFree X fuel draws l = .error .fuel := by
  unfold benchFree
  simp only [ho, hi, ok_bind]
  rcases iterations_good X fuel I hI draws hd o.iter 0 FieldState.initial List.length_replicate with h | h
  · left; rw [h, ok_bind]
  · right; rw [h]; rfl

/-- C76: parameters that fit together: `kappa` is 16, 24 or 32, the product of `m1` and `m2` is the number of S-boxes, `N` is a power of two from 2 to 2^15, `tau` is from 1 to 65535, the field is supported. -/
theorem C76_consistent (o : FreeOptions) (h1 : (o.kappa = 16 ∧ o.m1 * o.m2 = 200) ∨ (o.kappa = 24 ∧ o.m1 * o.m2 = 416) ∨ (o.kappa = 32 ∧ o.m1 * o.m2 = 500)) (h2 : ∃ k, 1 ≤ k ∧ k ≤ 15 ∧ o.n = 2 ^ k)
    (h3 : 1 ≤ o.tau ∧ o.tau < 2 ^ 16) (h4 : Supported o.lambda) : ∃ I, freeInstance o = .ok (some I) ∧ Consistent I := by
  have hm : o.m2 ≤ o.m1 * o.m2 := by
    refine Nat.le_mul_of_pos_left _ (Nat.pos_of_ne_zero fun h => ?_)
    rw [h, Nat.zero_mul] at h1
    omega
  rcases h1 with ⟨e, h⟩ | ⟨e, h⟩ | ⟨e, h⟩
  · refine ⟨⟨aes128Params, 32, 16, o.tau, o.n, o.m1, o.m2, o.lambda, 0⟩, ?_, ⟨.inl rfl, rfl, rfl, h, h2, h3, h4, ?_⟩⟩
    · simp only [freeInstance, e, h]; rfl
    · change 2 * o.m2 + 1 ≤ _; omega
  · refine ⟨⟨aes192Params, 48, 24, o.tau, o.n, o.m1, o.m2, o.lambda, 0⟩, ?_, ⟨.inr (.inl rfl), rfl, rfl, h, h2, h3, h4, ?_⟩⟩
    · simp only [freeInstance, e, h]; rfl
    · change 2 * o.m2 + 1 ≤ _; omega
  · refine ⟨⟨aes256Params, 64, 32, o.tau, o.n, o.m1, o.m2, o.lambda, 0⟩, ?_, ⟨.inr (.inr rfl), rfl, rfl, h, h2, h3, h4, ?_⟩⟩
    · simp only [freeInstance, e, h]; rfl
    · change 2 * o.m2 + 1 ≤ _; omega

/-- `24 32 7 32 13 5`. -/
example : parseArgsFree [[50, 52], [51, 50], [55], [51, 50], [49, 51], [53]] = .ok (some ⟨10, 24, 32, 13, 7, 32, 5⟩) ∧ ∃ I, freeInstance ⟨10, 24, 32, 13, 7, 32, 5⟩ = .ok (some I) ∧ Consistent I :=
  ⟨by decide, C76_consistent _ (.inr (.inl ⟨rfl, rfl⟩)) ⟨5, by decide, by decide, rfl⟩ (by decide) (by unfold Supported; decide)⟩

end Banquet.Props
