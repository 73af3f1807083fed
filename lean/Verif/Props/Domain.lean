import Verif.Proofs.Domain
import Verif.Proofs.View
import Verif.Props.Basic

/-! C48, exactly: which uses of the hash function can share an input. -/

namespace Banquet.Props

open Spec FieldOk

/-- The pairs of purposes that can share an input (numbers as in `HashCall.purpose`): commitments and tapes; the three expansions; for AES-128 salt and seeds with commitments and tapes, and with tree nodes if the
number of the parameter set is 1 mod 256; salt and seeds with `h_1`, `h_2`, `h_3` if the number is 1, 2, 3 mod 256. -/
def SharedPurposes (I : Instance) (p q : Nat) : Prop :=
  (p, q) ∈ [(2, 3), (5, 7), (5, 9), (7, 9)] ∨ (I.aes.keySize = 16 ∧ (p, q) ∈ [(0, 2), (0, 3)]) ∨ (I.aes.keySize = 16 ∧ I.params % 256 = 1 ∧ (p, q) = (0, 1)) ∨ (I.params % 256 = 1 ∧ (p, q) = (0, 4)) ∨
  (I.params % 256 = 2 ∧ (p, q) = (0, 6) ∧ 2 + I.aes.keySize + 2 * I.ctSize ≤ 33 + I.digestSize + I.numRounds * (I.m2 * I.lambda)) ∨ (I.params % 256 = 3 ∧ (p, q) = (0, 8))

/-- C48, exactly: two different purposes can share an input if and only if they are in the table. -/
theorem C48_exact (I : Instance) (F : FieldState) (hI : Consistent I) (hF : initExtensionField I.lambda = .ok F) (p q : Nat) (hpq : p < q) :
    (∃ a b : HashCall, a.Sized F I ∧ b.Sized F I ∧ a.purpose = p ∧ b.purpose = q ∧ a.input F I = b.input F I) ↔ SharedPurposes I p q := by
  obtain ⟨_, hb, _⟩ := initExtensionField_ok hF
  have haes := hI.aes
  have hseed := hI.seed
  have hdig := hI.digest
  have hT : 1 ≤ I.numRounds := hI.rounds.1
  have hN := (parties_bounds hI).1
  have hlam : 2 ≤ I.lambda := by rcases hI.lambda with h | h | h | h <;> omega
  replace haes : (I.aes.keySize = 16 ∧ I.ctSize = 16 ∧ I.aes.numSboxes = 200) ∨ (I.aes.keySize = 24 ∧ I.ctSize = 32 ∧ I.aes.numSboxes = 416) ∨ (I.aes.keySize = 32 ∧ I.ctSize = 32 ∧ I.aes.numSboxes = 500) := by
    unfold Instance.ctSize
    simp only [Prod.mk.injEq] at haes
    rcases haes with ⟨h1, h2, h3, h4⟩ | ⟨h1, h2, h3, h4⟩ | ⟨h1, h2, h3, h4⟩ <;> rw [h1, h2, h3, h4] <;> simp
  have big1 : I.aes.numSboxes ≤ I.numRounds * (I.numParties * (I.digestSize + I.ctSize) + I.aes.keySize + I.aes.numSboxes) := by
    calc I.aes.numSboxes ≤ 1 * (I.numParties * (I.digestSize + I.ctSize) + I.aes.keySize + I.aes.numSboxes) := by omega
      _ ≤ _ := Nat.mul_le_mul_right _ hT
  have big3 : 9 ≤ I.numRounds * (I.lambda + I.numParties * I.lambda + I.m1 * (I.lambda + I.lambda + I.numParties * (I.lambda + I.lambda))) := by
    have m1 : 1 ≤ I.m1 := by
      rcases Nat.eq_zero_or_pos I.m1 with h | h
      · have := hI.sboxes
        rw [h] at this
        omega
      · exact h
    have e1 : 2 * 2 ≤ I.numParties * I.lambda := Nat.mul_le_mul hN hlam
    have e2 : 1 * (2 + 2) ≤ I.m1 * (I.lambda + I.lambda + I.numParties * (I.lambda + I.lambda)) := Nat.mul_le_mul m1 (by omega)
    calc 9 ≤ 1 * (I.lambda + I.numParties * I.lambda + I.m1 * (I.lambda + I.lambda + I.numParties * (I.lambda + I.lambda))) := by omega
      _ ≤ _ := Nat.mul_le_mul_right _ hT
  have number : ∀ n : Nat, BitVec.ofNat 8 I.params = BitVec.ofNat 8 n → I.params % 256 = n % 256 := fun n h => by simpa using congrArg BitVec.toNat h
  constructor
  · rintro ⟨a, b, ha, hb', rfl, rfl, e⟩
    have el := congrArg List.length e
    rw [a.length_input hb ha, b.length_input hb hb'] at el
    have hd : ∀ x y : Byte, (a.input F I).head? = some x → (b.input F I).head? = some y → x = y := fun x y h1 h2 => by rw [e, h2] at h1; exact (Option.some.inj h1).symm
    unfold SharedPurposes
    cases a <;> cases b <;> first
      | (exfalso; simp only [HashCall.purpose] at hpq; omega)
      | (refine Or.inl ?_; simp only [HashCall.purpose]; decide)
      | (exfalso; simp only [HashCall.len] at el; omega)
      | exact absurd (hd 1 2 rfl rfl) (by decide)
      | exact absurd (hd 1 3 rfl rfl) (by decide)
      | exact absurd (hd 2 3 rfl rfl) (by decide)
      | (refine Or.inr (Or.inl ⟨?_, ?_⟩) <;> [(simp only [HashCall.len] at el; omega); (simp only [HashCall.purpose]; decide)])
      | exact Or.inr (Or.inr (Or.inl ⟨by simp only [HashCall.len] at el; omega, number 1 (hd _ _ (by rw [ha.1]; rfl) rfl), rfl⟩))
      | exact Or.inr (Or.inr (Or.inr (Or.inl ⟨number 1 (hd _ _ (by rw [ha.1]; rfl) rfl), rfl⟩)))
      | exact Or.inr (Or.inr (Or.inr (Or.inr (Or.inl ⟨number 2 (hd _ _ (by rw [ha.1]; rfl) rfl), rfl, by simp only [HashCall.len] at el; omega⟩))))
      | exact Or.inr (Or.inr (Or.inr (Or.inr (Or.inr ⟨number 3 (hd _ _ (by rw [ha.1]; rfl) rfl), rfl⟩))))
  · have z : ∀ n : Nat, (List.replicate n (0 : Byte)).length = n := fun n => List.length_replicate
    have zs := z I.seedSize
    have zd := z I.digestSize
    have le : ∀ n : Nat, I.params % 256 = n → le16 I.params = [BitVec.ofNat 8 n, BitVec.ofNat 8 (I.params / 256)] := fun n h => by
      unfold le16
      rw [← h]
      congr 1
      exact BitVec.eq_of_toNat_eq (by simp)
    -- from an input with the right first bytes
    have mk : ∀ (q : Nat) (b : HashCall), b.Sized F I → b.purpose = q → (b.input F I).take 2 = le16 I.params → 2 + I.aes.keySize + 2 * I.ctSize ≤ b.len I →
        ∃ a b : HashCall, a.Sized F I ∧ b.Sized F I ∧ a.purpose = 0 ∧ b.purpose = q ∧ a.input F I = b.input F I := fun q b h1 h2 h3 h4 => by
      obtain ⟨sk, pk, msg, k1, k2⟩ := saltSeeds_of F _ h3 (by rw [b.length_input hb h1]; exact h4)
      exact ⟨_, b, k1, h1, rfl, h2, k2⟩
    obtain ⟨⟨reps1, r1, r1'⟩, ⟨ds, hds⟩, reps3, r3, r3'⟩ := zero_reps F I hb
    have hN' : 0 < I.numParties := by omega
    have hpk := z (2 * I.ctSize)
    rintro (h | ⟨hk, h⟩ | ⟨hk, hp, h⟩ | ⟨hp, h⟩ | ⟨hp, h, hl⟩ | ⟨hp, h⟩)
    · simp only [List.mem_cons, Prod.mk.injEq, List.not_mem_nil, or_false] at h
      rcases h with ⟨rfl, rfl⟩ | ⟨rfl, rfl⟩ | ⟨rfl, rfl⟩ | ⟨rfl, rfl⟩
      · refine ⟨.commit (List.replicate 32 0) 0 0 (List.replicate I.seedSize 0), .tape (List.replicate I.seedSize 0) (List.replicate 32 0) 0 0, ⟨zs, rfl, hT, hN'⟩, ⟨zs, rfl, hT, hN'⟩, rfl, rfl, ?_⟩
        simp only [HashCall.input, show le16 0 = List.replicate 2 (0 : Byte) from rfl, List.replicate_append_replicate]
        congr 1
        omega
      · exact ⟨.expand1 (List.replicate I.digestSize 0), .expand2 (List.replicate I.digestSize 0), zd, zd, rfl, rfl, rfl⟩
      · exact ⟨.expand1 (List.replicate I.digestSize 0), .expand3 (List.replicate I.digestSize 0), zd, zd, rfl, rfl, rfl⟩
      · exact ⟨.expand2 (List.replicate I.digestSize 0), .expand3 (List.replicate I.digestSize 0), zd, zd, rfl, rfl, rfl⟩
    · simp only [List.mem_cons, Prod.mk.injEq, List.not_mem_nil, or_false] at h
      rcases h with ⟨rfl, rfl⟩ | ⟨rfl, rfl⟩
      · exact mk _ (.commit (le16 I.params ++ List.replicate 30 0) 0 0 (List.replicate I.seedSize 0)) ⟨zs, rfl, hT, hN'⟩ rfl rfl (by simp only [HashCall.len]; omega)
      · refine mk _ (.tape (le16 I.params ++ List.replicate (I.seedSize - 2) 0) (List.replicate 32 0) 0 0) ⟨?_, rfl, hT, hN'⟩ rfl rfl (by simp only [HashCall.len]; omega)
        rw [List.length_append, z, le16_length]
        omega
    · obtain ⟨rfl, rfl⟩ := Prod.mk.inj h
      refine mk _ (.node (BitVec.ofNat 8 (I.params / 256) :: List.replicate (I.seedSize - 1) 0) (List.replicate 32 0) 0 0) ⟨?_, rfl, hT, by omega⟩ rfl (by rw [le _ hp]; rfl) (by simp only [HashCall.len]; omega)
      rw [List.length_cons, z]
      omega
    · obtain ⟨rfl, rfl⟩ := Prod.mk.inj h
      exact mk _ (.hash1 (BitVec.ofNat 8 (I.params / 256) :: List.replicate 31 0) (List.replicate (2 * I.ctSize) 0) [] reps1) ⟨rfl, hpk, r1, r1'⟩ rfl (by rw [le _ hp]; rfl) (by simp only [HashCall.len]; omega)
    · obtain ⟨rfl, rfl⟩ := Prod.mk.inj h
      exact mk _ (.hash2 (BitVec.ofNat 8 (I.params / 256) :: List.replicate 31 0) (List.replicate I.digestSize 0) ds) ⟨rfl, zd, hds⟩ rfl (by rw [le _ hp]; rfl) (by simp only [HashCall.len]; omega)
    · obtain ⟨rfl, rfl⟩ := Prod.mk.inj h
      exact mk _ (.hash3 (BitVec.ofNat 8 (I.params / 256) :: List.replicate 31 0) (List.replicate I.digestSize 0) reps3) ⟨rfl, zd, r3, r3'⟩ rfl (by rw [le _ hp]; rfl) (by simp only [HashCall.len]; omega)

/-- With `Banquet_L1_Param1` there are keys and a message for which the input that yields salt and seeds is an input of `h_1`. -/
example : ∃ F : FieldState, ∃ a b : HashCall, a.Sized F ⟨aes128Params, 32, 16, 31, 64, 10, 20, 4, 1⟩ ∧ b.Sized F ⟨aes128Params, 32, 16, 31, 64, 10, 20, 4, 1⟩ ∧ a.purpose = 0 ∧ b.purpose = 4 ∧
    a.input F ⟨aes128Params, 32, 16, 31, 64, 10, 20, 4, 1⟩ = b.input F ⟨aes128Params, 32, 16, 31, 64, 10, 20, 4, 1⟩ := by
  obtain ⟨J, h, hc⟩ := C36_consistent 1 (by norm_num) (by norm_num)
  obtain rfl : J = ⟨aes128Params, 32, 16, 31, 64, 10, 20, 4, 1⟩ := (Except.ok.inj h).symm
  obtain ⟨F, hF⟩ := init_supported hc.lambda
  exact ⟨F, (C48_exact _ F hc hF 0 4 (by norm_num)).2 (by unfold SharedPurposes; decide)⟩

/-- With the parameter sets of AES-256 the input that yields salt and seeds is shared with nothing. -/
example (q : Nat) (hq : 0 < q) (a b : HashCall) : ∃ F, a.Sized F ⟨aes256Params, 64, 32, 63, 64, 20, 25, 4, 18⟩ → b.Sized F ⟨aes256Params, 64, 32, 63, 64, 20, 25, 4, 18⟩ → a.purpose = 0 → b.purpose = q →
    a.input F ⟨aes256Params, 64, 32, 63, 64, 20, 25, 4, 18⟩ ≠ b.input F ⟨aes256Params, 64, 32, 63, 64, 20, 25, 4, 18⟩ := by
  obtain ⟨J, h, hc⟩ := C36_consistent 18 (by norm_num) (by norm_num)
  obtain rfl : J = ⟨aes256Params, 64, 32, 63, 64, 20, 25, 4, 18⟩ := (Except.ok.inj h).symm
  obtain ⟨F, hF⟩ := init_supported hc.lambda
  refine ⟨F, fun h1 h2 h3 h4 h5 => ?_⟩
  have := (C48_exact _ F hc hF 0 q hq).1 ⟨a, b, h1, h2, h3, h4, h5⟩
  unfold SharedPurposes at this
  simp [aes256Params] at this

end Banquet.Props
