import Verif.Proofs.Threads
import Verif.Props.Api

/-! C73: threads that sign and verify at the same time and share the globals of the field. -/

namespace Banquet.Props
open Spec Threads

theorem init_table {lam : Nat} {F : FieldState} (h : initExtensionField lam = .ok F) : F.lut.length = 256 := by
  rcases (initExtensionField_ok h).2.2 with rfl | rfl | rfl | rfl <;> (cases h; decide +kernel)

theorem init_checked {lam : Nat} {F : FieldState} (h : initExtensionField lam = .ok F) : Known.none.check F (initWrites lam) = true := by
  rcases (initExtensionField_ok h).2.2 with rfl | rfl | rfl | rfl
  · exact check2 F h
  · exact check4 F h
  · exact check5 F h
  · exact check6 F h

/-- C73 in full: whatever the fields of the threads and the schedule, a thread past the initialisation of its call has the globals of its own field. -/
def C73_statement : Prop :=
  ∀ (G : FieldState) (lambdas : List Nat), G.lut.length = 256 → (∀ l ∈ lambdas, Supported l) → ∀ (schedule : List Nat) (th : Thread), th ∈ ((start G lambdas).run schedule).threads → th.left = [] → 1 ≤ th.finished →
    initExtensionField th.lambda = .ok ((start G lambdas).run schedule).globals

/-- C73 with threads of one field: from any globals, any number of threads and any schedule, once a thread has finished its first initialisation, the globals are those of the field, and stay so, also while other threads
write them again. -/
theorem C73_partial (G : FieldState) (hG : G.lut.length = 256) (lam : Nat) (hlam : Supported lam) (count : Nat) (schedule : List Nat) (th : Thread)
    (hth : th ∈ ((start G (List.replicate count lam)).run schedule).threads) (hf : 1 ≤ th.finished) : initExtensionField lam = .ok ((start G (List.replicate count lam)).run schedule).globals := by
  obtain ⟨F, hF⟩ := init_supported hlam
  have h0 : AllFine F lam (start G (List.replicate count lam)) := by
    refine ⟨hG, fun th hth => ?_⟩
    simp only [start, List.map_replicate] at hth
    cases List.eq_of_mem_replicate hth
    exact ⟨rfl, ⟨Known.none, ⟨(fun _ h => by cases h), (by simp [Known.none]), (by simp [Known.none]), (by simp [Known.none])⟩, (by simp [Known.none]), init_checked hF⟩, (fun h => by simp at h)⟩
  obtain ⟨-, h⟩ := run_fine (init_table hF) (init_checked hF) _ h0 schedule
  rw [(h th hth).2.2 hf, hF]

/-- The hypotheses are met by three threads with the field of 2^40 elements from zero-initialised globals; the schedule lets the threads take turns, so that all of them finish one initialisation. -/
example : ∃ th ∈ ((start FieldState.initial (List.replicate 3 5)).run ((List.range (3 * (initWrites 5).length)).map (· % 3))).threads, 1 ≤ th.finished := by decide +kernel

/-- C73: the signature and the verdict a thread computes from these globals are those of sign and verify alone. -/
theorem C73_calls (G : FieldState) (hG : G.lut.length = 256) (I : Instance) (hI : Consistent I) (count : Nat) (schedule : List Nat) (th : Thread)
    (hth : th ∈ ((start G (List.replicate count I.lambda)).run schedule).threads) (hf : 1 ≤ th.finished) (X : Xof) (fuel : Nat) :
    (∀ sk pk msg, signWith X fuel ((start G (List.replicate count I.lambda)).run schedule).globals I sk pk msg = sign X fuel I sk pk msg) ∧
    (∀ pk sig msg, verifyWith X (List.replicate I.seedSize 0) fuel ((start G (List.replicate count I.lambda)).run schedule).globals I pk sig msg = verify X fuel I pk sig msg) := by
  have h := C73_partial G hG I.lambda hI.lambda count schedule th hth hf
  refine ⟨fun sk pk msg => ?_, fun pk sig msg => ?_⟩
  · rw [sign, h, ok_bind]
  · rw [verify, h, ok_bind]

/-- C73 fails: while the first thread signs with the field of 2^32 elements, the second initialises the field of 2^48 elements. -/
theorem C73_violated : ¬C73_statement := by
  intro h
  have h1 := h FieldState.initial [4, 6] List.length_replicate (by intro l hl; unfold Supported; rcases List.mem_pair.1 hl with rfl | rfl <;> decide) (List.replicate (initWrites 4).length 0 ++ [1, 1, 1])
  have ⟨th, m1, m2, m3, m4, m5⟩ : ∃ th ∈ ((start FieldState.initial [4, 6]).run (List.replicate (initWrites 4).length 0 ++ [1, 1, 1])).threads, th.left.isEmpty = true ∧ 1 ≤ th.finished ∧ th.lambda = 4 ∧
      ((start FieldState.initial [4, 6]).run (List.replicate (initWrites 4).length 0 ++ [1, 1, 1])).globals.byteSize = 6 := by decide +kernel
  have h2 := (initExtensionField_ok (h1 th m1 (List.isEmpty_iff.1 m2) m3)).2.1
  omega

/-- C73 fails, a table of no field: the two initialisations run at the same time, and in the end the first thread is past its own with the reduction, the modulus and the size of the field of 2^32 elements and the table entry 2 of
the field of 2^48 elements. -/
theorem C73_mixed_violated : ∃ schedule, ∃ th ∈ ((start FieldState.initial [4, 6]).run schedule).threads, th.left.isEmpty = true ∧ th.lambda = 4 ∧
    ((start FieldState.initial [4, 6]).run schedule).globals.byteSize = 4 ∧ ((start FieldState.initial [4, 6]).run schedule).globals.reducer = .r32 ∧
    (initExtensionField 4).map (fun F => F.lut.getD 2 0) ≠ .ok (((start FieldState.initial [4, 6]).run schedule).globals.lut.getD 2 0) ∧
    (initExtensionField 6).map (fun F => F.lut.getD 2 0) = .ok (((start FieldState.initial [4, 6]).run schedule).globals.lut.getD 2 0) :=
  ⟨[1, 1, 1] ++ List.replicate (initWrites 4).length 0 ++ [1, 1, 1, 1], by decide +kernel⟩

/-- C73 fails, out of bounds: in such a state the first thread cannot read any signature without leaving the bytes. -/
theorem C73_read_violated : ∃ schedule, ∃ th ∈ ((start FieldState.initial [4, 6]).run schedule).threads, th.left.isEmpty = true ∧ 1 ≤ th.finished ∧ th.lambda = smallInstance.lambda ∧
    ∀ (X : Xof) (fuel : Nat) (bs : Bytes), deserialize X fuel ((start FieldState.initial [4, 6]).run schedule).globals smallInstance bs = .error .ub := by
  have ⟨th, m1, m2, m3, m4, m5⟩ : ∃ th ∈ ((start FieldState.initial [4, 6]).run (List.replicate (initWrites 4).length 0 ++ [1, 1, 1])).threads, th.left.isEmpty = true ∧ 1 ≤ th.finished ∧ th.lambda = 4 ∧
      ((start FieldState.initial [4, 6]).run (List.replicate (initWrites 4).length 0 ++ [1, 1, 1])).globals.byteSize = 6 := by decide +kernel
  refine ⟨_, th, m1, m2, m3, m4, fun X fuel bs => ?_⟩
  simp only [deserialize, deserializeRest, m5]
  rfl

end Banquet.Props
