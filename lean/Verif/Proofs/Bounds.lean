import Verif.Proofs.Keccak64State
import Verif.Proofs.KeccakX4
import Verif.Proofs.KeccakAvx2State
import Verif.Spec.Builds
import Verif.Spec.Fits

/-! In every build, reading and writing beyond the state is found by the model. -/

namespace Banquet

open Spec

namespace Avx2

theorem addLanes_ub (fuel : Nat) (m : Avx2.Mem) (data : Bytes) (i : Nat) (h : 200 < 8 * i + data.length) (hf : data.length ≤ fuel) (h0 : 0 < data.length) : Avx2.addLanes fuel m data i = .error .ub := by
  induction fuel generalizing m data i with
  | zero => omega
  | succ fuel ih =>
    rw [Avx2.addLanes]
    by_cases hi : i < 25
    · rw [if_pos (by omega), Avx2.mapAt_ok hi]
      have : ∀ x, ∃ m', Avx2.xorq m x Avx2.mapState[i] = .ok m' := fun x => ⟨_, dif_pos (Avx2.map_lt hi)⟩
      obtain ⟨m', e⟩ := this (Opt64.le64 (data.take 8))
      rw [show (Except.ok Avx2.mapState[i] >>= fun p => (do let m ← Avx2.xorq m (Opt64.le64 (data.take 8)) p; Avx2.addLanes fuel m (data.drop 8) (i + 1)) : M Avx2.Mem) =
        (do let m ← Avx2.xorq m (Opt64.le64 (data.take 8)) Avx2.mapState[i]; Avx2.addLanes fuel m (data.drop 8) (i + 1)) from rfl, e]
      exact ih m' (data.drop 8) (i + 1) (by rw [List.length_drop]; omega) (by rw [List.length_drop]; omega) (by rw [List.length_drop]; omega)
    · have e : Avx2.mapAt i = .error .ub := dif_neg hi
      rw [e, if_neg (show ¬ data.length = 0 by omega)]
      split <;> rfl

theorem addBytes_ub (m : Avx2.Mem) (data : Bytes) (offset : Nat) (h : 200 < offset + data.length) (ho : offset < 200) : Avx2.addBytes m data offset = .error .ub := by
  rw [Avx2.addBytes, if_neg (by omega)]
  split
  · exact Avx2.addLanes_ub _ m data _ (by omega) le_rfl (by omega)
  · simp only
    generalize hn : (if 8 - offset % 8 ≥ data.length then data.length else 8 - offset % 8) = n
    have hn' : n = 8 - offset % 8 ∧ n < data.length := by
      subst hn
      split <;> omega
    obtain ⟨m', e, -⟩ := Avx2.xorBytes_eq m (data.take n) (offset / 8) (offset % 8) (by omega) (by rw [List.length_take]; omega)
    rw [Nat.add_comm] at e
    rw [Avx2.mapAt_ok (show offset / 8 < 25 by omega)]
    have : (Except.ok Avx2.mapState[offset / 8] >>= fun p => (do let m ← Avx2.xorBytes m (data.take n) (offset % 8 + p); Avx2.addLanes data.length m (data.drop n) (offset / 8 + 1)) : M Avx2.Mem) =
      (do let m ← Avx2.xorBytes m (data.take n) (offset % 8 + Avx2.mapState[offset / 8]); Avx2.addLanes data.length m (data.drop n) (offset / 8 + 1)) := rfl
    rw [this, e]
    exact Avx2.addLanes_ub _ m' _ _ (by rw [List.length_drop]; omega) (by rw [List.length_drop]; omega) (by rw [List.length_drop]; omega)

theorem extractLanes_ub (m : Mem) (fuel i len : Nat) (h : 200 < 8 * i + len) (hf : len ≤ fuel) (h0 : 0 < len) : extractLanes m fuel i len = .error .ub := by
  induction fuel generalizing i len with
  | zero => omega
  | succ fuel ih =>
    rw [extractLanes]
    by_cases hi : i < 25
    · rw [if_pos (by omega), bindOk (mapAt_ok hi), bindOk (movq_eq m i hi), ih (i + 1) (len - 8) (by omega) (by omega) (by omega)]
      rfl
    · have e : mapAt i = .error .ub := dif_neg hi
      rw [e, if_neg (show ¬len = 0 by omega)]
      split <;> rfl

theorem extractBytes_ub (m : Mem) (offset len : Nat) (h : 200 < offset + len) (ho : offset < 200) : extractBytes m offset len = .error .ub := by
  rw [extractBytes, if_neg (by omega)]
  split
  · exact extractLanes_ub m _ _ _ (by omega) le_rfl (by omega)
  · simp only
    generalize hn : (if 8 - offset % 8 ≥ len then len else 8 - offset % 8) = n
    have hn' : n = 8 - offset % 8 ∧ n < len := by
      subst hn
      split <;> omega
    rw [bindOk (mapAt_ok (show offset / 8 < 25 by omega)), bindOk (movBytes_eq m n (offset / 8) (offset % 8) (by omega) (by omega)), extractLanes_ub m _ _ _ (by omega) (by omega) (by omega)]
    rfl

theorem bounded : Bounded snp := ⟨fun st data off _ ho h => addBytes_ub st data off h ho, fun st off len _ ho h => extractBytes_ub st off len h ho⟩

end Avx2

namespace X4

theorem addBytes_ub (s : Regs) (l : Fin 4) (data : Bytes) (offset : Nat) (h : 200 < offset + data.length) (ho : offset < 200) : addBytes s l data offset = .error .ub := by
  unfold addBytes
  simp only
  split
  · generalize hn : (if 8 - offset % 8 > data.length then data.length else 8 - offset % 8) = n
    have hn' : n = 8 - offset % 8 ∧ n < data.length := by
      subst hn
      split <;> omega
    obtain ⟨s1, e1, -⟩ := xorLane_eq s l (offset / 8) (offset % 8) (data.take n) (by omega) (by rw [List.length_take]; omega)
    rw [bindOk e1]
    exact addBytesLoop_ub l _ s1 _ _ (by rw [List.length_drop]; omega) (by rw [List.length_drop]; omega) (by rw [List.length_drop]; omega)
  · exact addBytesLoop_ub l _ s _ _ (by omega) (by omega) le_rfl

theorem extractLoop_ub (s : Regs) (l : Fin 4) (fuel pos len : Nat) (h : 200 < 8 * pos + len) (h0 : 0 < len) (hf : len ≤ fuel) : extractLoop s l fuel pos len = .error .ub := by
  induction fuel generalizing pos len with
  | zero => omega
  | succ fuel ih =>
    rw [extractLoop]
    by_cases hpos : pos < 25
    · rw [if_pos (by omega), bindOk (copyLane_eq s l pos 0 8 hpos (by omega)), ih (pos + 1) (len - 8) (by omega) (by omega) (by omega)]
      rfl
    · split
      · rw [copyLane_ub _ _ _ _ _ (by omega)]
        rfl
      · rw [copyLane_ub _ _ _ _ _ (by omega)]

theorem extractBytes_ub (s : Regs) (l : Fin 4) (offset len : Nat) (h : 200 < offset + len) (ho : offset < 200) : extractBytes s l offset len = .error .ub := by
  unfold extractBytes
  simp only
  split
  · generalize hn : (if 8 - offset % 8 > len then len else 8 - offset % 8) = n
    have hn' : n = 8 - offset % 8 ∧ n < len := by
      subst hn
      split <;> omega
    rw [bindOk (copyLane_eq s l (offset / 8) (offset % 8) n (by omega) (by omega)), extractLoop_ub s l _ _ _ (by omega) (by omega) (by omega)]
    rfl
  · exact extractLoop_ub s l _ _ _ (by omega) (by omega) le_rfl

theorem bounded : PlBounded plSnp := ⟨fun st l data off _ ho h => addBytes_ub st l data off h ho, fun st l off len _ ho h => extractBytes_ub st l off len h ho⟩

end X4

namespace Opt64

theorem bounded : Bounded snp := ⟨fun st data off h0 _ h => addBytes_ub st data off h (by omega) (by omega), fun st off len h0 _ h => extractBytes_ub st off len h (by omega) (by omega)⟩

theorem bounded4 : PlBounded plSnp := by
  refine ⟨fun st l data off h0 _ h => ?_, fun st l off len h0 _ h => extractBytes_ub (Vector.get st l) off len h (by omega) (by omega)⟩
  exact congrArg (fun y : M _ => y >>= _) (addBytes_ub (Vector.get st l) data off h (by omega) (by omega))

end Opt64

theorem Spec.ref_bounded (f : St → St) : Bounded (refSnp f) := ⟨fun _ _ _ _ _ h => if_neg (by omega), fun _ _ _ _ _ h => if_neg (by omega)⟩

end Banquet
