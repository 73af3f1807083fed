import Verif.Model.Keccak64
import Verif.Spec.Keccak
import Mathlib.Tactic.IntervalCases

/-! The portable permutation is Keccak-p[1600, 24]. -/

namespace Banquet.Opt64

open Spec

theorem rol64_eq (a : W64) {n : Nat} (h : n < 64) : rol64 a n = a.rotateLeft n := by
  rw [BitVec.rotateLeft_def, Nat.mod_eq_of_lt h, rol64]
  ext i hi
  simp only [BitVec.getElem_xor, BitVec.getElem_or, BitVec.getElem_shiftLeft, BitVec.getElem_ushiftRight]
  by_cases h1 : i < n
  · simp [h1]
  · rw [BitVec.getLsbD_of_ge _ _ (by omega)]
    simp

/-- Column parities. -/
def parity (A : Lanes) : Vector W64 5 := Vector.ofFn fun x =>
    lane A x 0 ^^^ lane A x 1 ^^^ lane A x 2 ^^^ lane A x 3 ^^^ lane A x 4

theorem prepareTheta_eq (A : Lanes) : prepareTheta A = parity A := by
  ext i hi
  interval_cases i <;> simp [prepareTheta, parity, lane]

theorem roundPrepare_fst (rc : W64) (A : Lanes) (C : Vector W64 5) : (roundPrepare rc A C).1 = roundLast rc A C := rfl

theorem roundPrepare_snd (rc : W64) (A : Lanes) (C : Vector W64 5) : (roundPrepare rc A C).2 = prepareTheta (roundPrepare rc A C).1 := rfl

theorem theta_get (A : Lanes) (i : Nat) (hi : i < 25) :
    (theta A)[i] = A[i] ^^^ ((parity A)[(i % 5 + 4) % 5] ^^^ ((parity A)[(i % 5 + 1) % 5]).rotateLeft 1) := by
  simp [theta, parity]

/-- Entry `i` of the state after θ, with the column parities `C` given. -/
def thetaAt (A : Lanes) (C : Vector W64 5) (i : Nat) (hi : i < 25) : W64 := A[i] ^^^ (C[(i % 5 + 4) % 5] ^^^ rol64 (C[(i % 5 + 1) % 5]) 1)

/-- Lane `(x, y)` after θ, ρ, π. -/
def bAt (A : Lanes) (C : Vector W64 5) (x y : Nat) : W64 :=
  let j := (x + 3 * y) % 5 + 5 * (x % 5)
  have hj : j < 25 := by omega
  if rhoOffsets[j] = 0 then thetaAt A C j hj else rol64 (thetaAt A C j hj) rhoOffsets[j]

theorem roundLast_get (rc : W64) (A : Lanes) (C : Vector W64 5) (i : Nat) (hi : i < 25) :
    (roundLast rc A C)[i] = if i = 0 then bAt A C 0 0 ^^^ (~~~ bAt A C 1 0 &&& bAt A C 2 0) ^^^ rc
      else bAt A C (i % 5) (i / 5) ^^^ (~~~ bAt A C ((i % 5 + 1) % 5) (i / 5) &&& bAt A C ((i % 5 + 2) % 5) (i / 5)) := by
  interval_cases i <;> rfl

theorem bAt_eq (A : Lanes) {x y : Nat} (hx : x < 5) (hy : y < 5) : bAt A (parity A) x y = (Spec.pi (rho (theta A)))[x + 5 * y] := by
  have e : ∀ j (hj : j < 25), thetaAt A (parity A) j hj = (theta A)[j] := by
    intro j hj
    rw [theta_get, thetaAt, rol64_eq _ (by decide)]
  have h1 : (x + 5 * y) % 5 = x := by omega
  have h2 : (x + 5 * y) / 5 = y := by omega
  have hr : ∀ j (hj : j < 25), rhoOffsets[j] < 64 := by decide
  simp only [bAt, Spec.pi, Vector.getElem_ofFn, lane, rho, h1, h2, Nat.mod_eq_of_lt hx, e, Fin.getElem_fin]
  split
  · next h =>
    rw [h, BitVec.rotateLeft_def]
    simp [BitVec.ushiftRight_eq_zero]
  · rw [rol64_eq _ (hr _ _)]

theorem roundLast_eq (rc : W64) (A : Lanes) : roundLast rc A (parity A) = keccakRound A rc := by
  ext i hi
  rw [roundLast_get, keccakRound]
  split
  · next h =>
    subst h
    rw [Vector.getElem_set_self, bAt_eq A (by decide) (by decide), bAt_eq A (by decide) (by decide), bAt_eq A (by decide) (by decide)]
    simp [chi, lane]
  · next h =>
    rw [Vector.getElem_set_ne _ _ (by omega), bAt_eq A (by omega) (by omega), bAt_eq A (by omega) (by omega), bAt_eq A (by omega) (by omega)]
    simp only [chi, Vector.getElem_ofFn, lane, Nat.mod_mod, Nat.mod_eq_of_lt (show i / 5 < 5 by omega)]

theorem roundPrepare_eq (rc : W64) (A : Lanes) : roundPrepare rc A (parity A) = (keccakRound A rc, parity (keccakRound A rc)) := by
  have h := roundPrepare_snd rc A (parity A)
  rw [prepareTheta_eq] at h
  rw [roundPrepare_fst, roundLast_eq] at h
  exact Prod.ext ((roundPrepare_fst _ _ _).trans (roundLast_eq _ _)) h

theorem rounds_eq (l : List W64) (A : Lanes) :
    l.foldl (fun (s : Lanes × Vector W64 5) rc => roundPrepare rc s.1 s.2) (A, parity A) = (l.foldl keccakRound A, parity (l.foldl keccakRound A)) := by
  induction l generalizing A with
  | nil => rfl
  | cons rc l ih => rw [List.foldl_cons, List.foldl_cons, roundPrepare_eq, ih]

theorem consts_eq : ((List.finRange 23).map fun i => roundConstants[i.val]) ++ [roundConstants[23]] = Spec.roundConstants := by decide

theorem rounds24_eq (A : Lanes) : rounds24 A = keccakLanes A := by
  have h : (List.finRange 23).foldl (fun (s : Lanes × Vector W64 5) i => roundPrepare roundConstants[i.val] s.1 s.2) (A, prepareTheta A)
      = ((List.finRange 23).map fun i => roundConstants[i.val]).foldl (fun (s : Lanes × Vector W64 5) rc => roundPrepare rc s.1 s.2) (A, parity A) := by
    rw [List.foldl_map, prepareTheta_eq]
  rw [rounds24, h, rounds_eq, keccakLanes, ← consts_eq, List.foldl_append]
  exact roundLast_eq _ _

end Banquet.Opt64
