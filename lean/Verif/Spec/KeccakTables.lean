import Verif.Spec.Keccak

/-! The tables of Keccak-p[1600, 24] computed by the algorithms of FIPS 202. -/

namespace Banquet.Spec

/-- One step of the register of algorithm 5 (rc): `R = 0 ‖ R`, then `R[0], R[4], R[5], R[6]` are XORed with `R[8]`, and `R` is cut to 8 bits. Bit `i` of the number is `R[i]`. -/
def rcStep (r : BitVec 8) : BitVec 8 :=
  let s : BitVec 9 := r.setWidth 9 <<< 1
  let s := if s.getLsbD 8 then s ^^^ 0b001110001 else s
  s.setWidth 8

/-- Algorithm 5: `rc(t)`. -/
def rcBit (t : Nat) : Bool := (rcStep^[t % 255] 1).getLsbD 0

/-- Steps 2 and 3 of algorithm 6 (ι): `RC[2^j - 1] = rc(j + 7 i_r)` for `j = 0 … 6`. -/
def roundConstant (ir : Nat) : BitVec 64 :=
  (List.range 7).foldl (fun rc j => if rcBit (j + 7 * ir) then rc ||| (1#64 <<< (2 ^ j - 1)) else rc) 0

/-- Algorithm 2 (ρ), steps 2 and 3: the lanes `(x, y)` in the order of `t = 0, …`, with their offsets `(t+1)(t+2)/2`. -/
def rhoWalk : Nat → Nat → Nat × Nat → List ((Nat × Nat) × Nat)
  | 0, _, _ => []
  | n + 1, t, (x, y) => ((x, y), (t + 1) * (t + 2) / 2) :: rhoWalk n (t + 1) (y, (2 * x + 3 * y) % 5)

/-- Offset of lane `(x, y)` modulo 64; 0 for lane `(0, 0)`. -/
def rhoOffset (x y : Nat) : Nat := (((rhoWalk 24 0 (1, 0)).find? fun e => e.1 = (x, y)).map fun e => e.2 % 64).getD 0

end Banquet.Spec
