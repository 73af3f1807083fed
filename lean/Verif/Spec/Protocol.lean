import Verif.Spec.Cheat
import Verif.Spec.Challenge
import Mathlib.Data.Set.Card
import Mathlib.Data.Nat.Choose.Basic

/-! The interactive protocol behind the signature: all repetitions together. The prover sends tapes (committed) and corrections of key and S-box outputs, gets the challenges `r`, sends corrections of `P`, gets the
challenges `R`, sends values and shares, and gets the hidden parties. -/

namespace Banquet.Spec

/-- The last message of the prover in one repetition: claimed values, broadcasts and shares. -/
structure Opening where
  cR : W64
  aR : List W64
  bR : List W64
  bc : Nat → Bytes
  c : Nat → W64
  a : Nat → Nat → W64
  b : Nat → Nat → W64

/-- The verifier accepts one repetition when party `m` is hidden. -/
def RepAccepts (I : Instance) (pk : Bytes) (r : Rep) (rs : List W64) (R : W64) (o : Opening) (m : Nat) : Prop :=
  Completes I.lambda I (slice pk 0 I.ctSize) (slice pk I.ctSize I.ctSize) r m rs R o.cR o.aR o.bR o.bc o.c o.a o.b ∧
  ∑ j ∈ Finset.range I.m1, val I.lambda (o.aR.getD j 0) * val I.lambda (o.bR.getD j 0) = val I.lambda o.cR

/-- The challenges of the first round: `m1` field elements for each repetition. -/
def Round1 (I : Instance) : Set (Fin I.numRounds → List W64) := {rs | ∀ e, Elements I.lambda I.m1 (rs e)}

/-- The challenges of the second round: a field element outside the interpolation points of the S-boxes for each repetition. -/
def Round2 (I : Instance) : Set (Fin I.numRounds → W64) := {Rs | ∀ e, Reduced I.lambda (Rs e) ∧ Fresh I.lambda I.m2 (Rs e)}

/-- The challenges of the third round: a party for each repetition. -/
def Round3 (I : Instance) : Set (Fin I.numRounds → Nat) := {ms | ∀ e, ms e < I.numParties}

/-- The challenges of the third round for which all repetitions are accepted. -/
def Wins (I : Instance) (pk : Bytes) (r : Fin I.numRounds → Rep) (d : Fin I.numRounds → List W64) (rs : Fin I.numRounds → List W64) (Rs : Fin I.numRounds → W64) (o : Fin I.numRounds → Opening) :
    Set (Fin I.numRounds → Nat) :=
  {ms | ms ∈ Round3 I ∧ ∀ e, RepAccepts I pk { r e with pDelta := d e } (rs e) (Rs e) (o e) (ms e)}

/-- Bound for the number of challenges of the first round that help in at least `t` repetitions. -/
def few1 (I : Instance) (t : Nat) : Nat := I.numRounds.choose t * (((2 ^ (8 * I.lambda)) ^ (I.m1 - 1)) ^ t * ((2 ^ (8 * I.lambda)) ^ I.m1) ^ (I.numRounds - t))

/-- Bound for the number of challenges of the second round that help in at least `t` repetitions. -/
def few2 (I : Instance) (t : Nat) : Nat := I.numRounds.choose t * ((2 * I.m2) ^ t * (2 ^ (8 * I.lambda) - I.m2) ^ (I.numRounds - t))

end Banquet.Spec
