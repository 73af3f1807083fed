import Verif.Spec.Rep

/-! What is revealed about one repetition. -/

namespace Banquet.Spec

/-- What a verifier learns about one repetition, besides seeds and commitments: corrections, broadcasts, values at `R` and all shares of them. -/
structure RepView where
  keyDelta : Bytes
  tDelta : Bytes
  broadcasts : List Bytes
  pDelta : List W64
  values : Rep3

/-- The computation of the signer in one repetition with given tapes: `signShares`, `signRep2` and `signRep3` called as in `signWith` (banquet.cpp:386-461, 476-538, 540-656, 688-724). The tree and the
commitments are only stored. -/
def repView (F : FieldState) (I : Instance) (sk pt : Bytes) (rs : List W64) (R : W64) (tree : SeedTree) (commitments tapes : List Bytes) : M RepView := do
  let saved := (aesSave I.aes.keySize sk pt).2
  let r1 := signShares I sk pt saved.2 tree commitments tapes
  let P := precomp F I
  let last := P.lagM2.getD I.m2 []
  let lastSq ← F.polyMul last last
  let prods ← (List.range I.m1).mapM (signProducts F I P saved)
  let r2 ← signRep2 F I P lastSq prods rs r1
  let r3 ← signRep3 F I P R r2
  .ok ⟨r1.keyDelta, r1.tDelta, r1.ctShares, r2.pDelta, r3⟩

/-- The part of a view that is sent in the signature, without `P(R)`, which is determined by the `S_j(R)` and `T_j(R)`. -/
def RepView.sent (lam : Nat) (v : RepView) : Bytes :=
  v.keyDelta ++ v.tDelta ++ v.pDelta.flatMap (leDigits lam) ++ v.values.a.flatMap (leDigits lam) ++ v.values.b.flatMap (leDigits lam)

end Banquet.Spec
