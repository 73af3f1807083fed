import Verif.Model.Loops

/-! The table lookups of `banquet_sign`: `lift_uint8_t` (field.cpp:314) reads `lifting_lut[value]`, a table of 256 field elements (field.cpp:14). The definitions run the code up to the lookups and record the indices in order. -/

namespace Banquet.Loops

/-- Indices of banquet.cpp:519-525: the interpolation of `S_poly` and `T_poly` from the recorded S-box pairs, two lookups per pass. The rest of the loop body makes no lookups and is left out. -/
def productLookups (I : Instance) (saved : Saved) (l : Bytes) : M Bytes :=
  forTo I.m1 (fun j l => forTo I.m2 (fun k l => do
    let x ← rd saved.1 (j + I.m1 * k)
    let y ← rd saved.2 (j + I.m1 * k)
    .ok (l ++ [x, y])) l) l

/-- Indices of banquet.cpp:540-566: all shares of all parties in all repetitions, two lookups per pass. The rest of the loop bodies makes no lookups and is left out. -/
def shareLookups (I : Instance) (s t : RepContainer Byte) (l : Bytes) : M Bytes :=
  forTo I.numRounds (fun e l => forTo I.numParties (fun p l => forTo I.aes.numSboxes (fun i l => do
    let x ← spanRd s e p i
    let y ← spanRd t e p i
    .ok (l ++ [x, y])) l) l) l

/-- All indices of `lifting_lut` that `banquet_sign` reads (banquet.cpp:290-566), in the order of the reads: the first part of `signWith` up to the shares, then the two loops above. What lies between (hashing, interpolation) and after them makes no lookups. -/
def signLookups (X : Xof) (I : Instance) (sk pk msg : Bytes) : M Bytes := do
  require .ub (decide (2 * I.ctSize ≤ pk.length))
  let pt := slice pk 0 I.ctSize
  checkAes I.aes
  require .ub (decide (I.aes.keySize ≤ sk.length))
  let saved := (aesSave I.aes.keySize (sk.take I.aes.keySize) pt).2
  let salt := genSalt X I sk pk msg
  let seeds := (List.range I.numRounds).map (genSeed X I sk pk msg)
  let tr ← forTo I.numRounds (signTree X I salt seeds) ⟨[], .mk' 0 I.numRounds I.numParties I.digestSize, .mk' 0 I.numRounds I.numParties I.tapeSize⟩
  let sh ← forTo I.numRounds (signShares I sk pt saved.2 tr.tapes)
    ⟨.mk' 0 I.numRounds I.numParties I.aes.keySize, .mk' 0 I.numRounds I.numParties I.ctSize, .mk' 0 I.numRounds I.numParties I.aes.numSboxes, .mk' 0 I.numRounds I.numParties I.aes.numSboxes, [], []⟩
  let l ← productLookups I saved []
  shareLookups I sh.s sh.t l

end Banquet.Loops
